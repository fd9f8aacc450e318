import Verif.Lemmas.RegFieldUpdate
/-! # C12-C15: register fields -/
namespace Verif.RegField

/-- A field as a user can have it: configured, then any history of operations. -/
def Reachable (f : Field) : Prop :=
  ∃ us size a vol rst hr ops, f = steps (configure us size a vol rst hr) ops

theorem reachable_fits {f : Field} (h : Reachable f) : Fits f := by
  obtain ⟨us, size, a, vol, rst, hr, ops, rfl⟩ := h
  exact (fits_steps ops (fits_configure us size a vol rst hr)).1

/-! ## C12 -/

/-- C12. For every reachable field, every value (any Python integer) and every rights of the map: the mirrored
value after a front-door write is, bit by bit, what the documentation of the policy in force in that map says,
and it fits the field; desired and mirrored agree afterwards and the field counts as written. -/
theorem C12_write_follows_documented_policy (f : Field) (hf : Reachable f) (v : Int) (r : Rights) (busy : Bool) :
    ∃ f', doPredict f v .write .front r true busy = some (f', true) ∧
      f'.mirrored < 2 ^ f.size ∧
      (∀ i, i < f.size → f'.mirrored.testBit i =
        (doc (getAccess f r)).1.bit f.written (f.mirrored.testBit i) (intBit v i)) ∧
      f'.desired = f'.mirrored ∧ f'.written = true := by
  have hF := reachable_fits hf
  refine ⟨_, rfl, ?_⟩
  have hr := xpredict_result f f.mirrored (maskInt f.size v) r hF.mirrored (maskInt_lt _ _)
  have e : xpredict f f.mirrored (maskInt f.size v) r &&& mask f = xpredict f f.mirrored (maskInt f.size v) r := by
    rw [mask, Nat.and_two_pow_sub_one_eq_mod, Nat.mod_eq_of_lt hr.1]
  simp only [if_true, e]
  refine ⟨hr.1, ?_, trivial, trivial⟩
  intro i hi
  rw [hr.2 i hi, maskInt_testBit _ _ _ hi]

/-- C12. With read-write rights (and through the backdoor map) the policy in force is the field's own. -/
theorem C12_full_rights (f : Field) : getAccess f .RW = f.access ∧ getAccess f .backdoor = f.access := ⟨rfl, rfl⟩

/-- C12. Through a read-only map a write never changes a field with a predefined policy, and the effect of a read
is the field's own (a write-only field is not accessible). -/
theorem C12_read_only_rights (f : Field) (hp : f.access ≠ .NOACCESS) (hu : ∀ n, f.access ≠ .user n) :
    (doc (getAccess f .RO)).1 = .noEffect ∧
    (doc (getAccess f .RO)).2 = (if (doc f.access).2 = .error then .noEffect else (doc f.access).2) := by
  cases ha : f.access <;> simp [getAccess, ha, doc] at hp hu ⊢

/-- C91 fails through a write-only map: no field can be written through it, not even a plain RW or WO one. -/
theorem C91_write_only_rights_fails (f : Field) : getAccess f .WO = .NOACCESS := by
  simp [getAccess]

/-- C12. Reads: a front-door read of value `v` leaves the field with the documented read effect applied to what
was read: cleared, set, or the value read; write-only fields keep their mirrored value. -/
theorem C12_read_follows_documented_policy (f : Field) (v : Int) (r : Rights) (busy : Bool) :
    ∃ f', doPredict f v .read .front r true busy = some (f', true) ∧ f'.written = f.written ∧
      f'.mirrored = (match (doc (getAccess f r)).2 with
        | .clears => 0
        | .sets => 2 ^ f.size - 1
        | .error => f.mirrored
        | .noEffect => if getAccess f r = .NOACCESS then f.mirrored else maskInt f.size v) := by
  have hm : maskInt f.size v &&& mask f = maskInt f.size v := by
    rw [mask, Nat.and_two_pow_sub_one_eq_mod, Nat.mod_eq_of_lt (maskInt_lt _ _)]
  have hmm : mask f &&& mask f = 2 ^ f.size - 1 := by simp [mask]
  have h0 : 0 &&& mask f = 0 := by simp
  simp only [doPredict, if_true, hm, hmm, h0]
  cases getAccess f r <;> exact ⟨_, rfl, rfl, rfl⟩

/-- C12. `set` modifies the desired value exactly like a physical write modifies the field (documentation of `set`). -/
theorem C12_set_like_a_write (f : Field) (hf : Reachable f) (v : Int) :
    (set f v).desired < 2 ^ f.size ∧
    (∀ i, i < f.size → (set f v).desired.testBit i =
      (doc f.access).1.bit f.written (f.desired.testBit i) (intBit v i)) ∧
    (set f v).mirrored = f.mirrored := by
  have hF := reachable_fits hf
  have h := set_desired f v hF.acc hF.desired
  refine ⟨h.1, fun i hi => ?_, rfl⟩
  rw [h.2 i hi, maskInt_testBit _ _ _ hi]

/-- C91. A byte-enable of 0 makes the prediction raise instead of being ignored. -/
theorem C91_disabled_lane_raises_fails (f : Field) (v : Int) (k : PKind) (p : Path) (r : Rights) (busy : Bool) :
    doPredict f v k p r false busy = none := by simp [doPredict]

/-- C12. A direct prediction sets the field to the value given; it is reported as failed while the register is
being accessed (although the value is then set nevertheless). Backdoor accesses behave like a direct prediction. -/
theorem C12_direct_and_backdoor (f : Field) (v : Int) (r : Rights) (p : Path) (busy : Bool) :
    ∃ f', doPredict f v .direct p r true busy = some (f', !busy) ∧
      f'.mirrored = maskInt f.size v ∧ f'.desired = f'.mirrored ∧ f'.written = f.written ∧
      doPredict f v .read .other r true busy = some (f', true) ∧
      doPredict f v .write .other r true busy = some ({ f' with written := true }, true) := by
  have hm : maskInt f.size v &&& mask f = maskInt f.size v := by
    rw [mask, Nat.and_two_pow_sub_one_eq_mod, Nat.mod_eq_of_lt (maskInt_lt _ _)]
  refine ⟨_, rfl, rfl, rfl, rfl, ?_, ?_⟩ <;> simp [doPredict, hm]

/-- C12. A new field holds 0, was never written, is compared on mirror checks unless volatile, and has exactly the
hard reset it was configured with; its policy is the one asked for, or RW if that is unknown. -/
theorem C12_new_field (us : List Nat) (size : Nat) (a : Acc) (vol : Bool) (rst : Int) (hr : Bool) :
    let f := configure us size a vol rst hr
    f.mirrored = 0 ∧ f.desired = 0 ∧ f.written = false ∧ f.check = !vol ∧ f.volatile = vol ∧
    f.access = (if known us a then a else .RW) ∧
    (∀ k, f.reset k = if k = "HARD" ∧ hr = true then some (maskInt f.size rst) else none) := by
  cases hk : known us a <;> cases hr <;> simp [configure, hk, setReset]

/-- C12. The known policies are the predefined ones and those the user has defined; `NOACCESS` is not a policy to ask for. -/
theorem C12_policy (us : List Nat) (size : Nat) (a : Acc) (vol : Bool) (rst : Int) (hr : Bool) :
    (configure us size a vol rst hr).access = (match a with
      | .NOACCESS => .RW
      | .user n => if n ∈ us then .user n else .RW
      | p => p) := by
  have := (C12_new_field us size a vol rst hr).2.2.2.2.2.1
  rw [this]
  cases a <;> simp [known]

/-! ## C13 -/

/-- C13. From any reachable field in sync (desired = mirrored), after any sequence of `set` calls: if the field is
not volatile and needs no update it is at its desired value; and if it needs one, front-door writing the value
chosen for the update (with full rights) brings the mirrored value to exactly the desired value. -/
theorem C13_set_then_update (f : Field) (hf : Reachable f) (hs : f.desired = f.mirrored) (vs : List Int) (busy : Bool) :
    let g := vs.foldl set f
    (needsUpdate g = false → g.mirrored = g.desired) ∧
    (needsUpdate g = true → g.volatile = false →
      ∃ g', doPredict g (xupdate g) .write .front .RW true busy = some (g', true) ∧
        g'.mirrored = g.desired ∧ g'.desired = g.desired ∧ (g'.volatile = false → needsUpdate g' = false)) := by
  intro g
  have hF := reachable_fits hf
  have h0 : SetRel f.size (doc f.access).1 f.written f.mirrored f.desired := by rw [hs]; exact setRel_refl _ _ _ _
  obtain ⟨hG, e1, e2, e3, e4, e5, hrel⟩ := sets_fold vs f hF f.mirrored hF.mirrored h0
  have hrel : SetRel g.size (doc g.access).1 g.written g.mirrored g.desired := by
    have : g.mirrored = f.mirrored := e4
    rw [this]; exact hrel
  constructor
  · intro h; simp only [needsUpdate, Bool.or_eq_false_iff] at h; simpa using h.1
  · intro hn hv
    have hne : g.desired ≠ g.mirrored := by
      simp only [needsUpdate, hv, Bool.or_false, bne_iff_ne, ne_eq] at hn
      exact fun e => hn e.symm
    have hc : core g.size g.written g.mirrored (xupdate g) g.access = g.desired := by
      rcases update_core g hG.desired hG.mirrored hrel with h | h
      · exact absurd h hne
      · exact h
    have hx : xpredict g g.mirrored (maskInt g.size (xupdate g)) .RW = g.desired := by
      rw [xpredict_core, maskInt_of_lt (xupdate_lt g)]; exact hc
    have hand : g.desired &&& mask g = g.desired := by
      rw [mask, Nat.and_two_pow_sub_one_eq_mod, Nat.mod_eq_of_lt hG.desired]
    refine ⟨_, rfl, ?_⟩
    simp only [if_true, hx, hand, needsUpdate]
    refine ⟨trivial, trivial, fun h => ?_⟩
    simp [h]

/-- C13 fails through a write-only map: after `set` of a plain RW field the update leaves the old value. -/
theorem C13_update_through_write_only_map_fails :
    ∃ f v g', Reachable f ∧ f.desired = f.mirrored ∧ f.volatile = false ∧
      doPredict (set f v) (xupdate (set f v)) .write .front .WO true false = some (g', true) ∧
      g'.mirrored ≠ (set f v).desired := by
  refine ⟨configure [] 4 .RW false 0 true, 5, _, ⟨[], 4, .RW, false, 0, true, [], rfl⟩, rfl, rfl, rfl, by decide⟩

/-! ## C14 -/

/-- C14. After every history of operations, desired, mirrored and value, and every reset value, fit the field;
the size never changes and is at least 1. -/
theorem C14_values_fit (us : List Nat) (size : Nat) (a : Acc) (vol : Bool) (rst : Int) (hr : Bool) (ops : List Op) (k : Kind) :
    let f := steps (configure us size a vol rst hr) ops
    f.size = max size 1 ∧ f.desired < 2 ^ f.size ∧ f.mirrored < 2 ^ f.size ∧ f.value < 2 ^ f.size ∧
      getReset f k < 2 ^ f.size := by
  intro f
  obtain ⟨h, hs⟩ := fits_steps ops (fits_configure us size a vol rst hr)
  have hsz : (configure us size a vol rst hr).size = max size 1 := by
    simp only [configure]
    split <;> split <;> simp only [setReset] <;> split <;> omega
  refine ⟨hs.trans hsz, h.desired, h.mirrored, h.value, ?_⟩
  simp only [getReset]
  cases hk : f.reset k with
  | none => exact h.desired
  | some v => exact h.reset k v hk

/-! ## C15 -/

/-- C15. After `reset(kind)`, a field with a reset of that kind has exactly that value as desired and mirrored value,
needs no update unless volatile, and after a hard reset counts as not written; without a reset of that kind nothing changes. -/
theorem C15_reset (f : Field) (k : Kind) :
    (∀ v, f.reset k = some v → (reset f k).desired = v ∧ (reset f k).mirrored = v ∧ getReset f k = v ∧
      needsUpdate (reset f k) = f.volatile ∧ (k = "HARD" → (reset f k).written = false) ∧
      (k ≠ "HARD" → (reset f k).written = f.written)) ∧
    (f.reset k = none → reset f k = f) := by
  constructor
  · intro v hv
    simp only [reset, hv, getReset]
    by_cases hk : k = "HARD"
    · simp [hk, needsUpdate]
    · simp [hk, needsUpdate]
  · intro h; simp [reset, h]

/-- C15. Through any history, the value restored is the one of the last `set_reset` of that kind (modulo the field size),
as long as it has not been deleted since. -/
theorem C15_last_set_reset_wins (f : Field) (v : Int) (k : Kind) (ops : List Op)
    (hops : ∀ op ∈ ops, (∀ w, op ≠ .setReset w k) ∧ op ≠ .hasReset k true) :
    (reset (steps (setReset f v k) ops) k).desired = maskInt f.size v ∧
    (reset (steps (setReset f v k) ops) k).mirrored = maskInt f.size v := by
  have key : ∀ (ops : List Op) (g : Field), (∀ op ∈ ops, (∀ w, op ≠ .setReset w k) ∧ op ≠ .hasReset k true) →
      (steps g ops).reset k = g.reset k := by
    intro ops
    induction ops with
    | nil => intro g _; rfl
    | cons op ops ih =>
      intro g h
      have h1 := h op (by simp)
      show (steps (step g op) ops).reset k = _
      rw [ih _ (fun o ho => h o (by simp [ho]))]
      cases op with
      | set v => rfl
      | reset k' =>
        simp only [step, reset]; cases g.reset k' with
        | none => rfl
        | some v => simp only; split <;> rfl
      | setReset w k' =>
        have : k ≠ k' := fun e => h1.1 w (by rw [e])
        simp [step, setReset, this]
      | hasReset k' d =>
        simp only [step, hasReset]
        cases g.reset k' with
        | none => rfl
        | some v =>
          cases d with
          | false => rfl
          | true =>
            have : k ≠ k' := fun e => h1.2 (by rw [e])
            simp [this]
      | setAccess us a => simp only [step, setAccess]; split <;> rfl
      | setVolatility v => rfl
      | predict v k' p r b =>
        simp only [step]
        cases e : doPredict g v k' p r true b with
        | none => rfl
        | some x =>
          simp only [doPredict] at e
          cases k' with
          | write => simp at e; rw [← e]
          | read =>
            simp only at e
            split at e
            · simp at e
            · split at e
              · split at e <;> (simp at e; rw [← e])
              · simp at e; rw [← e]
          | direct => simp at e; rw [← e]
      | randomize v => simp only [step]; split <;> rfl
  have h := key ops (setReset f v k) hops
  have h2 : (setReset f v k).reset k = some (maskInt f.size v) := by simp [setReset]
  rw [h2] at h
  have := (C15_reset (steps (setReset f v k) ops) k).1 _ h
  exact ⟨this.1, this.2.1⟩

/-- C15. A write-once field takes the first write after a hard reset as-is and ignores every further one. -/
theorem C15_write_once_after_hard_reset (f : Field) (hf : Reachable f) (ha : f.access = .W1 ∨ f.access = .WO1) (rv : Nat)
    (hr : f.reset "HARD" = some rv) (v w : Int) (b1 b2 : Bool) :
    ∃ g g', doPredict (reset f "HARD") v .write .front .RW true b1 = some (g, true) ∧ g.mirrored = maskInt f.size v ∧
      doPredict g w .write .front .RW true b2 = some (g', true) ∧ g'.mirrored = g.mirrored := by
  have hF := reachable_fits hf
  have e : reset f "HARD" = { f with mirrored := rv, desired := rv, value := rv, written := false } := by
    simp [reset, hr]
  have hand : ∀ x, x < 2 ^ f.size → x &&& (2 ^ f.size - 1) = x := by
    intro x hx; rw [Nat.and_two_pow_sub_one_eq_mod, Nat.mod_eq_of_lt hx]
  have hv := maskInt_lt f.size v
  rw [e]
  refine ⟨_, _, rfl, ?_, rfl, ?_⟩
  · rcases ha with ha | ha <;> simp [xpredict, getAccess, ha, mask, Nat.mod_eq_of_lt hv]
  · rcases ha with ha | ha <;> simp [xpredict, getAccess, ha, mask]

-- Non-vacuity: a 4-bit W1C field with mirrored 0b1111, set 0b0101, update, checked against the model.
def sampleField : Field := steps (configure [] 4 .W1C false 0xF true) [.reset "HARD"]
example : Reachable sampleField := ⟨[], 4, .W1C, false, 0xF, true, [.reset "HARD"], rfl⟩
example : sampleField.mirrored = 15 ∧ (set sampleField 5).desired = 10 ∧ xupdate (set sampleField 5) = 5 := by decide
example : needsUpdate (set sampleField 5) = true ∧ (set sampleField 5).volatile = false := by decide
example : Acc.W0CRS ≠ .NOACCESS ∧ ∀ n, Acc.W0CRS ≠ .user n := by simp

/-- The policies that count as predefined. -/
theorem predefined_iff (a : Acc) : predefined a = true ↔ a ≠ .NOACCESS ∧ ∀ n, a ≠ .user n := by
  cases a <;> simp [predefined]
example : sampleField.reset "HARD" = some 15 := by decide

end Verif.RegField
