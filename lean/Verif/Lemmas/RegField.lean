import Verif.Spec.RegField
namespace Verif.RegField
open Verif.SvBits (andNot)

theorem andNot_testBit (v m i : Nat) : (andNot v m).testBit i = (v.testBit i && !m.testBit i) := by
  simp only [andNot, Nat.testBit_xor, Nat.testBit_and]
  cases v.testBit i <;> cases m.testBit i <;> rfl

theorem mask_testBit (f : Field) (i : Nat) : (mask f).testBit i = decide (i < f.size) :=
  Nat.testBit_two_pow_sub_one _ _

theorem lt_of_testBit {x n : Nat} (h : ∀ i, n ≤ i → x.testBit i = false) : x < 2 ^ n :=
  Nat.lt_pow_two_of_testBit x h

theorem testBit_high {x n i : Nat} (h : x < 2 ^ n) (hi : n ≤ i) : x.testBit i = false :=
  Nat.testBit_lt_two_pow (Nat.lt_of_lt_of_le h (Nat.pow_le_pow_right (by omega) hi))

theorem maskInt_lt (n : Nat) (v : Int) : maskInt n v < 2 ^ n := by
  have hp : (0 : Int) < ((2 ^ n : Nat) : Int) := by exact_mod_cast Nat.two_pow_pos n
  have h1 := Int.emod_nonneg v (Int.ne_of_gt hp)
  have h2 := Int.emod_lt_of_pos v hp
  simp only [maskInt]
  omega

theorem maskInt_nat (n : Nat) (v : Nat) : maskInt n v = v % 2 ^ n := by
  simp only [maskInt]
  rw [← Int.natCast_emod]; rfl

theorem maskInt_of_lt {n : Nat} {v : Nat} (h : v < 2 ^ n) : maskInt n v = v := by
  rw [maskInt_nat, Nat.mod_eq_of_lt h]

theorem setValue_eq (n : Nat) (v : Int) :
    (if v / (2 ^ n : Nat) ≠ 0 then maskInt n v else v.toNat) = maskInt n v := by
  split
  · rfl
  · next h =>
    simp only [ne_eq, Decidable.not_not] at h
    have hp : (0 : Int) < ((2 ^ n : Nat) : Int) := by exact_mod_cast Nat.two_pow_pos n
    have := Int.emod_add_mul_ediv v ((2 ^ n : Nat) : Int)
    rw [h] at this
    simp only [maskInt]
    congr 1
    omega

theorem maskInt_testBit (n : Nat) (v : Int) (i : Nat) (hi : i < n) : (maskInt n v).testBit i = intBit v i := by
  simp only [maskInt, intBit, Nat.testBit_eq_decide_div_mod_eq]
  have hp : (0 : Int) < ((2 ^ n : Nat) : Int) := by exact_mod_cast Nat.two_pow_pos n
  have hpi : (0 : Int) < ((2 ^ i : Nat) : Int) := by exact_mod_cast Nat.two_pow_pos i
  have h0 := Int.emod_nonneg v (Int.ne_of_gt hp)
  generalize hw : v % ((2 ^ n : Nat) : Int) = w at *
  obtain ⟨m, rfl⟩ : ∃ m : Nat, w = m := ⟨w.toNat, by omega⟩
  have e : v = m + ((2 ^ n : Nat) : Int) * (v / ((2 ^ n : Nat) : Int)) := by
    have := Int.emod_add_mul_ediv v ((2 ^ n : Nat) : Int); omega
  generalize v / ((2 ^ n : Nat) : Int) = q at e
  have hn : (2 ^ n : Nat) = 2 ^ i * (2 * 2 ^ (n - i - 1)) := by
    rw [← Nat.pow_succ', ← Nat.pow_add]; congr 1; omega
  have hd : v / ((2 ^ i : Nat) : Int) = ((m / 2 ^ i : Nat) : Int) + 2 * (((2 ^ (n - i - 1) : Nat) : Int) * q) := by
    rw [e, hn]
    have : ((2 ^ i * (2 * 2 ^ (n - i - 1)) : Nat) : Int) * q =
      ((2 ^ i : Nat) : Int) * (2 * (((2 ^ (n - i - 1) : Nat) : Int) * q)) := by
      rw [Int.natCast_mul, Int.natCast_mul, Int.mul_assoc, Int.mul_assoc]; rfl
    rw [this, Int.add_mul_ediv_left _ _ (Int.ne_of_gt hpi)]
    rfl
  rw [hd]
  simp only [Int.toNat_natCast]
  generalize ((2 ^ (n - i - 1) : Nat) : Int) * q = z
  rw [Bool.eq_iff_iff]
  simp only [decide_eq_true_eq, beq_iff_eq]
  omega

theorem maskInt_inv (n d : Nat) (h : d < 2 ^ n) (i : Nat) (hi : i < n) :
    (maskInt n (-(d : Int) - 1)).testBit i = !d.testBit i := by
  have e : maskInt n (-(d : Int) - 1) = 2 ^ n - (d + 1) := by
    simp only [maskInt]
    have : (-(d : Int) - 1) % ((2 ^ n : Nat) : Int) = ((2 ^ n - (d + 1) : Nat) : Int) := by
      have h1 : (-(d : Int) - 1) = ((2 ^ n - (d + 1) : Nat) : Int) + ((2 ^ n : Nat) : Int) * (-1) := by
        rw [Int.ofNat_sub (by omega)]; simp; omega
      rw [h1, Int.add_mul_emod_self_left]
      exact Int.emod_eq_of_lt (by omega) (by exact_mod_cast (by omega))
    rw [this]; rfl
  rw [e, Nat.testBit_two_pow_sub_succ h]
  simp [hi]

/-- The common core of `set` and `XpredictX`. -/
def core (n : Nat) (w : Bool) (cur wr : Nat) : Acc → Nat
  | .RO => cur | .RW => wr | .RC => cur | .RS => cur | .WC => 0 | .WS => 2 ^ n - 1
  | .WRC => wr | .WRS => wr | .WSRC => 2 ^ n - 1 | .WCRS => 0
  | .W1C => andNot cur wr | .W1S => cur ||| wr | .W1T => cur ^^^ wr
  | .W0C => cur &&& wr | .W0S => cur ||| notMask (2 ^ n - 1) wr | .W0T => cur ^^^ notMask (2 ^ n - 1) wr
  | .W1SRC => cur ||| wr | .W1CRS => andNot cur wr | .W0SRC => cur ||| notMask (2 ^ n - 1) wr
  | .W0CRS => cur &&& wr | .WO => wr | .WOC => 0 | .WOS => 2 ^ n - 1
  | .W1 => if w then cur else wr | .WO1 => if w then cur else wr
  | .NOACCESS => cur | .user _ => wr

/-- Each policy's operation is its documented effect. -/
theorem policy_core (n : Nat) (a : Acc) (w : Bool) (cur wr : Nat) (hc : cur < 2 ^ n) (hw : wr < 2 ^ n) :
    IsWriteResult n (doc a).1 w cur wr (core n w cur wr a) := by
  have hpos := Nat.two_pow_pos n
  have hi1 : ∀ i, n ≤ i → cur.testBit i = false := fun i h => testBit_high hc h
  have hi2 : ∀ i, n ≤ i → wr.testBit i = false := fun i h => testBit_high hw h
  constructor
  · cases a <;> simp only [core] <;>
    first
    | assumption
    | omega
    | (apply lt_of_testBit; intro i hi; simp [notMask, andNot_testBit, hi1 i hi, hi2 i hi, Nat.testBit_two_pow_sub_one]; done)
    | (apply lt_of_testBit; intro i hi; simp [notMask, andNot_testBit, hi1 i hi, hi2 i hi, Nat.testBit_two_pow_sub_one]; omega)
    | (split <;> assumption)
  · intro i hi
    cases a <;> simp only [core, doc, WEffect.bit] <;>
    first
    | rfl
    | (simp [notMask, andNot_testBit, Nat.testBit_two_pow_sub_one, hi]; done)
    | (simp [notMask, andNot_testBit, Nat.testBit_two_pow_sub_one, hi]; cases cur.testBit i <;> cases wr.testBit i <;> simp; done)
    | (split <;> rfl)

theorem isWriteResult_unique {n : Nat} {e : WEffect} {w : Bool} {c v r r' : Nat} (h : IsWriteResult n e w c v r)
    (h' : IsWriteResult n e w c v r') : r = r' := by
  apply Nat.eq_of_testBit_eq
  intro i
  by_cases hi : i < n
  · rw [h.2 i hi, h'.2 i hi]
  · rw [testBit_high h.1 (by omega), testBit_high h'.1 (by omega)]

theorem set_core (f : Field) (v : Int) (ha : f.access ≠ .NOACCESS) :
    (set f v).desired = core f.size f.written f.desired (maskInt f.size v) f.access := by
  simp only [set, setValue_eq, mask]
  cases hacc : f.access <;> first | rfl | exact absurd hacc ha

theorem xpredict_core (f : Field) (cur wr : Nat) (r : Rights) :
    xpredict f cur wr r = core f.size f.written cur wr (getAccess f r) := by
  simp only [xpredict, mask]
  cases getAccess f r <;> rfl

theorem set_desired (f : Field) (v : Int) (ha : f.access ≠ .NOACCESS) (hd : f.desired < 2 ^ f.size) :
    IsWriteResult f.size (doc f.access).1 f.written f.desired (maskInt f.size v) (set f v).desired := by
  rw [set_core f v ha]
  exact policy_core _ _ _ _ _ hd (maskInt_lt _ _)

theorem xpredict_result (f : Field) (cur wr : Nat) (r : Rights) (hc : cur < 2 ^ f.size) (hw : wr < 2 ^ f.size) :
    IsWriteResult f.size (doc (getAccess f r)).1 f.written cur wr (xpredict f cur wr r) := by
  rw [xpredict_core]
  exact policy_core _ _ _ _ _ hc hw

/-- Everything stored fits the field. -/
structure Fits (f : Field) : Prop where
  mirrored : f.mirrored < 2 ^ f.size
  desired : f.desired < 2 ^ f.size
  value : f.value < 2 ^ f.size
  reset : ∀ k v, f.reset k = some v → v < 2 ^ f.size
  acc : f.access ≠ .NOACCESS
  size : 1 ≤ f.size

theorem and_mask_lt (n v : Nat) : v &&& (2 ^ n - 1) < 2 ^ n := by
  rw [Nat.and_two_pow_sub_one_eq_mod]; exact Nat.mod_lt _ (Nat.two_pow_pos n)

theorem known_ne {us : List Nat} {a : Acc} (h : known us a ≠ false) : a ≠ .NOACCESS := by
  intro e; subst e; exact h rfl

theorem fits_setReset {f : Field} (h : Fits f) (v : Int) (k : Kind) : Fits (setReset f v k) := by
  refine ⟨h.mirrored, h.desired, h.value, ?_, h.acc, h.size⟩
  intro k' w hw
  simp only [setReset] at hw
  split at hw
  · cases hw; exact maskInt_lt _ _
  · exact h.reset k' w hw

theorem fits_configure (us : List Nat) (size : Nat) (a : Acc) (vol : Bool) (rst : Int) (hr : Bool) :
    Fits (configure us size a vol rst hr) := by
  have hs : 1 ≤ (if size = 0 then 1 else size) := by split <;> omega
  simp only [configure]
  generalize (if size = 0 then 1 else size) = n at *
  have hp := Nat.two_pow_pos n
  split
  · split
    · refine ⟨hp, hp, hp, ?_, by simp, hs⟩
      intro k v hv; simp only [setReset] at hv; split at hv
      · cases hv; exact maskInt_lt _ _
      · simp at hv
    · refine ⟨hp, hp, hp, ?_, by simp, hs⟩
      intro k v hv; simp at hv
  · next hk =>
    have ha := known_ne hk
    split
    · refine ⟨hp, hp, hp, ?_, ha, hs⟩
      intro k v hv; simp only [setReset] at hv; split at hv
      · cases hv; exact maskInt_lt _ _
      · simp at hv
    · refine ⟨hp, hp, hp, ?_, ha, hs⟩
      intro k v hv; simp at hv

theorem fits_doPredict {f : Field} (h : Fits f) {v : Int} {k : PKind} {p : Path} {r : Rights} {b be : Bool} {f' : Field} {ok : Bool}
    (e : doPredict f v k p r be b = some (f', ok)) : Fits f' ∧ f'.size = f.size ∧ f'.access = f.access ∧ f'.reset = f.reset := by
  have upd : ∀ (g : Field) (x : Nat), g.size = f.size → g.access = f.access → g.reset = f.reset → x < 2 ^ f.size →
      Fits { g with mirrored := x, desired := x, value := x } := by
    intro g x h1 h2 h3 hx
    refine ⟨?_, ?_, ?_, ?_, ?_, ?_⟩
    · simp only; rw [h1]; exact hx
    · simp only; rw [h1]; exact hx
    · simp only; rw [h1]; exact hx
    · intro k v hv; simp only at hv ⊢; rw [h3] at hv; rw [h1]; exact h.reset k v hv
    · simp only; rw [h2]; exact h.acc
    · simp only; rw [h1]; exact h.size
  simp only [doPredict] at e
  split at e
  · simp at e
  · cases k with
    | write =>
      simp only [Option.some.injEq, Prod.mk.injEq] at e
      obtain ⟨e, _⟩ := e; subst e
      exact ⟨upd { f with written := true } _ rfl rfl rfl (and_mask_lt _ _), rfl, rfl, rfl⟩
    | read =>
      simp only at e
      split at e
      · split at e <;> (simp only [Option.some.injEq, Prod.mk.injEq] at e; obtain ⟨e, _⟩ := e; subst e) <;>
          first
          | exact ⟨h, rfl, rfl, rfl⟩
          | exact ⟨upd f _ rfl rfl rfl (and_mask_lt _ _), rfl, rfl, rfl⟩
      · simp only [Option.some.injEq, Prod.mk.injEq] at e; obtain ⟨e, _⟩ := e; subst e
        exact ⟨upd f _ rfl rfl rfl (and_mask_lt _ _), rfl, rfl, rfl⟩
    | direct =>
      simp only [Option.some.injEq, Prod.mk.injEq] at e; obtain ⟨e, _⟩ := e; subst e
      exact ⟨upd f _ rfl rfl rfl (maskInt_lt _ _), rfl, rfl, rfl⟩

theorem fits_step {f : Field} (h : Fits f) (op : Op) : Fits (step f op) ∧ (step f op).size = f.size := by
  cases op with
  | set v =>
    have := (set_desired f v h.acc h.desired).1
    exact ⟨⟨h.mirrored, this, this, h.reset, h.acc, h.size⟩, rfl⟩
  | reset k =>
    simp only [step, reset]
    cases hr : f.reset k with
    | none => exact ⟨h, rfl⟩
    | some v =>
      have := h.reset k v hr
      simp only
      split <;> exact ⟨⟨this, this, this, h.reset, h.acc, h.size⟩, rfl⟩
  | setReset v k => exact ⟨fits_setReset h v k, rfl⟩
  | hasReset k d =>
    simp only [step, hasReset]
    cases hr : f.reset k with
    | none => exact ⟨h, rfl⟩
    | some v =>
      simp only
      split
      · refine ⟨⟨h.mirrored, h.desired, h.value, ?_, h.acc, h.size⟩, rfl⟩
        intro k' w hw
        simp only at hw
        split at hw
        · cases hw
        · exact h.reset k' w hw
      · exact ⟨h, rfl⟩
  | setAccess us a =>
    simp only [step, setAccess]
    split
    · exact ⟨h, rfl⟩
    · next hk => exact ⟨⟨h.mirrored, h.desired, h.value, h.reset, known_ne hk, h.size⟩, rfl⟩
  | setVolatility v => exact ⟨⟨h.mirrored, h.desired, h.value, h.reset, h.acc, h.size⟩, rfl⟩
  | predict v k p r b =>
    simp only [step]
    cases e : doPredict f v k p r true b with
    | none => exact ⟨h, rfl⟩
    | some x =>
      have := fits_doPredict h (f' := x.1) (ok := x.2) e
      exact ⟨this.1, this.2.1⟩
  | randomize v =>
    simp only [step]
    split
    · next hv => exact ⟨⟨h.mirrored, hv, hv, h.reset, h.acc, h.size⟩, rfl⟩
    · exact ⟨h, rfl⟩

theorem fits_steps (ops : List Op) {f : Field} (h : Fits f) : Fits (steps f ops) ∧ (steps f ops).size = f.size := by
  induction ops generalizing f with
  | nil => exact ⟨h, rfl⟩
  | cons op ops ih =>
    have h1 := fits_step h op
    have h2 := ih h1.1
    exact ⟨h2.1, h2.2.trans h1.2⟩

end Verif.RegField
