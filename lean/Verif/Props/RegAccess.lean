import Verif.Lemmas.RegAccessTrack
/-!
# C79, C80, C81: whole register accesses

C79: `write`, `read`, `update` and `mirror` of a register access the device once, report its status, and leave the mirror as documented.
C80: every registered hook and callback is called exactly once per access and can change or refuse it.
C81: through any history of accesses the mirror is what a device that follows the documented policies has.
-/
namespace Verif.RegAccess
open Verif.Reg Verif.RegField Verif.SvBits

theorem doPredict_front (r : Reg) (v : Nat) (k : PKind) (hk : k ≠ .direct) (rt : Rights) :
    Reg.doPredict r v k .front rt (-1) = some ({ r with fields := r.fields.map (predF v k rt r.busy) }, true) := by
  simp only [Reg.doPredict, hk, and_false, if_false]
  rw [mapM_eq_map (predictField v k .front rt (-1) r.busy) (predF v k rt r.busy)]
  · rfl
  · intro x _
    obtain ⟨q, hq⟩ := doPredict_some x.f (slice v x.lsb x.f.size) k .front rt r.busy
    rw [predictField_all, predF, hq]; rfl

theorem predF_set (v u : Nat) (rt : Rights) (busy : Bool) (x : RF) :
    predF v .write rt busy { x with f := RegField.set x.f u } = predF v .write rt busy x := rfl

theorem set_fields_predF (r : Reg) (v u : Nat) (rt : Rights) (busy : Bool) :
    (Reg.set r u).fields.map (predF v .write rt busy) = r.fields.map (predF v .write rt busy) := by
  simp only [Reg.set, List.map_map]
  exact List.map_congr_left fun x _ => rfl

theorem getMirrored_set (r : Reg) (u : Int) : getMirrored (Reg.set r u) = getMirrored r := by
  simp only [getMirrored, Reg.set, List.foldl_map]; rfl

/-! ## C79 -/

/-- C79. A write of `v`, hooks doing nothing: the device is written once with `v` cut to the width of the register, the status is the
device's, and with prediction on every bit of the mirror changes by the documented policy in force at its position; without
prediction the mirror stays. -/
theorem C79_write {σ} (c : Cfg) (rt : Rights) (hr : c.route = .front rt) (hb : ∀ i, c.bare i = false) (dflt : Rights) (d : Dev σ)
    (pre post : Hooks) (hp : Quiet pre) (hq : Quiet post) (r : Reg) (hreach : Reachable r) (s : σ) (v : Nat) :
    ∃ o, write c dflt d pre post r s v = some o ∧
      (o.dev, o.ok) = d.wr s (v % 2 ^ r.nBits) ∧
      (c.auto = false → getMirrored o.reg = getMirrored r ∧ get o.reg = get (Reg.set r v)) ∧
      (c.auto = true → get o.reg = getMirrored o.reg ∧ ∀ i, (getMirrored o.reg).testBit i =
        match r.fields.find? (fun x => decide (Covers x i)) with
        | some x => (doc (getAccess x.f rt)).1.bit x.f.written ((getMirrored r).testBit i) ((v % 2 ^ r.nBits).testBit i)
        | none => false) := by
  obtain ⟨o, h1, h2, h3, h4⟩ := write_quiet hr hb dflt d hp hq r s v
  refine ⟨o, h1, by rw [h2, h3], ?_, ?_⟩
  · intro ha
    rw [h4, ha]
    exact ⟨getMirrored_set r v, rfl⟩
  · intro ha
    obtain ⟨r', e1, e2, e3⟩ := C16_predicted_write_bitwise r hreach (v % 2 ^ r.nBits : Nat) rt
    rw [doPredict_front r _ .write (by decide) rt, Option.some.injEq, Prod.mk.injEq] at e1
    have e4 : o.reg = r' := by
      rw [h4, ha, ← e1.1]
      simp only [if_true, set_fields_predF]; rfl
    rw [e4]
    refine ⟨e2.symm, fun i => ?_⟩
    rw [e3 i, intBit_nat]
    cases r.fields.find? (fun x => decide (Covers x i)) <;> rfl

/-- One bit of the mirror after a read that gave the bit `data`. -/
def readBit (a : Acc) (mirrored data : Bool) : Bool :=
  match (doc a).2 with
  | .clears => false
  | .sets => true
  | .error => mirrored
  | .noEffect => if a = .NOACCESS then mirrored else data

theorem predF_read_bit (v : Nat) (rt : Rights) (busy : Bool) {x : RF} (hF : Fits x.f) (i : Nat) (hi : i < x.f.size) :
    (predF v .read rt busy x).f.mirrored.testBit i = readBit (getAccess x.f rt) (x.f.mirrored.testBit i) (v.testBit (x.lsb + i)) := by
  have hv : (maskInt x.f.size (slice v x.lsb x.f.size) &&& mask x.f).testBit i = v.testBit (x.lsb + i) := by
    rw [and_mask_of_lt (maskInt_lt _ _), maskInt_slice _ _ _ _ hi, Nat.testBit_shiftRight]
  have hm : (mask x.f &&& mask x.f).testBit i = true := by simp [mask, Nat.testBit_two_pow_sub_one, hi]
  unfold predF RegField.doPredict readBit
  cases ha : getAccess x.f rt <;> simp only [ha, doc, if_true] <;>
    first
    | exact hv
    | exact hm
    | simp

/-- C79. A read, hooks doing nothing: the device is read once, the caller gets its data and status; with prediction on every bit of the
mirror becomes the data read, or what reading leaves behind there (cleared, set), or stays if it cannot be read; without prediction
nothing of the register changes. -/
theorem C79_read {σ} (c : Cfg) (rt : Rights) (hr : c.route = .front rt) (hb : ∀ i, c.bare i = false) (d : Dev σ)
    (pre post : Hooks) (hp : Quiet pre) (hq : Quiet post) (r : Reg) (hreach : Reachable r) (s : σ) :
    ∃ o, read c d pre post r s = some o ∧ (o.dev, o.value, o.ok) = d.rd s ∧
      (c.auto = false → o.reg = r) ∧
      (c.auto = true → ∀ i, (getMirrored o.reg).testBit i =
        match r.fields.find? (fun x => decide (Covers x i)) with
        | some x => readBit (getAccess x.f rt) ((getMirrored r).testBit i) (o.value.testBit i)
        | none => false) := by
  obtain ⟨o, h1, h2, h3, h4, _, h6⟩ := read_quiet hr hb d hp hq r s
  refine ⟨o, h1, by rw [h2, h3, h4], fun ha => by rw [h6, ha]; rfl, ?_⟩
  intro ha i
  have hG := reachable_good hreach
  rw [h6, h4]
  simp only [ha, if_true]
  have hg := good_predF hb hG (d.rd s).2.1 .read (by decide) rt
  have e1 := assemble_testBit _ hg.disj _ (fun x hx => (hg.fits x hx).mirrored) i
  refine e1.trans ?_
  rw [(C16_value_is_union_of_fields r hreach i).2]
  simp only [assembled]
  have hlay : ∀ x ∈ r.fields, (predF (d.rd s).2.1 .read rt r.busy x).lsb = x.lsb ∧
      (predF (d.rd s).2.1 .read rt r.busy x).f.size = x.f.size := by
    intro x hx
    obtain ⟨q, hq⟩ := doPredict_some x.f (slice (d.rd s).2.1 x.lsb x.f.size) .read .front rt r.busy
    have := RegField.fits_doPredict (hG.fits x hx) hq
    simp only [predF, hq]
    exact ⟨trivial, this.2.1⟩
  rw [find_map r.fields _ hlay]
  cases hf : r.fields.find? (fun x => decide (Covers x i)) with
  | none => rfl
  | some x =>
    have hmx := List.mem_of_find?_eq_some hf
    have hc : Covers x i := by simpa using List.find?_some hf
    have hi : i - x.lsb < x.f.size := by have := hc.1; have := hc.2; omega
    simp only [Option.map_some]
    rw [(hlay x hmx).1, predF_read_bit _ _ _ (hG.fits x hmx) _ hi]
    have : x.lsb + (i - x.lsb) = i := by have := hc.1; omega
    rw [this]

/-- C79. Through a map that does not have the register nothing is accessed and the register stays; the status says so. -/
theorem C79_no_map {σ} (c : Cfg) (hr : c.route = .noMap) (dflt : Rights) (d : Dev σ) (pre post : Hooks) (r : Reg) (s : σ) (v : Nat) :
    (∃ o, write c dflt d pre post r s v = some o ∧ o.dev = s ∧ o.ok = false ∧ getMirrored o.reg = getMirrored r) ∧
    (∃ o, read c d pre post r s = some o ∧ o.dev = s ∧ o.ok = false ∧ o.reg = r) :=
  ⟨⟨⟨Reg.set r v, s, false, [], []⟩, by simp [write, doWrite, hr], rfl, rfl, getMirrored_set r v⟩,
   ⟨⟨r, s, false, 0, false, [], []⟩, by simp [read, doRead, hr], rfl, rfl, rfl⟩⟩

/-- The fields lie inside the register. -/
def Inside (r : Reg) : Prop := ∀ x ∈ r.fields, x.lsb + x.f.size ≤ r.nBits

theorem updateValue_lt {r : Reg} (h : Inside r) : updateValue r < 2 ^ r.nBits := by
  have : ∀ (l : List RF) (a : Nat), a < 2 ^ r.nBits → (∀ x ∈ l, x.lsb + x.f.size ≤ r.nBits) →
      l.foldl (fun acc x => acc ||| (RegField.xupdate x.f <<< x.lsb)) a < 2 ^ r.nBits := by
    intro l
    induction l with
    | nil => intro a ha _; exact ha
    | cons x l ih =>
      intro a ha hl
      refine ih _ (Nat.or_lt_two_pow ha ?_) fun y hy => hl y (by simp [hy])
      have h1 := RegField.xupdate_lt x.f
      have h2 := hl x (by simp)
      rw [Nat.shiftLeft_eq]
      calc RegField.xupdate x.f * 2 ^ x.lsb < 2 ^ x.f.size * 2 ^ x.lsb := Nat.mul_lt_mul_of_pos_right h1 (Nat.two_pow_pos _)
        _ = 2 ^ (x.lsb + x.f.size) := by rw [← Nat.pow_add, Nat.add_comm]
        _ ≤ 2 ^ r.nBits := Nat.pow_le_pow_right (by decide) h2
  exact this _ 0 (Nat.two_pow_pos _) h

theorem get_of_noUpdate {r : Reg} (h : needsUpdate r = false) : getMirrored r = get r := by
  simp only [Reg.needsUpdate, List.any_eq_false, RegField.needsUpdate] at h
  simp only [getMirrored, Reg.get]
  have : ∀ (l : List RF) (a : Nat), (∀ x ∈ l, x ∈ r.fields) →
      l.foldl (fun acc x => acc ||| (x.f.mirrored <<< x.lsb)) a = l.foldl (fun acc x => acc ||| (x.f.desired <<< x.lsb)) a := by
    intro l
    induction l with
    | nil => intro a _; rfl
    | cons x l ih =>
      intro a hl
      have hx := h x (hl x (by simp))
      simp at hx
      simp only [List.foldl_cons, hx.1]
      exact ih _ fun y hy => hl y (by simp [hy])
  exact this _ 0 fun _ h => h

theorem inside_set {r : Reg} (h : Inside r) (v : Int) : Inside (Reg.set r v) := by
  intro x hx
  obtain ⟨y, hy, rfl⟩ := List.mem_map.1 hx
  exact h y hy

theorem inside_setOp {r : Reg} (h : Inside r) (op : SetOp) : Inside (setOp r op) := by
  cases op with
  | whole v => exact inside_set h v
  | field i v =>
    exact modify_mem (fun x : RF => x.lsb + x.f.size ≤ r.nBits) _ (fun x => { x with f := RegField.step x.f (.set v) })
      (fun x hx => hx) (fun x hx => hx) r.fields i h

theorem inside_setOps {r : Reg} (h : Inside r) (ops : List SetOp) : Inside (ops.foldl setOp r) := by
  induction ops generalizing r with
  | nil => exact h
  | cons op ops ih => exact ih (inside_setOp h op)

theorem update_of_predict {σ} {c : Cfg} (hr : c.route = .front .RW) (ha : c.auto = true) (hb : ∀ i, c.bare i = false) (dflt : Rights)
    (d : Dev σ) {pre post : Hooks} (hp : Quiet pre) (hq : Quiet post) {g : Reg} (hin : Inside g) (s : σ)
    (hm : ∃ g', Reg.doPredict g (updateValue g) .write .front .RW (-1) = some (g', true) ∧ getMirrored g' = get g ∧ get g' = get g) :
    ∃ o, update c dflt d pre post g s = some o ∧ getMirrored o.reg = get g ∧ get o.reg = get g := by
  cases hn : needsUpdate g with
  | false => exact ⟨⟨g, s, []⟩, by simp [update, hn], get_of_noUpdate hn, rfl⟩
  | true =>
    obtain ⟨o, h1, h2, h3, h4⟩ := write_quiet hr hb dflt d hp hq g s (updateValue g)
    refine ⟨⟨o.reg, o.dev, [o.ok]⟩, by simp [update, hn, h1], ?_⟩
    obtain ⟨g', e1, e2, e3⟩ := hm
    rw [doPredict_front g _ .write (by decide) .RW, Option.some.injEq, Prod.mk.injEq] at e1
    have : o.reg = g' := by
      rw [h4, ha, ← e1.1]
      simp only [if_true, set_fields_predF, Nat.mod_eq_of_lt (updateValue_lt hin)]; rfl
    rw [this]; exact ⟨e2, e3⟩

/-- C79. After any sets that end with a set of the whole register, `update()` makes the mirror the desired value and keeps the desired value. -/
theorem C79_update {σ} (c : Cfg) (hr : c.route = .front .RW) (ha : c.auto = true) (hb : ∀ i, c.bare i = false) (dflt : Rights)
    (d : Dev σ) (pre post : Hooks) (hp : Quiet pre) (hq : Quiet post) (r : Reg) (hreach : Reachable r) (hin : Inside r)
    (hs : ∀ x ∈ r.fields, x.f.desired = x.f.mirrored) (ops : List SetOp) (v : Int) (s : σ) :
    let g := Reg.set (ops.foldl setOp r) v
    ∃ o, update c dflt d pre post g s = some o ∧ getMirrored o.reg = get g ∧ get o.reg = get g :=
  update_of_predict hr ha hb dflt d hp hq (inside_set (inside_setOps hin ops) v) s (C13_register_update r hreach hs ops v)

/-- C116. Single fields set: holds when no field is cleared or set by every write. -/
theorem C116_update_partial {σ} (c : Cfg) (hr : c.route = .front .RW) (ha : c.auto = true) (hb : ∀ i, c.bare i = false) (dflt : Rights)
    (d : Dev σ) (pre post : Hooks) (hp : Quiet pre) (hq : Quiet post) (r : Reg) (hreach : Reachable r) (hin : Inside r)
    (hs : ∀ x ∈ r.fields, x.f.desired = x.f.mirrored) (hnd : ∀ x ∈ r.fields, ¬ Destructive x.f.access) (ops : List SetOp) (s : σ) :
    let g := ops.foldl setOp r
    ∃ o, update c dflt d pre post g s = some o ∧ getMirrored o.reg = get g ∧ get o.reg = get g :=
  update_of_predict hr ha hb dflt d hp hq (inside_setOps hin ops) s (C13_register_update_partial r hreach hs hnd ops)

/-- C79. `update()` accesses the device exactly if some field needs it (differs from its mirror or is volatile). -/
theorem C79_update_needed {σ} (c : Cfg) (rt : Rights) (hr : c.route = .front rt) (hb : ∀ i, c.bare i = false) (dflt : Rights)
    (d : Dev σ) (pre post : Hooks) (hp : Quiet pre) (hq : Quiet post) (r : Reg) (s : σ) :
    ∃ o, update c dflt d pre post r s = some o ∧
      ((∀ x ∈ r.fields, x.f.desired = x.f.mirrored ∧ x.f.volatile = false) → o.dev = s ∧ o.reg = r) ∧
      ((∃ x ∈ r.fields, x.f.desired ≠ x.f.mirrored ∨ x.f.volatile = true) →
        o.dev = (d.wr s (updateValue r % 2 ^ r.nBits)).1 ∧ o.status = [(d.wr s (updateValue r % 2 ^ r.nBits)).2]) := by
  have hiff : needsUpdate r = true ↔ ∃ x ∈ r.fields, x.f.desired ≠ x.f.mirrored ∨ x.f.volatile = true := by
    simp only [Reg.needsUpdate, RegField.needsUpdate, List.any_eq_true, Bool.or_eq_true, bne_iff_ne, ne_comm]
  cases hn : needsUpdate r with
  | false =>
    refine ⟨⟨r, s, []⟩, by simp [update, hn], fun _ => ⟨rfl, rfl⟩, fun h => ?_⟩
    rw [hiff.2 h] at hn; simp at hn
  | true =>
    obtain ⟨o, h1, h2, h3, h4⟩ := write_quiet hr hb dflt d hp hq r s (updateValue r)
    refine ⟨⟨o.reg, o.dev, [o.ok]⟩, by simp [update, hn, h1], fun h => ?_, fun _ => ⟨h2, by rw [h3]⟩⟩
    obtain ⟨x, hx, hc⟩ := hiff.1 hn
    have := h x hx
    rcases hc with hc | hc
    · exact absurd this.1 hc
    · rw [this.2] at hc; simp at hc

/-- C117 fails for the status of `update()`: when no access is needed the caller's status list stays empty instead of saying OK. -/
theorem C117_update_status_fails {σ} (c : Cfg) (dflt : Rights) (d : Dev σ) (pre post : Hooks) (r : Reg) (s : σ)
    (h : ∀ x ∈ r.fields, x.f.desired = x.f.mirrored ∧ x.f.volatile = false) :
    ∃ o, update c dflt d pre post r s = some o ∧ o.status = [] := by
  have hn : needsUpdate r = false := by
    simp only [Reg.needsUpdate, List.any_eq_false]
    intro x hx
    simp [RegField.needsUpdate, (h x hx).1, (h x hx).2]
  exact ⟨⟨r, s, []⟩, by simp [update, hn], rfl⟩

/-- An 8-bit read/write register with value 0. -/
def rwReg : Reg := steps (build 8 [⟨0, configure [] 8 .RW false 0 true⟩]).1 [.reset "HARD"]

theorem rwReg_reachable : Reachable rwReg := by
  refine ⟨8, [⟨0, configure [] 8 .RW false 0 true⟩], [.reset "HARD"], ?_, by decide, rfl⟩
  intro x hx
  simp at hx
  exact hx ▸ ⟨[], 8, .RW, false, 0, true, [], rfl⟩

/-- A device of one byte that refuses every access and stays as it is. -/
def deadDev : Dev Nat where
  wr s _ := (s, false)
  rd s := (s, 255, false)

/-- A device of one byte. -/
def byteDev : Dev Nat where
  wr _ v := (v, true)
  rd s := (s, s, true)

def rwCfg : Cfg := { route := .front .RW, auto := true, check := true }

theorem quiet_default : Quiet {} := ⟨fun _ _ => rfl, fun _ _ h => (by simp at h), fun _ => rfl, fun _ h => (by simp at h)⟩

/-- C116 fails when the bus refuses a write: the status says so and the device is untouched, but the mirror takes the value. -/
theorem C116_failed_write_fails :
    ∃ (r : Reg) (v : Nat) (o : WOut Nat), Reachable r ∧ write rwCfg .RW deadDev {} {} r 0 v = some o ∧
      o.ok = false ∧ o.dev = 0 ∧ getMirrored r = 0 ∧ getMirrored o.reg = v ∧ v ≠ 0 :=
  ⟨rwReg, 0x5a, (write rwCfg .RW deadDev {} {} rwReg 0 0x5a).get (by decide), rwReg_reachable, by simp, by decide, by decide, by decide,
    by decide, by decide⟩

/-- C116 fails in general: what a write makes of the register, its mirror and its desired value is the same whatever the device does and
answers: with prediction a refused write leaves the mirror an accepted one leaves.  Any path, hooks and fields. -/
theorem C116_write_ignores_answer_fails {σ τ} (c : Cfg) (dflt : Rights) (d : Dev σ) (d' : Dev τ) (pre post : Hooks) (r : Reg) (s : σ) (t : τ) (v : Nat) :
    (write c dflt d pre post r s v).map (·.reg) = (write c dflt d' pre post r t v).map (·.reg) := by
  unfold write doWrite
  split
  · rfl
  · dsimp only
    split
    · rfl
    · split
      · cases predict c (Reg.set r v) (preWrite pre (Reg.set r v) v).1.value .write .front _ <;> rfl
      · rfl
  · dsimp only
    split
    · rfl
    · cases predict c (Reg.set r v) (backdoorValue (Reg.set r v) dflt (preWrite pre (Reg.set r v) v).1.value) .write .other .backdoor <;> rfl

/-- C116 fails in general: what a read makes of the register depends on the data alone, not on whether the device refused. -/
theorem C116_read_ignores_answer_fails {σ τ} (c : Cfg) (d : Dev σ) (d' : Dev τ) (pre post : Hooks) (r : Reg) (s : σ) (t : τ)
    (h : (d.rd s).2.1 = (d'.rd t).2.1) : (read c d pre post r s).map (·.reg) = (read c d' pre post r t).map (·.reg) := by
  unfold read doRead
  split
  · rfl
  · dsimp only
    split
    · rfl
    · rw [h]
      split
      · cases predict c r (d'.rd t).2.1 .read .front _ <;> rfl
      · rfl
  · dsimp only
    split
    · rfl
    · generalize andNot _ _ = w
      cases predict c r w .read .other .backdoor <;> rfl

example : (deadDev.wr 0 7).2 = false ∧ (byteDev.wr 0 7).2 = true ∧ (deadDev.rd 0).2.1 = (byteDev.rd 255).2.1 ∧
    (deadDev.rd 0).2.2 = false ∧ (byteDev.rd 255).2.2 = true := by decide

/-- C116 fails when the bus refuses a read: the meaningless data goes into the mirror. -/
theorem C116_failed_read_fails :
    ∃ (r : Reg) (o : ROut Nat), Reachable r ∧ read rwCfg deadDev {} {} r 0 = some o ∧
      o.ok = false ∧ getMirrored r = 0 ∧ getMirrored o.reg = 255 :=
  ⟨rwReg, (read rwCfg deadDev {} {} rwReg 0).get (by decide), rwReg_reachable, by simp, by decide, by decide, by decide⟩

/-- C117 fails for the check on reads: it compares with the desired value, so after a `set` that was not yet written a correct
read (the device has exactly the mirrored value) is reported as an error. -/
theorem C117_check_on_read_fails :
    ∃ (r : Reg) (o : ROut Nat), Reachable r ∧ read rwCfg byteDev {} {} r (getMirrored r) = some o ∧
      o.value = getMirrored r ∧ o.err = true :=
  ⟨Reg.set rwReg 3, (read rwCfg byteDev {} {} (Reg.set rwReg 3) 0).get (by decide), reachable_step rwReg_reachable (.set 3),
    by simp [show getMirrored (Reg.set rwReg 3) = 0 by decide], by decide, by decide⟩

/-- C116 fails for `mirror` with check: a read refused by the bus is compared all the same, so a mismatch is reported. -/
theorem C116_mirror_failed_read_fails :
    ∃ (r : Reg) (o : MOut Nat), Reachable r ∧ mirror rwCfg deadDev {} {} true .RW r 0 = some o ∧
      o.status = [false] ∧ o.mismatch = true :=
  ⟨rwReg, (mirror rwCfg deadDev {} {} true .RW rwReg 0).get (by decide), rwReg_reachable, by simp, by decide, by decide⟩

/-- C116 fails for an update refused by the bus, prediction off: the desired value of a toggling field is lost
(0x0f was wanted; afterwards the desired value is 0, so trying again does nothing). -/
theorem C116_failed_update_fails :
    ∃ (r : Reg) (o : UOut Nat), Reachable r ∧ update { rwCfg with auto := false } .RW deadDev {} {} r 0 = some o ∧
      o.status = [false] ∧ getMirrored o.reg = getMirrored r ∧ get r = 0x0f ∧ get o.reg = 0 ∧ Reg.needsUpdate o.reg = false := by
  let xs : List RF := [⟨0, configure [] 8 .W1T false 0 true⟩]
  let r := steps (build 8 xs).1 [.reset "HARD", .set 0x0f]
  refine ⟨r, (update { rwCfg with auto := false } .RW deadDev {} {} r 0).get (by decide), ⟨8, xs, _, ?_, by decide, rfl⟩,
    by simp, by decide, by decide, by decide, by decide, by decide⟩
  intro x hx
  have hx : x ∈ xs := hx
  simp only [xs, List.mem_singleton] at hx
  exact hx ▸ ⟨[], 8, .W1T, false, 0, true, [], rfl⟩

/-- C117 fails for user-defined back doors: the device is never accessed, whatever it is, and yet the status is OK
(and the mirror is predicted). -/
theorem C117_backdoor_fails {σ} (c : Cfg) (hr : c.route = .userBackdoor) (hb : ∀ i, c.bare i = false) (dflt : Rights) (d : Dev σ)
    (pre post : Hooks) (hp : Quiet pre) (hq : Quiet post) (r : Reg) (s : σ) (v : Nat) :
    (∃ o, write c dflt d pre post r s v = some o ∧ o.dev = s ∧ o.ok = true) ∧
    (∃ o, read c d pre post r s = some o ∧ o.dev = s ∧ o.ok = true ∧ o.value = 0) := by
  have hpr : ∀ (r : Reg) (v : Nat) (k : PKind), k ≠ .direct → ∃ r', predict c r v k .other .backdoor = some r' := by
    intro r v k hk
    have h1 : (r.fields.zipIdx.any fun q => c.bare q.2 && reachesCbs k .other .backdoor q.1) = false := by
      rw [List.any_eq_false]; intro q _; simp [hb]
    simp only [predict, h1, Reg.doPredict, hk, and_false, if_false]
    rw [mapM_eq_map (predictField v k .other .backdoor (-1) r.busy) (fun x =>
      match RegField.doPredict x.f (slice v x.lsb x.f.size) k .other .backdoor true r.busy with
      | some q => { x with f := q.1 } | none => x)]
    · exact ⟨_, rfl⟩
    · intro x _
      obtain ⟨q, hq⟩ := doPredict_some x.f (slice v x.lsb x.f.size) k .other .backdoor r.busy
      rw [predictField_all, hq]; rfl
  constructor
  · obtain ⟨r', h'⟩ := hpr (Reg.set r v) (backdoorValue (Reg.set r v) dflt (v % 2 ^ r.nBits)) .write (by decide)
    have hn : (Reg.set r v).nBits = r.nBits := rfl
    simp [write, doWrite, hr, preWrite_quiet hp, hn, h', postWrite_quiet hq]
  · have hz : ∀ w, andNot 0 w = 0 := by
      intro w; apply Nat.eq_of_testBit_eq; intro i; rw [andNot_testBit]; simp
    obtain ⟨r', h'⟩ := hpr r 0 .read (by decide)
    simp [read, doRead, hr, preRead_quiet hp, hz, h', postRead_quiet hq]

/-- C117 fails for user-defined back doors: although the device was not accessed, the mirror of every readable and writable field has the bits that were
to be written. -/
theorem C117_backdoor_mirror_fails {σ} (c : Cfg) (hr : c.route = .userBackdoor) (hb : ∀ i, c.bare i = false) (d : Dev σ)
    (pre post : Hooks) (hp : Quiet pre) (hq : Quiet post) (r : Reg) (hG : Good r) (hrw : ∀ x ∈ r.fields, x.f.access = .RW)
    (hfit : ∀ x ∈ r.fields, x.lsb + x.f.size ≤ r.nBits) (s : σ) (v : Nat) :
    ∃ o, write c .RW d pre post r s v = some o ∧ o.dev = s ∧ o.ok = true ∧ o.reg.fields.length = r.fields.length ∧
      ∀ (i : Nat) (x y : RF), r.fields[i]? = some x → o.reg.fields[i]? = some y →
        y.lsb = x.lsb ∧ y.f.size = x.f.size ∧ y.f.mirrored < 2 ^ x.f.size ∧ ∀ j, j < x.f.size → y.f.mirrored.testBit j = v.testBit (x.lsb + j) := by
  have hset : ∀ (f : Field) (w : Nat), (RegField.set f w).access = f.access ∧ (RegField.set f w).size = f.size := fun f w => ⟨rfl, rfl⟩
  have hG' : Good (Reg.set r v) := good_set hG v
  let g : RF → RF := fun x =>
    { x with f := { x.f with written := true, mirrored := maskInt x.f.size (slice (backdoorValue (Reg.set r v) .RW (v % 2 ^ r.nBits)) x.lsb x.f.size) &&& mask x.f,
                             desired := maskInt x.f.size (slice (backdoorValue (Reg.set r v) .RW (v % 2 ^ r.nBits)) x.lsb x.f.size) &&& mask x.f,
                             value := maskInt x.f.size (slice (backdoorValue (Reg.set r v) .RW (v % 2 ^ r.nBits)) x.lsb x.f.size) &&& mask x.f } }
  have hpr : predict c (Reg.set r v) (backdoorValue (Reg.set r v) .RW (v % 2 ^ r.nBits)) .write .other .backdoor =
      some { Reg.set r v with fields := (Reg.set r v).fields.map g } := by
    have h1 : ((Reg.set r v).fields.zipIdx.any fun q => c.bare q.2 && reachesCbs .write .other .backdoor q.1) = false := by
      rw [List.any_eq_false]; intro q _; simp [hb]
    simp only [predict, h1, Reg.doPredict, if_false]
    rw [mapM_eq_map _ g]
    · simp
    · intro x _
      rw [predictField_all]
      rfl
  refine ⟨_, by simp only [write, doWrite, hr, preWrite_quiet hp, show (Reg.set r v).nBits = r.nBits from rfl]; simp only [hpr]; simp [postWrite_quiet hq]; rfl, rfl, rfl,
    by simp [Reg.set], ?_⟩
  intro i x y hx hy
  have hxm := List.mem_of_getElem? hx
  have hy' : y = g { x with f := RegField.set x.f (slice v x.lsb x.f.size) } := by
    have : (((Reg.set r v).fields.map g)[i]?) = some y := hy
    simp only [Reg.set, List.map_map, List.getElem?_map, hx, Option.map_some, Function.comp] at this
    exact (Option.some.inj this).symm
  subst hy'
  have hsz : (RegField.set x.f (slice v x.lsb x.f.size)).size = x.f.size := (hset _ _).2
  refine ⟨rfl, hsz, ?_, fun j hj => ?_⟩
  · simp only [g, hsz]
    exact Nat.lt_of_le_of_lt Nat.and_le_left (maskInt_lt _ _)
  · simp only [g, hsz]
    rw [and_mask_of_lt (by rw [hsz]; exact maskInt_lt _ _), maskInt_slice _ _ _ _ hj, Nat.testBit_shiftRight, backdoorValue]
    have hacc : ∀ z ∈ (Reg.set r v).fields, z.f.access = .RW := by
      intro z hz
      obtain ⟨z', hz', rfl⟩ := List.mem_map.1 hz
      exact hrw z' hz'
    have hval : ∀ z ∈ (Reg.set r v).fields, ∀ w, xpredict z.f w w .RW = w := by
      intro z hz w; simp [xpredict, getAccess, hacc z hz]
    have hcongr : (Reg.set r v).fields.foldl (fun acc z => acc ||| (xpredict z.f (((v % 2 ^ r.nBits) >>> z.lsb) &&& (2 ^ z.f.size - 1)) (((v % 2 ^ r.nBits) >>> z.lsb) &&& (2 ^ z.f.size - 1)) .RW <<< z.lsb)) 0 =
        (Reg.set r v).fields.foldl (fun acc z => acc ||| ((((v % 2 ^ r.nBits) >>> z.lsb) &&& (2 ^ z.f.size - 1)) <<< z.lsb)) 0 := by
      have key : ∀ (l : List RF) (a : Nat), (∀ z ∈ l, z ∈ (Reg.set r v).fields) →
          l.foldl (fun acc z => acc ||| (xpredict z.f (((v % 2 ^ r.nBits) >>> z.lsb) &&& (2 ^ z.f.size - 1)) (((v % 2 ^ r.nBits) >>> z.lsb) &&& (2 ^ z.f.size - 1)) .RW <<< z.lsb)) a =
          l.foldl (fun acc z => acc ||| ((((v % 2 ^ r.nBits) >>> z.lsb) &&& (2 ^ z.f.size - 1)) <<< z.lsb)) a := by
        intro l
        induction l with
        | nil => intro a _; rfl
        | cons z l ih =>
          intro a h
          rw [List.foldl_cons, List.foldl_cons, hval z (h z (by simp))]
          exact ih _ fun w hw => h w (by simp [hw])
      exact key _ _ fun z hz => hz
    rw [hcongr, assemble_testBit _ hG'.disj (fun z => ((v % 2 ^ r.nBits) >>> z.lsb) &&& (2 ^ z.f.size - 1))
      (fun z _ => by rw [Nat.and_two_pow_sub_one_eq_mod]; exact Nat.mod_lt _ (Nat.two_pow_pos _))]
    have hm : ({ x with f := RegField.set x.f (slice v x.lsb x.f.size) } : RF) ∈ (Reg.set r v).fields := List.mem_map.2 ⟨x, hxm, rfl⟩
    have hc : Covers ({ x with f := RegField.set x.f (slice v x.lsb x.f.size) } : RF) (x.lsb + j) := ⟨by simp, by simp [hsz]; exact hj⟩
    rw [assembled_mem hG'.disj hm hc]
    have hf := hfit x hxm
    simp only [hsz, Nat.add_sub_cancel_left, Nat.and_two_pow_sub_one_eq_mod, Nat.testBit_mod_two_pow, Nat.testBit_shiftRight]
    simp [hj, show x.lsb + j < r.nBits by omega]

example : ∃ o, write { rwCfg with route := .userBackdoor } .RW deadDev {} {} (build 8 [⟨0, configure [] 4 .RW false 0 true⟩, ⟨4, configure [] 4 .RW false 0 true⟩]).1 0 0xa5 = some o ∧
    o.reg.fields.map (·.f.mirrored) = [5, 10] := ⟨_, rfl, by decide⟩

/-! ## C81 -/

/-- One operation keeps the mirror what the device has. -/
theorem agrees_step {σ} {c : Cfg} (hr : c.route = .front .RW) (ha : c.auto = true) (hb : ∀ i, c.bare i = false) (dflt rt : Rights)
    {d : Dev σ} {view : σ → List DF} (hd : FollowsDoc d view) {h : Hooks} (hq : Quiet h) {r : Reg} {s : σ} (hG : Good r)
    (hA : Agrees r (view s)) (op : Op) :
    ∃ r' s', opStep c dflt rt d h (r, s) op = some (r', s') ∧ Good r' ∧ Agrees r' (view s') := by
  have hwr : ∀ v : Nat, ∃ o, write c dflt d h h r s v = some o ∧ Good o.reg ∧ Agrees o.reg (view o.dev) := by
    intro v
    obtain ⟨o, h1, h2, _, h4⟩ := write_quiet hr hb dflt d hq hq r s v
    refine ⟨o, h1, ?_⟩
    rw [h4, h2, ha, if_pos rfl]
    exact ⟨good_predF hb (good_set hG v) (v % 2 ^ r.nBits) .write (by decide) .RW,
      agrees_write (good_set hG v) (agrees_set hA v) (hd.wr s _).2 _⟩
  have hrd : ∃ o, doRead c d h h r s = some o ∧ Good o.reg ∧ Agrees o.reg (view o.dev) := by
    obtain ⟨o, h1, h2, _, _, _, h4⟩ := read_quiet hr hb d hq hq r s
    refine ⟨o, h1, ?_⟩
    rw [h4, h2, ha, if_pos rfl]
    exact ⟨good_predF hb hG (d.rd s).2.1 .read (by decide) .RW, agrees_read hG hA (hd.rd s).2 (fun y hy hR i hi => hd.data s y hy hR i hi) _⟩
  cases op with
  | set v => exact ⟨_, _, rfl, good_set hG v, agrees_set hA v⟩
  | setField i v => exact ⟨_, _, rfl, (good_step hG _).1, agrees_setField hA i v⟩
  | write v =>
    obtain ⟨o, h1, h2⟩ := hwr v
    exact ⟨o.reg, o.dev, by simp [opStep, h1], h2⟩
  | read =>
    obtain ⟨o, h1, h2⟩ := hrd
    exact ⟨o.reg, o.dev, by simp [opStep, read, h1], h2⟩
  | update =>
    cases hn : Reg.needsUpdate r with
    | false => exact ⟨r, s, by simp [opStep, update, hn], hG, hA⟩
    | true =>
      obtain ⟨o, h1, h2⟩ := hwr (updateValue r)
      exact ⟨o.reg, o.dev, by simp [opStep, update, hn, h1], h2⟩
  | mirror b =>
    obtain ⟨o, h1, h2⟩ := hrd
    exact ⟨o.reg, o.dev, by simp [opStep, mirror, hr, h1], h2⟩

/-- C81. For every history of sets, writes, reads, updates and mirrors through a read/write map with automatic prediction, on a device
that follows the documented policies: if the mirror was what the device has, it still is. -/
theorem C81_mirror_tracks_device {σ} (c : Cfg) (hr : c.route = .front .RW) (ha : c.auto = true) (hb : ∀ i, c.bare i = false)
    (dflt rt : Rights) (d : Dev σ) (view : σ → List DF) (hd : FollowsDoc d view) (h : Hooks) (hq : Quiet h) (ops : List Op)
    (r : Reg) (s : σ) (hreach : Reachable r) (hA : Agrees r (view s)) :
    ∃ r' s', opRun c dflt rt d h (r, s) ops = some (r', s') ∧ Agrees r' (view s') := by
  have key : ∀ (ops : List Op) (r : Reg) (s : σ), Good r → Agrees r (view s) →
      ∃ r' s', opRun c dflt rt d h (r, s) ops = some (r', s') ∧ Good r' ∧ Agrees r' (view s') := by
    intro ops
    induction ops with
    | nil => intro r s hG hA; exact ⟨r, s, rfl, hG, hA⟩
    | cons op ops ih =>
      intro r s hG hA
      obtain ⟨r1, s1, e, hG1, hA1⟩ := agrees_step hr ha hb dflt rt hd hq hG hA op
      obtain ⟨r2, s2, e2, h2⟩ := ih r1 s1 hG1 hA1
      exact ⟨r2, s2, by simp [opRun, List.foldlM_cons, e]; exact e2, h2⟩
  obtain ⟨r', s', e, _, h2⟩ := key ops r s (reachable_good hreach) hA
  exact ⟨r', s', e, h2⟩

theorem opRun_good {σ} {c : Cfg} (hr : c.route = .front .RW) (ha : c.auto = true) (hb : ∀ i, c.bare i = false)
    (dflt rt : Rights) {d : Dev σ} {view : σ → List DF} (hd : FollowsDoc d view) {h : Hooks} (hq : Quiet h) (ops : List Op)
    {r r' : Reg} {s s' : σ} (hG : Good r) (hA : Agrees r (view s)) (he : opRun c dflt rt d h (r, s) ops = some (r', s')) :
    Good r' ∧ Agrees r' (view s') := by
  induction ops generalizing r s with
  | nil => simp [opRun] at he; obtain ⟨rfl, rfl⟩ := he; exact ⟨hG, hA⟩
  | cons op ops ih =>
    obtain ⟨r1, s1, e, hG1, hA1⟩ := agrees_step hr ha hb dflt rt hd hq hG hA op
    simp [opRun, List.foldlM_cons, e] at he
    exact ih hG1 hA1 he

/-- What a device that follows the documentation returns when the mirror is right and every field can be read: the mirrored value. -/
theorem data_mirrored {σ} {d : Dev σ} {view : σ → List DF} (hd : FollowsDoc d view) {r : Reg} {s : σ} (hG : Good r)
    (hA : Agrees r (view s)) (hread : ∀ x ∈ r.fields, Readable x.f.access) : (d.rd s).2.1 = getMirrored r := by
  apply Nat.eq_of_testBit_eq
  intro i
  rw [show (getMirrored r).testBit i = _ from assemble_testBit _ hG.disj _ (fun x hx => (hG.fits x hx).mirrored) i]
  by_cases hc : ∃ x ∈ r.fields, Covers x i
  · obtain ⟨x, hx, hc⟩ := hc
    obtain ⟨y, hy, h1, h2, h3, h4, _⟩ := hA.mem_left hx
    rw [assembled_mem hG.disj hx hc, hd.data s y hy (h3 ▸ hread x hx) i ⟨h1 ▸ hc.1, by rw [← h1, ← h2]; exact hc.2⟩, h4, h1]
  · rw [hd.rest s i ?_]
    · have : r.fields.find? (fun x => decide (Covers x i)) = none := by
        rw [List.find?_eq_none]; intro x hx; simpa using fun h => hc ⟨x, hx, h⟩
      simp [assembled, this]
    · intro y hy _ hcov
      obtain ⟨x, hx, h1, h2, _⟩ := hA.mem_right hy
      exact hc ⟨x, hx, h1 ▸ hcov.1, by rw [h1, h2]; exact hcov.2⟩

/-- C81. After any such history, if every field can be read: a read gives exactly the mirrored value, a mirror with check reports no
mismatch, and after the read the mirror still is what the device has. -/
theorem C81_no_false_mismatch {σ} (c : Cfg) (hr : c.route = .front .RW) (ha : c.auto = true) (hb : ∀ i, c.bare i = false)
    (dflt rt : Rights) (d : Dev σ) (view : σ → List DF) (hd : FollowsDoc d view) (h : Hooks) (hq : Quiet h) (ops : List Op)
    (r : Reg) (s : σ) (hreach : Reachable r) (hA : Agrees r (view s)) (r' : Reg) (s' : σ)
    (he : opRun c dflt rt d h (r, s) ops = some (r', s')) (hread : ∀ x ∈ r'.fields, Readable x.f.access) :
    (∃ o, read c d h h r' s' = some o ∧ o.value = getMirrored r' ∧ o.ok = true ∧ Agrees o.reg (view o.dev)) ∧
    (∃ o, mirror c d h h true rt r' s' = some o ∧ o.mismatch = false ∧ o.status = [true]) := by
  obtain ⟨hG, hA'⟩ := opRun_good hr ha hb dflt rt hd hq ops (reachable_good hreach) hA he
  have hv := data_mirrored hd hG hA' hread
  obtain ⟨o, h1, h2, h3, h4, _, h5⟩ := read_quiet hr hb d hq hq r' s'
  have hok : o.ok = true := by rw [h3]; exact (hd.rd s').1
  have hval : o.value = getMirrored r' := h4.trans hv
  refine ⟨⟨o, h1, hval, hok, ?_⟩, ⟨⟨o.reg, o.dev, [o.ok], _⟩, by simp only [mirror, hr, h1]; rfl, ?_, by rw [hok]⟩⟩
  · rw [h5, h2, ha, if_pos rfl]
    exact agrees_read hG hA' (hd.rd s').2 (fun y hy hR i hi => hd.data s' y hy hR i hi) _
  · simp [hval, doCheck]

/-- C81. With nothing set but not yet written, the check on reads reports no error either. -/
theorem C81_no_false_read_error {σ} (c : Cfg) (hr : c.route = .front .RW) (ha : c.auto = true) (hb : ∀ i, c.bare i = false)
    (dflt rt : Rights) (d : Dev σ) (view : σ → List DF) (hd : FollowsDoc d view) (h : Hooks) (hq : Quiet h) (ops : List Op)
    (r : Reg) (s : σ) (hreach : Reachable r) (hA : Agrees r (view s)) (r' : Reg) (s' : σ)
    (he : opRun c dflt rt d h (r, s) ops = some (r', s')) (hread : ∀ x ∈ r'.fields, Readable x.f.access)
    (hsync : get r' = getMirrored r') :
    ∃ o, read c d h h r' s' = some o ∧ o.err = false := by
  obtain ⟨hG, hA'⟩ := opRun_good hr ha hb dflt rt hd hq ops (reachable_good hreach) hA he
  have hv := data_mirrored hd hG hA' hread
  obtain ⟨o, h1, _, _, _, h5, _⟩ := read_quiet hr hb d hq hq r' s'
  refine ⟨o, h1, ?_⟩
  rw [h5, hv, hsync]; simp [doCheck]

/-! ### A device that follows the documentation -/

theorem ofBits_aux (b : Nat → Bool) (n i : Nat) : (ofBits n b).testBit i = (decide (i < n) && b i) := by
  unfold ofBits
  induction n with
  | zero => simp
  | succ n ih =>
    rw [List.range_succ, List.foldl_append, List.foldl_cons, List.foldl_nil, Nat.testBit_or, ih, Nat.testBit_shiftLeft]
    by_cases h1 : i < n
    · have : ¬ i ≥ n := by omega
      simp [h1, this, show i < n + 1 by omega]
    · by_cases h2 : i = n
      · subst h2; cases b i <;> simp
      · have h3 : ¬ i < n + 1 := by omega
        have h4 : i - n ≠ 0 := by omega
        have h5 : (1 : Nat).testBit (i - n) = false :=
          Nat.testBit_lt_two_pow (Nat.one_lt_two_pow h4)
        cases b n <;> simp [h1, h3, h5]

theorem ofBits_lt (b : Nat → Bool) (n : Nat) : ofBits n b < 2 ^ n := by
  apply Nat.lt_pow_two_of_testBit
  intro i hi
  rw [ofBits_aux]; simp; omega

/-- No two fields of the device overlap and every value fits (what `docDev` keeps). -/
def DevOk (fs : List DF) : Prop := fs.Pairwise (fun x y => ∀ i, ¬ (x.covers i ∧ y.covers i)) ∧ ∀ x ∈ fs, x.value < 2 ^ x.size

theorem devOk_map {fs : List DF} (h : DevOk fs) (g : DF → DF) (hl : ∀ x, (g x).lsb = x.lsb ∧ (g x).size = x.size)
    (hv : ∀ x ∈ fs, (g x).value < 2 ^ x.size) : DevOk (fs.map g) := by
  refine ⟨List.pairwise_map.2 (h.1.imp fun {x y} hxy i => ?_), ?_⟩
  · simp only [DF.covers, (hl x).1, (hl x).2, (hl y).1, (hl y).2]; exact hxy i
  · intro x hx
    obtain ⟨y, hy, rfl⟩ := List.mem_map.1 hx
    rw [(hl y).2]; exact hv y hy

/-- The device of the specification, on the states it can be in. -/
def okDev : Dev { fs : List DF // DevOk fs } where
  wr s v := (⟨(docDev.wr s.1 v).1, devOk_map s.2 _ (fun _ => ⟨rfl, rfl⟩) fun x _ => ofBits_lt _ _⟩, true)
  rd s := (⟨(docDev.rd s.1).1, devOk_map s.2 _ (fun _ => ⟨rfl, rfl⟩) fun x hx => by
      have := Nat.two_pow_pos x.size
      simp only
      split
      · exact this
      · omega
      · exact s.2.2 x hx⟩, (docDev.rd s.1).2.1, true)

theorem docData_testBit (fs : List DF) (h : DevOk fs) (i : Nat) :
    (docDev.rd fs).2.1.testBit i = fs.any fun x => decide ((doc x.acc).2 ≠ .error ∧ x.acc ≠ .NOACCESS) && decide (x.lsb ≤ i) && x.value.testBit (i - x.lsb) := by
  have key : ∀ (l : List DF) (a : Nat), (∀ x ∈ l, x.value < 2 ^ x.size) →
      (l.foldl (fun a x => if (doc x.acc).2 ≠ .error ∧ x.acc ≠ .NOACCESS then a ||| (x.value % 2 ^ x.size) <<< x.lsb else a) a).testBit i =
      (a.testBit i || l.any fun x => decide ((doc x.acc).2 ≠ .error ∧ x.acc ≠ .NOACCESS) && decide (x.lsb ≤ i) && x.value.testBit (i - x.lsb)) := by
    intro l
    induction l with
    | nil => intro a _; simp
    | cons x l ih =>
      intro a hl
      rw [List.foldl_cons, ih _ fun y hy => hl y (by simp [hy]), List.any_cons]
      by_cases hc : (doc x.acc).2 ≠ .error ∧ x.acc ≠ .NOACCESS
      · rw [if_pos hc, Nat.testBit_or, Nat.testBit_shiftLeft, Nat.mod_eq_of_lt (hl x (by simp))]
        simp [hc, Bool.or_assoc]
      · rw [if_neg hc]; simp only [hc, decide_false, Bool.false_and, Bool.false_or]
  exact (key fs 0 h.2).trans (by simp)

theorem covers_of_testBit {x : DF} (hv : x.value < 2 ^ x.size) {i : Nat} (h1 : x.lsb ≤ i) (h2 : x.value.testBit (i - x.lsb) = true) : x.covers i := by
  refine ⟨h1, ?_⟩
  rcases Nat.lt_or_ge i (x.lsb + x.size) with h | h
  · exact h
  · rw [Nat.testBit_lt_two_pow (Nat.lt_of_lt_of_le hv (Nat.pow_le_pow_right (by decide) (show x.size ≤ i - x.lsb by omega)))] at h2
    simp at h2

theorem devOk_unique {fs : List DF} (h : fs.Pairwise fun x y => ∀ i, ¬ (x.covers i ∧ y.covers i)) {x y : DF} (hx : x ∈ fs) (hy : y ∈ fs)
    {i : Nat} (h1 : x.covers i) (h2 : y.covers i) : x = y := by
  induction fs with
  | nil => simp at hx
  | cons a l ih =>
    obtain ⟨ha, hl⟩ := List.pairwise_cons.1 h
    rcases List.mem_cons.1 hx with rfl | hx' <;> rcases List.mem_cons.1 hy with rfl | hy'
    · rfl
    · exact absurd ⟨h1, h2⟩ (ha y hy' i)
    · exact absurd ⟨h2, h1⟩ (ha x hx' i)
    · exact ih hl hx' hy'

/-- The hypothesis of C81 can be met, for any layout and any policies. -/
theorem okDev_followsDoc : FollowsDoc okDev (fun s => s.1) where
  wr s v := ⟨rfl, All2.map_right _ fun x hx => ⟨rfl, rfl, rfl, rfl, ofBits_lt _ _, fun i hi => by rw [ofBits_aux]; simp [hi]⟩⟩
  rd s := ⟨rfl, All2.map_right _ fun x hx => rfl⟩
  data s x hx hR i hc := by
    refine (docData_testBit s.1 s.2 i).trans ?_
    cases hb : x.value.testBit (i - x.lsb) with
    | true => rw [List.any_eq_true]; exact ⟨x, hx, by simp [hb, hc.1]; exact hR⟩
    | false =>
      rw [List.any_eq_false]
      intro y hy hbad
      simp only [Bool.and_eq_true, decide_eq_true_eq] at hbad
      have := devOk_unique s.2.1 hx hy hc (covers_of_testBit (s.2.2 y hy) hbad.1.2 hbad.2)
      subst this
      rw [hb] at hbad; simp at hbad
  rest s i h := by
    refine (docData_testBit s.1 s.2 i).trans ?_
    rw [List.any_eq_false]
    intro y hy hbad
    simp only [Bool.and_eq_true, decide_eq_true_eq] at hbad
    exact h y hy hbad.1.1 (covers_of_testBit (s.2.2 y hy) hbad.1.2 hbad.2)

-- Non-vacuity: the register with a plain and a write-clears field, its device, and a history.
def wcDev : { fs : List DF // DevOk fs } := ⟨[⟨0, 4, .RW, 0, false⟩, ⟨4, 4, .WC, 5, false⟩], by
  refine ⟨?_, by decide⟩
  simp [DF.covers]; omega⟩

example : Agrees wcReg wcDev.1 := .cons ⟨rfl, rfl, rfl, rfl, rfl⟩ (.cons ⟨rfl, rfl, rfl, rfl, rfl⟩ .nil)

example : ∃ r s, opRun rwCfg .RW .RW okDev {} (wcReg, wcDev) [.set 0x35, .read, .update, .write 0x3c, .mirror true] = some (r, s) ∧ Agrees r s.1 :=
  C81_mirror_tracks_device rwCfg rfl rfl (fun _ => rfl) .RW .RW okDev _ okDev_followsDoc {} quiet_default _ _ _ wcReg_reachable
    (.cons ⟨rfl, rfl, rfl, rfl, rfl⟩ (.cons ⟨rfl, rfl, rfl, rfl, rfl⟩ .nil))

/-- C111 fails with a map that is not read/write: the policy in force differs from the field's own, so a write-only view of a read/write
field predicts that nothing happens although the device takes the value. -/
theorem C111_write_only_map_fails :
    ∃ (r : Reg) (o : WOut Nat), Reachable r ∧ getMirrored r = 0 ∧
      write { rwCfg with route := .front .WO } .RW byteDev {} {} r 0 0x5a = some o ∧ o.ok = true ∧ o.dev = 0x5a ∧ getMirrored o.reg = 0 :=
  ⟨rwReg, (write { rwCfg with route := .front .WO } .RW byteDev {} {} rwReg 0 0x5a).get (by decide), rwReg_reachable, by decide, by simp,
    by decide, by decide, by decide⟩

end Verif.RegAccess
