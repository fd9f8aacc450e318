import Verif.Lemmas.RegAccess
namespace Verif.RegAccess
open Verif.Reg Verif.RegField Verif.SvBits

theorem maskInt_slice (v : Nat) (l n i : Nat) (hi : i < n) :
    (maskInt n (slice v l n)).testBit i = (v >>> l).testBit i := by
  rw [maskInt_testBit _ _ _ hi, intBit_nat, slice_testBit _ _ _ _ hi, intBit_nat, Nat.testBit_shiftRight]

theorem and_mask_of_lt {f : Field} {x : Nat} (h : x < 2 ^ f.size) : x &&& mask f = x := by
  rw [mask, Nat.and_two_pow_sub_one_eq_mod, Nat.mod_eq_of_lt h]

theorem predF_write (v : Nat) (busy : Bool) {x : RF} (hF : Fits x.f) {y z : DF} (h : FieldAgrees x y) (hw : DF.Written v y z) :
    FieldAgrees (predF v .write .RW busy x) z := by
  obtain ⟨h1, h2, h3, h4, h5⟩ := h
  obtain ⟨w1, w2, w3, w4, w5⟩ := hw
  have hx := xpredict_result x.f x.f.mirrored (maskInt x.f.size (slice v x.lsb x.f.size)) .RW hF.mirrored (maskInt_lt _ _)
  have hlt := hx.1
  simp only [predF, RegField.doPredict, if_false]
  refine ⟨h1.trans w1.symm, h2.trans w2.symm, h3.trans w3.symm, ?_, w4.symm⟩
  show xpredict x.f x.f.mirrored (maskInt x.f.size (slice v x.lsb x.f.size)) .RW &&& mask x.f = z.value
  rw [and_mask_of_lt hlt]
  refine isWriteResult_unique (n := x.f.size) (e := (doc x.f.access).1) hx ?_
  rw [h2, h3, h4, h5]
  refine ⟨w5.1, fun i hi => ?_⟩
  rw [w5.2 i hi, maskInt_slice _ _ _ _ hi, h1]

theorem predF_read (v : Nat) (busy : Bool) {x : RF} (hF : Fits x.f) {y z : DF} (h : FieldAgrees x y) (hr : DF.Read y z)
    (hd : Readable y.acc → ∀ i, i < y.size → (v >>> y.lsb).testBit i = y.value.testBit i) :
    FieldAgrees (predF v .read .RW busy x) z := by
  obtain ⟨h1, h2, h3, h4, h5⟩ := h
  have hval : Readable y.acc → maskInt x.f.size (slice v x.lsb x.f.size) &&& mask x.f = x.f.mirrored := by
    intro hrd
    rw [and_mask_of_lt (maskInt_lt _ _)]
    apply Nat.eq_of_testBit_eq
    intro i
    by_cases hi : i < x.f.size
    · rw [maskInt_slice _ _ _ _ hi, h1, hd hrd i (h2 ▸ hi), h4]
    · rw [Nat.testBit_lt_two_pow (Nat.lt_of_lt_of_le (maskInt_lt _ _) (Nat.pow_le_pow_right (by omega) (by omega))),
        Nat.testBit_lt_two_pow (Nat.lt_of_lt_of_le hF.mirrored (Nat.pow_le_pow_right (by omega) (by omega)))]
  have hacc := hF.acc
  unfold DF.Read at hr
  subst hr
  unfold FieldAgrees predF RegField.doPredict
  simp only [getAccess]
  cases ha : x.f.access <;>
    first
    | exact absurd ha hacc
    | (have hy : y.acc = _ := h3.symm.trans ha
       refine ⟨h1, h2, hy.symm, ?_, h5⟩
       simp [hy, ha, doc, mask, h2]; done)
    | (have hy : y.acc = _ := h3.symm.trans ha
       refine ⟨h1, h2, h3, ?_, h5⟩
       simp [hy, doc, h4]; done)
    | (have hy : y.acc = _ := h3.symm.trans ha
       refine ⟨h1, h2, hy.symm, ?_, h5⟩
       have := hval (by rw [hy]; exact ⟨by simp [doc], by simp⟩)
       simp only [hy, doc, if_true]
       exact this.trans h4)

theorem good_predF {c : Cfg} (hb : ∀ i, c.bare i = false) {r : Reg} (h : Good r) (v : Nat) (k : PKind) (hk : k ≠ .direct) (rt : Rights) :
    Good { r with fields := r.fields.map (predF v k rt r.busy) } := by
  have := predict_front hb r v k hk rt
  simp only [predict] at this
  split at this
  · simp at this
  · obtain ⟨q, hq, he⟩ := Option.map_eq_some_iff.1 this
    rw [← he]; exact (good_doPredict h hq).1

theorem agrees_write {r : Reg} (h : Good r) {fs gs : List DF} (ha : Agrees r fs) {v : Nat} (hw : All2 (DF.Written v) fs gs) (busy : Bool) :
    Agrees { r with fields := r.fields.map (predF v .write .RW busy) } gs :=
  ha.trans_map hw fun x _ _ hx _ h1 h2 => predF_write v busy (h.fits x hx) h1 h2

theorem agrees_read {r : Reg} (h : Good r) {fs gs : List DF} (ha : Agrees r fs) {v : Nat} (hr : All2 DF.Read fs gs)
    (hd : ∀ y ∈ fs, Readable y.acc → ∀ i, y.covers i → v.testBit i = y.value.testBit (i - y.lsb)) (busy : Bool) :
    Agrees { r with fields := r.fields.map (predF v .read .RW busy) } gs :=
  ha.trans_map hr fun x y _ hx hy h1 h2 => predF_read v busy (h.fits x hx) h1 h2 fun hrd i hi => by
    rw [Nat.testBit_shiftRight, hd y hy hrd (y.lsb + i) ⟨by omega, by omega⟩]; congr 1; omega

theorem agrees_set {r : Reg} {fs : List DF} (ha : Agrees r fs) (v : Int) : Agrees (Reg.set r v) fs :=
  ha.map_left fun _ _ _ h => h

theorem agrees_setField {r : Reg} {fs : List DF} (ha : Agrees r fs) (i : Nat) (v : Int) :
    Agrees (Reg.step r (.fieldOp i (.set v))) fs :=
  All2.modify_left (g := fun x : RF => { x with f := RegField.step x.f (.set v) }) ha (fun _ _ h => h) i

theorem good_set {r : Reg} (h : Good r) (v : Int) : Good (Reg.set r v) := (good_step h (.set v)).1

/-! ### Accesses with hooks that leave the item alone -/

theorem write_quiet {σ} {c : Cfg} {rt : Rights} (hr : c.route = .front rt) (hb : ∀ i, c.bare i = false) (dflt : Rights) (d : Dev σ)
    {pre post : Hooks} (hp : Quiet pre) (hq : Quiet post) (r : Reg) (s : σ) (v : Nat) :
    ∃ o, write c dflt d pre post r s v = some o ∧ o.dev = (d.wr s (v % 2 ^ r.nBits)).1 ∧ o.ok = (d.wr s (v % 2 ^ r.nBits)).2 ∧
      o.reg = if c.auto then { Reg.set r v with fields := (Reg.set r v).fields.map (predF (v % 2 ^ r.nBits) .write rt r.busy) }
        else Reg.set r v := by
  have hn : (Reg.set r v).nBits = r.nBits := rfl
  have hbz : (Reg.set r v).busy = r.busy := rfl
  cases ha : c.auto <;>
    simp [write, doWrite, hr, preWrite_quiet hp, hn, ha, predict_front hb, postWrite_quiet hq, hbz]

theorem read_quiet {σ} {c : Cfg} {rt : Rights} (hr : c.route = .front rt) (hb : ∀ i, c.bare i = false) (d : Dev σ)
    {pre post : Hooks} (hp : Quiet pre) (hq : Quiet post) (r : Reg) (s : σ) :
    ∃ o, doRead c d pre post r s = some o ∧ o.dev = (d.rd s).1 ∧ o.ok = (d.rd s).2.2 ∧ o.value = (d.rd s).2.1 ∧
      o.err = (c.auto && c.check && (d.rd s).2.2 && !(doCheck r rt (Reg.get r) (d.rd s).2.1)) ∧
      o.reg = if c.auto then { r with fields := r.fields.map (predF (d.rd s).2.1 .read rt r.busy) } else r := by
  cases ha : c.auto <;>
    simp [doRead, hr, preRead_quiet hp, ha, predict_front hb, postRead_quiet hq]

end Verif.RegAccess
