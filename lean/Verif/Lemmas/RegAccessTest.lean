import Verif.Spec.RegAccessTest
import Verif.Lemmas.RegTests
import Verif.Props.Hdl
namespace Verif.RegAccessTest
open Verif.Reg Verif.RegField Verif.RegAccess Verif.RegTests Verif.SvBits
open Verif.Hdl (Dut Whole put after finalValue fieldAt regRead regWrite woMask readEffect writeBack)

theorem compl_lt (n v : Nat) : compl n v < 2 ^ n := by
  have := Nat.two_pow_pos n
  unfold compl; omega

theorem compl_bit {n v k : Nat} (h : k < n) : (compl n v).testBit k = !v.testBit k := by
  have h2 := Nat.mod_lt v (Nat.two_pow_pos n)
  have : compl n v = 2 ^ n - (v % 2 ^ n + 1) := by unfold compl; omega
  rw [this, Nat.testBit_two_pow_sub_succ h2, Nat.testBit_mod_two_pow]
  simp [h]

theorem intBit_compl (v i : Nat) : intBit (-(v : Int) - 1) i = !v.testBit i := by
  have hp : (0 : Int) < ((2 ^ i : Nat) : Int) := by have := Nat.two_pow_pos i; omega
  have h1 : (v : Int) = ((2 ^ i : Nat) : Int) * (v / (2 ^ i : Nat)) + v % (2 ^ i : Nat) := (Int.mul_ediv_add_emod _ _).symm
  have h2 := Int.emod_lt_of_pos (v : Int) hp
  have h3 := Int.emod_nonneg (v : Int) (Int.ne_of_gt hp)
  rw [← intBit_nat]
  unfold intBit
  generalize hq : (v : Int) / (2 ^ i : Nat) = q at *
  have h4 : (-(v : Int) - 1) = (((2 ^ i : Nat) : Int) - 1 - v % (2 ^ i : Nat)) + ((2 ^ i : Nat) : Int) * (-q - 1) := by
    rw [Int.mul_sub, Int.mul_neg]; omega
  rw [h4, Int.add_mul_ediv_left _ _ (Int.ne_of_gt hp), Int.ediv_eq_zero_of_lt (by omega) (by omega), Int.zero_add]
  have h5 : q % 2 = 0 ∨ q % 2 = 1 := by omega
  rcases h5 with h | h
  · rw [h, show (-q - 1) % 2 = 1 by omega]; rfl
  · rw [h, show (-q - 1) % 2 = 0 by omega]; rfl

/-- The fields take from `~v` what they take from `compl`. -/
theorem set_compl (r : Reg) (hin : Inside r) (v : Nat) : Reg.set r (-(v : Int) - 1) = Reg.set r (compl r.nBits v : Nat) := by
  simp only [Reg.set]
  congr 1
  apply List.map_congr_left
  intro x hx
  have hx := hin x hx
  congr 2
  have hs : slice (-(v : Int) - 1) x.lsb x.f.size = slice (compl r.nBits v : Nat) x.lsb x.f.size := by
    apply Nat.eq_of_testBit_eq
    intro b
    by_cases hb : b < x.f.size
    · rw [slice_testBit _ _ _ _ hb, slice_testBit _ _ _ _ hb, intBit_nat, compl_bit (by omega)]
      exact intBit_compl v _
    · rw [testBit_high (slice_lt _ _ _) (by omega), testBit_high (slice_lt _ _ _) (by omega)]
  rw [hs]

/-! ### Accesses through the back door -/

theorem good_after {r : Reg} (h : Good r) (v : Nat) (k : PKind) (hk : k ≠ .direct) : Good (after r v k) :=
  (good_doPredict h (Hdl.doPredict_other r v k hk .RW)).1

theorem shape_after (r : Reg) (v : Nat) (k : PKind) : shape (after r v k) = shape r := by
  simp only [shape, after, List.map_map]; rfl

theorem regWrite_one {d : Dut} {paths : List (List Hdl.Slice)} {i : Nat} (h : Whole d paths [i]) (dflt : Rights) (r : Reg) (v : Nat) :
    regWrite paths dflt r d v = some ⟨after (Reg.set r v) (finalValue dflt r (d.val i % 2 ^ r.nBits) (v % 2 ^ r.nBits)) .write,
      put d i (finalValue dflt r (d.val i % 2 ^ r.nBits) (v % 2 ^ r.nBits)), true, 0⟩ := by
  have hn : (Reg.set r v).nBits = r.nBits := rfl
  have hb := Hdl.bdRead_whole (n := r.nBits) h (v % 2 ^ r.nBits)
  rw [decide_eq_true (by simp)] at hb
  simp only [regWrite, hn, hb, Option.bind_eq_bind, Option.bind_some, Bool.true_eq_false, if_false]
  have e := Hdl.final_set dflt r v (d.val i % 2 ^ r.nBits) (v % 2 ^ r.nBits)
  unfold finalValue at e
  rw [e]
  have e2 := Hdl.bdWrite_whole h (finalValue dflt r (d.val i % 2 ^ r.nBits) (v % 2 ^ r.nBits))
  unfold finalValue at e2 ⊢
  rw [e2]
  simp only [Option.bind_some, Hdl.doPredict_other (Reg.set r v) _ .write (by decide)]
  rfl

/-- What a back-door read gives. -/
def seen (r : Reg) (d : Dut) (i : Nat) : Nat := andNot (d.val i % 2 ^ r.nBits) (woMask r)

theorem regRead_one {d : Dut} {paths : List (List Hdl.Slice)} {i : Nat} (h : Whole d paths [i]) (r : Reg) :
    ∃ d', (d' = d ∨ d' = put d i (r.fields.foldl (fun v x => readEffect x v) (d.val i % 2 ^ r.nBits))) ∧
      regRead paths r d = some ⟨after r (seen r d i) .read, d', true, seen r d i⟩ := by
  have hb := Hdl.bdRead_whole (n := r.nBits) h 0
  rw [decide_eq_true (by simp)] at hb
  obtain ⟨d', hd', hw⟩ : ∃ d', (d' = d ∨ d' = put d i (r.fields.foldl (fun v x => readEffect x v) (d.val i % 2 ^ r.nBits))) ∧
      writeBack paths d (r.fields.foldl (fun v x => readEffect x v) (d.val i % 2 ^ r.nBits)) (d.val i % 2 ^ r.nBits) = some d' := by
    by_cases he : (r.fields.foldl (fun v x => readEffect x v) (d.val i % 2 ^ r.nBits)) = d.val i % 2 ^ r.nBits
    · exact ⟨d, .inl rfl, by simp [writeBack, he]⟩
    · exact ⟨_, .inr rfl, by rw [writeBack, if_pos he]; exact Hdl.bdWrite_whole h _⟩
  refine ⟨d', hd', ?_⟩
  simp only [regRead, hb, Option.bind_eq_bind, Option.bind_some, Bool.true_eq_false, if_false]
  rw [hw]
  simp only [Option.bind_some, Hdl.doPredict_other r _ .read (by decide)]
  rfl

theorem whole_same {d e : Dut} {paths : List (List Hdl.Slice)} {sigs : List Nat} (h : Whole d paths sigs) (hs : SameDesign d e) : Whole e paths sigs := by
  unfold Whole at h ⊢
  induction h with
  | nil => exact .nil
  | cons h1 _ ih =>
    obtain ⟨p, hp, hq⟩ := h1
    exact .cons ⟨p, hp, by rw [Hdl.Signal, hs.1, hs.2.2]; exact hq⟩ ih

theorem same_refl (d : Dut) : SameDesign d d := ⟨rfl, rfl, rfl⟩
theorem same_trans {a b c : Dut} (h : SameDesign a b) (g : SameDesign b c) : SameDesign a c :=
  ⟨g.1.trans h.1, g.2.1.trans h.2.1, g.2.2.trans h.2.2⟩
theorem same_put (d : Dut) (i v : Nat) : SameDesign d (put d i v) := ⟨rfl, rfl, rfl⟩

theorem mirror_front {σ} {c : Cfg} {rt : Rights} (hr : c.route = .front rt) (d : Dev σ) (pre post : Hooks) (check : Bool) (rt' : Rights) (r : Reg) (s : σ) :
    mirror c d pre post check rt' r s = (doRead c d pre post r s).map fun o => ⟨o.reg, o.dev, [o.ok], check && !(doCheck o.reg rt' (getMirrored r) o.value)⟩ := by
  simp [mirror, hr]

/-- The stages of the test through one map: the register and the design after the front-door write, after the back-door read (`after ..`, `d2`), after the
back-door write (`after ..`, `put ..`) and after the front-door read. -/
theorem accessMap_run {paths : List (List Hdl.Slice)} (dflt : Rights) {t : St Dut} {m : Via Dut} (hm : Open m) {i : Nat} (h : Whole t.dev paths [i])
    (hwr : ∀ d v, SameDesign d (m.dev.wr d v).1) :
    ∃ (w : Reg) (d2 : Dut) (o : Reg),
      w = { Reg.set t.reg (compl t.reg.nBits (Reg.get t.reg) : Nat) with fields := (Reg.set t.reg (compl t.reg.nBits (Reg.get t.reg) : Nat)).fields.map (predF (compl t.reg.nBits (Reg.get t.reg)) .write .RW t.reg.busy) } ∧
      (d2 = (m.dev.wr t.dev (compl t.reg.nBits (Reg.get t.reg))).1 ∨
        d2 = put (m.dev.wr t.dev (compl t.reg.nBits (Reg.get t.reg))).1 i (w.fields.foldl (fun v x => readEffect x v)
          ((m.dev.wr t.dev (compl t.reg.nBits (Reg.get t.reg))).1.val i % 2 ^ w.nBits))) ∧
      let d1 := (m.dev.wr t.dev (compl t.reg.nBits (Reg.get t.reg))).1
      let b := after w (seen w d1 i) .read
      let F := finalValue dflt b (d2.val i % 2 ^ b.nBits) (Reg.get t.reg % 2 ^ b.nBits)
      let x := after (Reg.set b (Reg.get t.reg)) F .write
      o = { x with fields := x.fields.map (predF (m.dev.rd (put d2 i F)).2.1 .read .RW x.busy) } ∧
      accessMap paths dflt t m =
        if (m.dev.wr t.dev (compl t.reg.nBits (Reg.get t.reg))).2 = true ∧ (m.dev.rd (put d2 i F)).2.2 = true then
          some ⟨o, (m.dev.rd (put d2 i F)).1, t.errs + (if doCheck b .backdoor (getMirrored w) (seen w d1 i) then 0 else 1) +
            (if doCheck o .RW (getMirrored x) (m.dev.rd (put d2 i F)).2.1 then 0 else 1)⟩
        else none := by
  obtain ⟨hr, hrt, ha, hb⟩ := hm
  have hmod : compl t.reg.nBits (Reg.get t.reg) % 2 ^ t.reg.nBits = compl t.reg.nBits (Reg.get t.reg) := Nat.mod_eq_of_lt (compl_lt _ _)
  obtain ⟨w, h1, h2, h3, h4⟩ := write_quiet hr hb dflt m.dev quiet_default quiet_default t.reg t.dev (compl t.reg.nBits (Reg.get t.reg))
  rw [hmod] at h2 h3 h4
  rw [ha, if_pos rfl] at h4
  have hw1 : Whole w.dev paths [i] := by rw [h2]; exact whole_same h (hwr _ _)
  obtain ⟨d2, hd2, hread⟩ := regRead_one hw1 w.reg
  have hw2 : Whole d2 paths [i] := by
    rcases hd2 with rfl | rfl
    · exact hw1
    · exact whole_same hw1 (same_put _ _ _)
  have hwrite := regWrite_one hw2 dflt (after w.reg (seen w.reg w.dev i) .read) (Reg.get t.reg)
  generalize hF : finalValue dflt (after w.reg (seen w.reg w.dev i) .read) (d2.val i % 2 ^ (after w.reg (seen w.reg w.dev i) .read).nBits)
    (Reg.get t.reg % 2 ^ (after w.reg (seen w.reg w.dev i) .read).nBits) = F at hwrite
  obtain ⟨o, g1, g2, g3, g4, _, g6⟩ := read_quiet hr hb m.dev quiet_default quiet_default
    (after (Reg.set (after w.reg (seen w.reg w.dev i) .read) (Reg.get t.reg)) F .write) (put d2 i F)
  rw [ha, if_pos rfl] at g6
  refine ⟨w.reg, d2, o.reg, h4, ?_, ?_⟩
  · rw [← h2]; exact hd2
  · simp only
    rw [← h2, ← h3, hF]
    refine ⟨g6, ?_⟩
    simp only [accessMap, h1, Option.bind_eq_bind, Option.bind_some]
    rw [hread, ]
    simp only [Option.bind_some, hwrite, mirror_front hr, g1, Option.map_some, Bool.true_eq_false, if_false, Bool.true_and, ← g3, ← g2, ← g4, hrt]
    by_cases a1 : w.ok = true <;> by_cases a2 : o.ok = true <;> simp [a1, a2]
    generalize doCheck o.reg .RW _ _ = q
    cases q <;> rfl

/-! ### A device that follows the documentation -/

theorem fieldAt_none {r : Reg} {b : Nat} : fieldAt r b = none ↔ ∀ x ∈ r.fields, ¬ Covers x b := by
  simp [fieldAt]

theorem fieldAt_shape {r r' : Reg} (h : shape r' = shape r) (b : Nat) : fieldAt r' b = none ↔ fieldAt r b = none := by
  rw [fieldAt_none, fieldAt_none]
  constructor
  · intro g x hx hc
    obtain ⟨y, hy, e1, e2, _⟩ := shape_mem h hx
    exact g y hy ⟨by rw [e1]; exact hc.1, by rw [e1, e2]; exact hc.2⟩
  · intro g x hx hc
    obtain ⟨y, hy, e1, e2, _⟩ := shape_mem h.symm hx
    exact g y hy ⟨by rw [e1]; exact hc.1, by rw [e1, e2]; exact hc.2⟩

theorem inside_shape {r r' : Reg} (h : shape r' = shape r) (hn : r'.nBits = r.nBits) (hi : Inside r) : Inside r' := by
  intro x hx
  obtain ⟨y, hy, e1, e2, _⟩ := shape_mem h.symm hx
  rw [← e1, ← e2, hn]; exact hi y hy

theorem fieldAt_some {r : Reg} {b : Nat} {x : RF} (h : fieldAt r b = some x) : x ∈ r.fields ∧ Covers x b :=
  ⟨List.mem_of_find?_eq_some h, by simpa using List.find?_some h⟩

/-- Corresponding fields, all of them written at some time. -/
def Rel (r : Reg) (fs : List DF) : Prop :=
  All2 (fun x y => x.lsb = y.lsb ∧ x.f.size = y.size ∧ x.f.access = y.acc ∧ y.written = true) r.fields fs

theorem all2_comp {α β γ : Type} {R : α → β → Prop} {S : β → γ → Prop} {T : α → γ → Prop} {l : List α} {m : List β} {n : List γ}
    (h : All2 R l m) (g : All2 S m n) (hf : ∀ a b c, R a b → S b c → T a c) : All2 T l n := by
  induction h generalizing n with
  | nil => cases g; exact .nil
  | cons h1 _ ih => cases g with | cons g1 g2 => exact .cons (hf _ _ _ h1 g1) (ih g2)

theorem all2_imp {α β : Type} {R S : α → β → Prop} {l : List α} {m : List β}
    (h : All2 R l m) (hf : ∀ a b, a ∈ l → b ∈ m → R a b → S a b) : All2 S l m := by
  induction h with
  | nil => exact .nil
  | cons h1 _ ih => exact .cons (hf _ _ (by simp) (by simp) h1) (ih fun a b ha hb => hf a b (by simp [ha]) (by simp [hb]))

theorem rel_put {view : Dut → List DF} {i : Nat} (hv : InSignal view i) {r : Reg} {d : Dut} (h : Rel r (view d)) (v : Nat) : Rel r (view (put d i v)) :=
  all2_comp h (hv.deposit d v) fun _ _ _ h1 h2 => ⟨by rw [h2.1]; exact h1.1, by rw [h2.2.1]; exact h1.2.1, by rw [h2.2.2.1]; exact h1.2.2.1, by rw [h2.2.2.2]; exact h1.2.2.2⟩

theorem rel_after {r : Reg} {fs : List DF} (h : Rel r fs) (v : Nat) (k : PKind) : Rel (after r v k) fs :=
  h.map_left fun _ _ _ h => h

theorem rel_set {r : Reg} {fs : List DF} (h : Rel r fs) (v : Int) : Rel (Reg.set r v) fs :=
  h.map_left fun _ _ _ h => h

theorem agrees_put {view : Dut → List DF} {i : Nat} (hv : InSignal view i) {r : Reg} {d : Dut} {F : Nat} (hF : F < 2 ^ d.width i)
    (h : Rel r (view (put d i F))) : Agrees (after r F .write) (view (put d i F)) := by
  unfold Agrees
  refine All2.map_left (R := fun x y => x.lsb = y.lsb ∧ x.f.size = y.size ∧ x.f.access = y.acc ∧ y.written = true ∧ y ∈ view (put d i F))
    (all2_imp h fun x y _ hy h1 => ⟨h1.1, h1.2.1, h1.2.2.1, h1.2.2.2, hy⟩) ?_
  rintro x y _ ⟨h1, h2, h3, h4, hy⟩
  refine ⟨h1, h2, h3, ?_, h4.symm⟩
  show slice F x.lsb x.f.size = y.value
  apply Nat.eq_of_testBit_eq
  intro b
  by_cases hb : b < x.f.size
  · rw [slice_testBit _ _ _ _ hb, intBit_nat]
    have := hv.bits _ y hy (y.lsb + b) ⟨by omega, by omega⟩
    have hval : (put d i F).val i = F := by simp only [put, if_true]; exact Nat.mod_eq_of_lt hF
    rw [hval, Nat.add_sub_cancel_left] at this
    rw [h1]; exact this
  · rw [testBit_high (slice_lt _ _ _) (by omega), testBit_high (hv.fits _ y hy) (by omega)]

/-- What holds between the maps. -/
structure AccOk (view : Dut → List DF) (r0 : Reg) (d0 : Dut) (i : Nat) (t : St Dut) : Prop where
  ok : Ok view r0 t
  same : SameDesign d0 t.dev
  free : ∀ b, b < r0.nBits → fieldAt r0 b = none → (t.dev.val i).testBit b = false

theorem all2_written {v : Nat} {fs gs : List DF} (h : All2 (DF.Written v) fs gs) : ∀ y ∈ gs, y.written = true := by
  intro y hy
  obtain ⟨x, _, hx⟩ := h.mem_right hy
  exact hx.2.2.2.1

theorem accessMap_clean {paths : List (List Hdl.Slice)} (dflt : Rights) {view : Dut → List DF} {i : Nat} (hv : InSignal view i) {r0 : Reg} {d0 : Dut}
    (hin : Inside r0) (hread : ∀ x ∈ r0.fields, Readable x.f.access) (hwid : r0.nBits ≤ d0.width i) (hwhole : Whole d0 paths [i])
    {m : Via Dut} (hm : Open m) (hd : FollowsDoc m.dev view) (hwire : Wired m.dev r0 i) {t : St Dut} (ht : AccOk view r0 d0 i t) :
    ∃ t', accessMap paths dflt t m = some t' ∧ AccOk view r0 d0 i t' ∧ t'.errs = t.errs := by
  obtain ⟨w, d2, o, h4, hd2, ho, hrun⟩ := accessMap_run dflt hm (whole_same hwhole ht.same) hwire.wr
  obtain ⟨ok, hsame, hfree⟩ := ht
  generalize hW : compl t.reg.nBits (Reg.get t.reg) = W at *
  generalize hd1 : (m.dev.wr t.dev W).1 = d1 at *
  have hb := hm.2.2.2
  have hGw : Good w := by rw [h4]; exact good_predF hb (good_set ok.good _) _ .write (by decide) .RW
  have hAw : Agrees w (view d1) := by
    rw [h4, ← hd1]; exact agrees_write (good_set ok.good _) (agrees_set ok.agrees _) (hd.wr t.dev _).2 _
  have hSw : shape w = shape r0 := by rw [h4, shape_predF, shape_set, ok.shape]
  have hNw : w.nBits = r0.nBits := by rw [h4]; exact ok.bits
  have hIw : Inside w := inside_shape hSw hNw hin
  have hs1 : SameDesign d0 d1 := by rw [← hd1]; exact same_trans hsame (hwire.wr _ _)
  have hfree1 : ∀ b, b < r0.nBits → fieldAt r0 b = none → (d1.val i).testBit b = false := by
    intro b h1 h2; rw [← hd1, hwire.wrFree _ _ _ h1 h2]; exact hfree b h1 h2
  have hRw : Rel w (view d1) := by
    refine all2_imp hAw ?_
    intro x y _ hy hxy
    exact ⟨hxy.1, hxy.2.1, hxy.2.2.1, all2_written (hd.wr t.dev W).2 y (by rw [hd1]; exact hy)⟩
  -- the back-door read
  have hseen : ∀ b, (seen w d1 i).testBit b = (getMirrored w).testBit b := by
    intro b
    rw [show (getMirrored w).testBit b = _ from assemble_testBit _ hGw.disj _ (fun x hx => (hGw.fits x hx).mirrored) b]
    unfold seen
    rw [andNot_testBit, Hdl.woMask_testBit hGw.disj, Nat.testBit_mod_two_pow]
    cases hf : fieldAt w b with
    | none =>
      have hf' : w.fields.find? (fun x => decide (Covers x b)) = none := hf
      simp only [assembled, hf', Bool.not_false, Bool.and_true]
      by_cases hlt : b < w.nBits
      · simp [hfree1 b (by omega) ((fieldAt_shape hSw b).1 hf)]
      · simp [hlt]
    | some x =>
      obtain ⟨hx, hc⟩ := fieldAt_some hf
      rw [assembled_mem hGw.disj hx hc]
      have hlt : b < w.nBits := by have := hIw x hx; have := hc.2; omega
      obtain ⟨y, hy, e1, e2, e3, e4, _⟩ := hAw.mem_left hx
      obtain ⟨x0, hx0, _, _, f3, _⟩ := shape_mem hSw.symm hx
      have hR := hread x0 hx0
      rw [f3] at hR
      have hbit := hv.bits d1 y hy b ⟨by rw [← e1]; exact hc.1, by rw [← e1, ← e2]; exact hc.2⟩
      simp only [hlt, decide_true, Bool.true_and, hR.1, decide_false, Bool.not_false, Bool.and_true]
      rw [hbit, e4, e1]
  have hchk : doCheck (after w (seen w d1 i) .read) .backdoor (getMirrored w) (seen w d1 i) = true := by
    rw [Nat.eq_of_testBit_eq hseen]; simp [doCheck]
  generalize hB : after w (seen w d1 i) .read = B at *
  have hGB : Good B := by rw [← hB]; exact good_after hGw _ _ (by decide)
  have hSB : shape B = shape r0 := by rw [← hB, shape_after, hSw]
  have hNB : B.nBits = r0.nBits := by rw [← hB]; exact hNw
  have hIB : Inside B := inside_shape hSB hNB hin
  have hs2 : SameDesign d0 d2 := by
    rcases hd2 with rfl | rfl
    · exact hs1
    · exact same_trans hs1 (same_put _ _ _)
  have hR2 : Rel B (view d2) := by
    rw [← hB]
    rcases hd2 with rfl | rfl
    · exact rel_after hRw _ _
    · exact rel_after (rel_put hv hRw _) _ _
  -- the back-door write
  generalize hF : finalValue dflt B (d2.val i % 2 ^ B.nBits) (Reg.get t.reg % 2 ^ B.nBits) = F at *
  have hFlt : F < 2 ^ B.nBits := by rw [← hF]; exact Hdl.final_lt dflt hGB hIB _ _
  have hFw : F < 2 ^ d2.width i := by
    refine Nat.lt_of_lt_of_le hFlt (Nat.pow_le_pow_right (by omega) ?_)
    rw [hNB, hs2.2.1]; exact hwid
  generalize hd3 : put d2 i F = d3 at *
  generalize hX : after (Reg.set B (Reg.get t.reg)) F .write = X at *
  have hGX : Good X := by rw [← hX]; exact good_after (good_set hGB _) _ _ (by decide)
  have hSX : shape X = shape r0 := by rw [← hX, shape_after, shape_set, hSB]
  have hNX : X.nBits = r0.nBits := by rw [← hX]; exact hNB
  have hAX : Agrees X (view d3) := by
    rw [← hX, ← hd3]
    exact agrees_put hv hFw (rel_set (rel_put hv hR2 F) _)
  -- the front-door read
  have hval : (m.dev.rd d3).2.1 = getMirrored X := by
    apply Nat.eq_of_testBit_eq
    intro b
    apply data_bit hd hGX hAX
    intro x hx _
    obtain ⟨x0, hx0, _, _, f3, _⟩ := shape_mem hSX.symm hx
    rw [← f3]; exact hread x0 hx0
  have hs3 : SameDesign d0 d3 := by rw [← hd3]; exact same_trans hs2 (same_put _ _ _)
  rw [if_pos ⟨(hd.wr _ _).1, (hd.rd _).1⟩, if_pos hchk, if_pos (by rw [hval]; simp [doCheck])] at hrun
  refine ⟨_, hrun, ⟨⟨?_, ?_, ?_, ?_⟩, same_trans hs3 (hwire.rd _), ?_⟩, rfl⟩
  · show Good o
    rw [ho]; exact good_predF hb hGX _ .read (by decide) .RW
  · show Agrees o _
    rw [ho]; exact agrees_read hGX hAX (hd.rd d3).2 (fun y hy hR j hj => hd.data d3 y hy hR j hj) _
  · show shape o = _
    rw [ho, shape_predF, hSX]
  · show o.nBits = _
    rw [ho]; exact hNX
  · intro b hb1 hb2
    show ((m.dev.rd d3).1.val i).testBit b = false
    rw [hwire.rdFree _ _ hb1 hb2, ← hd3]
    have : (put d2 i F).val i = F := by simp only [put, if_true]; exact Nat.mod_eq_of_lt hFw
    rw [this, ← hF, Hdl.final_testBit dflt hGB]
    have hn : fieldAt B b = none := (fieldAt_shape hSB b).2 hb2
    rw [hn]

/-! ### Any device -/

theorem cover_unique {r : Reg} (hd : NoOverlap r.fields) {x y : RF} (hx : x ∈ r.fields) (hy : y ∈ r.fields) {k : Nat} (h1 : Covers x k) (h2 : Covers y k) : x = y := by
  by_cases e : x = y
  · exact e
  · exact absurd ⟨k, h1, h2⟩ (noOverlap_mem hd hx hy e)

theorem checked_shape {r r' : Reg} (h : shape r' = shape r) (hd : NoOverlap r.fields) {x : RF} (hx : x ∈ r.fields) {k : Nat} (hc : Covers x k) (hk : x.f.check = true) :
    ∀ y ∈ r'.fields, Covers y k → y.f.check = true := by
  intro y hy hcy
  obtain ⟨z, hz, e1, e2, _, e4⟩ := shape_mem h.symm hy
  have : z = x := cover_unique hd hz hx ⟨by rw [e1]; exact hcy.1, by rw [e1, e2]; exact hcy.2⟩ hc
  rw [← e4, this]; exact hk

/-- The first two stages at a bit of a plain field (`RW` or `WO`): what is written is mirrored. -/
theorem wrote_bit {t : St Dut} {r0 : Reg} (ht : Shaped r0 t) {x0 : RF} (hx0 : x0 ∈ r0.fields) {k : Nat} (hk : k < r0.nBits) (hc0 : Covers x0 k)
    (ha0 : x0.f.access = .RW ∨ x0.f.access = .WO) {m : Via Dut} (hb : ∀ i, m.cfg.bare i = false) {w : Reg}
    (h4 : w = { Reg.set t.reg (compl t.reg.nBits (Reg.get t.reg) : Nat) with fields := (Reg.set t.reg (compl t.reg.nBits (Reg.get t.reg) : Nat)).fields.map (predF (compl t.reg.nBits (Reg.get t.reg)) .write .RW t.reg.busy) }) :
    Good w ∧ shape w = shape r0 ∧ w.nBits = r0.nBits ∧ (getMirrored w).testBit k = !(Reg.get t.reg).testBit k := by
  have hGw : Good w := by rw [h4]; exact good_predF hb (good_set ht.good _) _ .write (by decide) .RW
  have hSw : shape w = shape r0 := by rw [h4, shape_predF, shape_set, ht.shape]
  refine ⟨hGw, hSw, by rw [h4]; exact ht.bits, ?_⟩
  have hWk : (compl t.reg.nBits (Reg.get t.reg)).testBit k = !(Reg.get t.reg).testBit k := compl_bit (by rw [ht.bits]; exact hk)
  generalize compl t.reg.nBits (Reg.get t.reg) = W at *
  obtain ⟨x, hx, e1, e2, e3, _⟩ := shape_mem ht.shape hx0
  have hc : Covers x k := ⟨e1 ▸ hc0.1, by rw [e1, e2]; exact hc0.2⟩
  have hi : k - x.lsb < x.f.size := by have := hc.1; have := hc.2; omega
  have hki : x.lsb + (k - x.lsb) = k := by have := hc.1; omega
  have hset : RF.mk x.lsb (RegField.set x.f (slice (W : Nat) x.lsb x.f.size)) ∈ (Reg.set t.reg (W : Nat)).fields := List.mem_map.2 ⟨x, hx, rfl⟩
  generalize hx1 : (RF.mk x.lsb (RegField.set x.f (slice (W : Nat) x.lsb x.f.size))) = x1 at hset
  have q1 : x1.lsb = x.lsb := by rw [← hx1]
  have q2 : x1.f.size = x.f.size := by rw [← hx1]; rfl
  have q3 : x1.f.access = x.f.access := by rw [← hx1]; rfl
  have hx2 : predF W .write .RW t.reg.busy x1 ∈ w.fields := by rw [h4]; exact List.mem_map.2 ⟨x1, hset, rfl⟩
  obtain ⟨p1, p2, _, _⟩ := predF_shape W .write .RW t.reg.busy x1
  rw [show (getMirrored w).testBit k = _ from assemble_testBit _ hGw.disj _ (fun x hx => (hGw.fits x hx).mirrored) k,
    assembled_mem hGw.disj hx2 ⟨by rw [p1, q1]; exact hc.1, by rw [p1, p2, q1, q2]; exact hc.2⟩, p1, q1]
  have : (predF W .write .RW t.reg.busy x1).f.mirrored.testBit (k - x.lsb) = W.testBit (x1.lsb + (k - x.lsb)) := by
    simp only [predF, RegField.doPredict, xpredict, getAccess, q3, if_true, Bool.true_eq_false, if_false]
    rw [← e3] at ha0
    rcases ha0 with a | a <;> rw [a] <;>
      (simp only; rw [and_mask_of_lt (maskInt_lt _ _), maskInt_slice _ _ _ _ (by rw [q2]; exact hi), Nat.testBit_shiftRight])
  rw [this, q1, hki, hWk]

/-- One map, any device: at a compared read/write bit. -/
theorem accessMap_tested {paths : List (List Hdl.Slice)} {i : Nat} {r0 : Reg} (hdis : NoOverlap r0.fields) {m : Via Dut} (hm : Open m)
    (hwr : ∀ d v, SameDesign d (m.dev.wr d v).1) (hrd : ∀ d, SameDesign d (m.dev.rd d).1) {t t' : St Dut} (ht : Shaped r0 t) (hin : Inside r0)
    (hwid : r0.nBits ≤ t.dev.width i) (h : Whole t.dev paths [i]) (hrun : accessMap paths .RW t m = some t') :
    Shaped r0 t' ∧ SameDesign t.dev t'.dev ∧ t.errs ≤ t'.errs ∧
    ∀ k, TestedBit r0 k → t'.errs = t.errs →
      ((m.dev.wr t.dev (compl t.reg.nBits (Reg.get t.reg))).1.val i).testBit k = (!(Reg.get t.reg).testBit k) ∧
      ∃ d F, F.testBit k = (Reg.get t.reg).testBit k ∧ ((deposit d i F).val i).testBit k = F.testBit k ∧ (m.dev.rd (deposit d i F)).2.1.testBit k = F.testBit k := by
  obtain ⟨w, d2, o, h4, hd2, ho, hr⟩ := accessMap_run .RW hm h hwr
  rw [hrun] at hr
  have hb := hm.2.2.2
  have hGw : Good w := by rw [h4]; exact good_predF hb (good_set ht.good _) _ .write (by decide) .RW
  have hSw : shape w = shape r0 := by rw [h4, shape_predF, shape_set, ht.shape]
  have hNw : w.nBits = r0.nBits := by rw [h4]; exact ht.bits
  have hs1 := hwr t.dev (compl t.reg.nBits (Reg.get t.reg))
  have hwb := fun x0 hx0 k hk hc0 ha0 => wrote_bit ht (x0 := x0) hx0 (k := k) hk hc0 ha0 hb h4
  generalize hd1 : (m.dev.wr t.dev (compl t.reg.nBits (Reg.get t.reg))).1 = d1 at *
  generalize hB : after w (seen w d1 i) .read = B at *
  have hGB : Good B := by rw [← hB]; exact good_after hGw _ _ (by decide)
  have hSB : shape B = shape r0 := by rw [← hB, shape_after, hSw]
  have hNB : B.nBits = r0.nBits := by rw [← hB]; exact hNw
  have hIB : Inside B := inside_shape hSB hNB hin
  have hs2 : SameDesign t.dev d2 := by
    rcases hd2 with rfl | rfl
    · exact hs1
    · exact same_trans hs1 (same_put _ _ _)
  generalize hF : finalValue .RW B (d2.val i % 2 ^ B.nBits) (Reg.get t.reg % 2 ^ B.nBits) = F at *
  have hFlt : F < 2 ^ B.nBits := by rw [← hF]; exact Hdl.final_lt .RW hGB hIB _ _
  have hFw : F < 2 ^ d2.width i := by
    refine Nat.lt_of_lt_of_le hFlt (Nat.pow_le_pow_right (by omega) ?_)
    rw [hNB, hs2.2.1]; exact hwid
  generalize hX : after (Reg.set B (Reg.get t.reg)) F .write = X at *
  have hGX : Good X := by rw [← hX]; exact good_after (good_set hGB _) _ _ (by decide)
  have hSX : shape X = shape r0 := by rw [← hX, shape_after, shape_set, hSB]
  have hNX : X.nBits = r0.nBits := by rw [← hX]; exact hNB
  have hSo : shape o = shape r0 := by rw [ho, shape_predF, hSX]
  split at hr
  · next hok =>
    simp only [Option.some.injEq] at hr
    subst hr
    refine ⟨⟨?_, hSo, ?_⟩, same_trans hs2 (same_trans (same_put _ _ _) (hrd _)), ?_, ?_⟩
    · show Good o
      rw [ho]; exact good_predF hb hGX _ .read (by decide) .RW
    · show o.nBits = _
      rw [ho]; exact hNX
    · show t.errs ≤ t.errs + _ + _
      omega
    · intro k hT he
      have he' : t.errs + (if doCheck B .backdoor (getMirrored w) (seen w d1 i) then 0 else 1) +
            (if doCheck o .RW (getMirrored X) (m.dev.rd (put d2 i F)).2.1 then 0 else 1) = t.errs := he
      obtain ⟨hk, x0, hx0, hc0, ha0, hck0⟩ := hT
      have c1 : doCheck B .backdoor (getMirrored w) (seen w d1 i) = true := by
        by_cases q : doCheck B .backdoor (getMirrored w) (seen w d1 i) = true
        · exact q
        · rw [if_neg q] at he'; omega
      have c2 : doCheck o .RW (getMirrored X) (m.dev.rd (put d2 i F)).2.1 = true := by
        by_cases q : doCheck o .RW (getMirrored X) (m.dev.rd (put d2 i F)).2.1 = true
        · exact q
        · rw [if_neg q] at he'; omega
      have b1 := (C58_mirror_check_iff _ _ _ _).1 c1 k (checked_shape hSB hdis hx0 hc0 hck0)
      have b2 := (C58_mirror_check_iff _ _ _ _).1 c2 k (checked_shape hSo hdis hx0 hc0 hck0)
      have hm1 := (hwb x0 hx0 k hk hc0 (.inl ha0)).2.2.2
      -- the field in `w`
      have hw0 : ∃ x, fieldAt w k = some x ∧ x.f.access = .RW := by
        obtain ⟨x, hx, e1, e2, e3, _⟩ := shape_mem hSw hx0
        have hc : Covers x k := ⟨e1 ▸ hc0.1, by rw [e1, e2]; exact hc0.2⟩
        cases hf : fieldAt w k with
        | none => exact absurd hc (fieldAt_none.1 hf x hx)
        | some y =>
          obtain ⟨hy, hcy⟩ := fieldAt_some hf
          exact ⟨y, rfl, by rw [cover_unique hGw.disj hy hx hcy hc, e3, ha0]⟩
      obtain ⟨x, hfx, hax⟩ := hw0
      have hB0 : ∃ x, fieldAt B k = some x ∧ x.f.access = .RW := by
        obtain ⟨x, hx, e1, e2, e3, _⟩ := shape_mem hSB hx0
        have hc : Covers x k := ⟨e1 ▸ hc0.1, by rw [e1, e2]; exact hc0.2⟩
        cases hf : fieldAt B k with
        | none => exact absurd hc (fieldAt_none.1 hf x hx)
        | some y =>
          obtain ⟨hy, hcy⟩ := fieldAt_some hf
          exact ⟨y, rfl, by rw [cover_unique hGB.disj hy hx hcy hc, e3, ha0]⟩
      obtain ⟨xb, hfb, hab⟩ := hB0
      have hFk : F.testBit k = (Reg.get t.reg).testBit k := by
        rw [← hF, Hdl.final_testBit .RW hGB, hfb]
        simp only [getAccess, hab, doc, WEffect.bit, Nat.testBit_mod_two_pow]
        simp [hNB, hk]
      have hXk : (getMirrored X).testBit k = F.testBit k := by
        rw [← hX, Hdl.mirrored_other (good_set hGB _)]
        have : fieldAt (Reg.set B (Reg.get t.reg)) k ≠ none := by
          intro hn
          rw [fieldAt_shape (shape_set B _)] at hn
          rw [hn] at hfb; cases hfb
        cases hq : fieldAt (Reg.set B (Reg.get t.reg)) k with
        | none => exact absurd hq this
        | some _ => rfl
      constructor
      · rw [← hm1, ← b1]
        unfold seen
        rw [andNot_testBit, Hdl.woMask_testBit hGw.disj, hfx, Nat.testBit_mod_two_pow]
        simp [hNw, hk, hax, doc]
      · refine ⟨d2, F, hFk, ?_, ?_⟩
        · show ((if i = i then F % 2 ^ d2.width i else d2.val i)).testBit k = _
          rw [if_pos rfl, Nat.mod_eq_of_lt hFw]
        · show (m.dev.rd (put d2 i F)).2.1.testBit k = _
          rw [b2, hXk]
  · cases hr

end Verif.RegAccessTest
