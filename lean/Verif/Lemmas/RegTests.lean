import Verif.Props.RegAccess
import Verif.Spec.RegTests
namespace Verif.RegTests
open Verif.Reg Verif.RegField Verif.RegAccess Verif.SvBits

/-! ### The don't-care list -/

theorem setRange_length (v : Bool) (b : Nat) (n : Nat) (a : List Bool) :
    ((List.range n).foldl (fun a j => a.set (b + j) v) a).length = a.length := by
  induction n with
  | zero => rfl
  | succ n ih => rw [List.range_succ, List.foldl_append]; simp [ih]

theorem setRange_get (v : Bool) (b : Nat) (n : Nat) (a : List Bool) (k : Nat) (hk : k < a.length) :
    ((List.range n).foldl (fun a j => a.set (b + j) v) a)[k]? = if b ≤ k ∧ k < b + n then some v else a[k]? := by
  induction n with
  | zero => simp; omega
  | succ n ih =>
    rw [List.range_succ, List.foldl_append]
    simp only [List.foldl_cons, List.foldl_nil]
    rw [List.getElem?_set, setRange_length]
    by_cases h : b + n = k
    · have : b ≤ k ∧ k < b + (n + 1) := by omega
      simp only [h, if_true, this, hk, and_self]
    · rw [if_neg h, ih]
      by_cases h2 : b ≤ k ∧ k < b + n
      · rw [if_pos h2, if_pos (by omega)]
      · rw [if_neg h2, if_neg (by omega)]

/-- Each field ends before the next begins. -/
def Apart (fs : List RF) : Prop := fs.Pairwise fun x y => x.lsb + x.f.size ≤ y.lsb

theorem apart_of {fs : List RF} (hs : Sorted fs) (hd : NoOverlap fs) (hz : ∀ x ∈ fs, 1 ≤ x.f.size) : Apart fs := by
  have h := List.Pairwise.and hs hd
  refine List.Pairwise.imp_of_mem ?_ h
  intro x y hx hy ⟨h1, h2⟩
  have : ¬ (x.lsb < y.lsb + y.f.size ∧ y.lsb < x.lsb + x.f.size) := fun h => h2 ((overlap_iff x y (hz x hx) (hz y hy)).2 h)
  have := hz x hx
  have := hz y hy
  omega

theorem dcFields (rt : Rights) (fs : List RF) (ha : Apart fs) (hn : ∀ x ∈ fs, x.lsb + x.f.size ≤ 64) :
    ∀ (next : Nat) (a : List Bool), a.length = 64 → (∀ x ∈ fs, next ≤ x.lsb) → (∀ k, next ≤ k → k < 64 → a[k]? = some false) →
    ∃ n' a', fs.foldlM (dcField rt) (next, a) = some (n', a') ∧ a'.length = 64 ∧
      ∀ k, k < 64 → a'[k]? = (a[k]?).map (fun b => b || fs.any fun x => decide (Covers x k) && dontCare rt x) := by
  induction fs with
  | nil => intro next a hl _ _; exact ⟨next, a, rfl, hl, fun k _ => by simp⟩
  | cons x fs ih =>
    intro next a hl hlo hz
    have hx : x.lsb + x.f.size ≤ 64 := hn x List.mem_cons_self
    have hle := hlo x List.mem_cons_self
    have e : dcField rt (next, a) x = some (x.lsb + x.f.size,
        (List.range x.f.size).foldl (fun a j => a.set (x.lsb + j) (dontCare rt x)) a) := by
      unfold dcField
      have : (if next < x.lsb then x.lsb else next) = x.lsb := by split <;> omega
      simp only [this, dataWidth]
      rw [if_neg (by omega)]
    obtain ⟨n', a', h1, h2, h3⟩ := ih (List.Pairwise.of_cons ha) (fun y hy => hn y (List.mem_cons_of_mem _ hy)) (x.lsb + x.f.size)
      ((List.range x.f.size).foldl (fun a j => a.set (x.lsb + j) (dontCare rt x)) a) (by rw [setRange_length, hl])
      (fun y hy => (List.pairwise_cons.1 ha).1 y hy)
      (fun k hk hk2 => by
        rw [setRange_get _ _ _ _ _ (by omega), if_neg (by omega)]
        exact hz k (by omega) hk2)
    refine ⟨n', a', by rw [List.foldlM_cons, e]; exact h1, h2, fun k hk => ?_⟩
    rw [h3 k hk, setRange_get _ _ _ _ _ (by omega)]
    by_cases hc : Covers x k
    · have hc' := hc
      unfold Covers at hc'
      rw [if_pos hc', hz k (by omega) hk]
      simp [hc]
    · have hc' := hc
      unfold Covers at hc'
      rw [if_neg hc']
      simp [hc]

/-- `dc_mask`: bit `k` is not compared exactly if a field that is not compared covers it. -/
theorem dcBits_spec (rt : Rights) (r : Reg) (ha : Apart r.fields) (hn : ∀ x ∈ r.fields, x.lsb + x.f.size ≤ 64) :
    ∃ l, dcBits rt r = some l ∧ l.length = 64 ∧
      ∀ k, k < 64 → l[k]? = some (r.fields.any fun x => decide (Covers x k) && dontCare rt x) := by
  obtain ⟨n', a', h1, h2, h3⟩ := dcFields rt r.fields ha hn 0 (List.replicate 64 false) (by simp) (fun _ _ => Nat.zero_le _)
    (fun k _ hk => by rw [List.getElem?_replicate, if_pos hk])
  refine ⟨a', by rw [dcBits, dataWidth, h1]; rfl, h2, fun k hk => ?_⟩
  rw [h3 k hk, List.getElem?_replicate, if_pos hk, Option.map_some, Bool.false_or]

theorem dcInt_testBit (l : List Bool) (k : Nat) : (dcInt l).testBit k = (l[k]? == some true) := by
  unfold dcInt
  rw [foldl_or_testBit l.zipIdx (fun p => (if p.1 then 1 else 0) <<< p.2)]
  simp only [Nat.zero_testBit, Bool.false_or]
  rw [Bool.eq_iff_iff, List.any_eq_true]
  constructor
  · rintro ⟨⟨b, i⟩, hm, ht⟩
    have := List.mk_mem_zipIdx_iff_getElem?.1 hm
    cases b with
    | false => simp at ht
    | true =>
      simp only [if_true, Nat.testBit_shiftLeft, Bool.and_eq_true, decide_eq_true_eq] at ht
      have h0 : k - i = 0 := by
        have := ht.2
        by_cases h : k - i = 0
        · exact h
        · rw [Nat.testBit_one_eq_true_iff_self_eq_zero] at this; exact this
      have : k = i := by omega
      subst this; simpa using this
  · intro h
    refine ⟨(true, k), List.mk_mem_zipIdx_iff_getElem?.2 (by simpa using h), by simp [Nat.testBit_shiftLeft]⟩

/-! ### What does not change -/

/-- Positions, sizes, accesses and compare flags of the fields. -/
def shape (r : Reg) : List (Nat × Nat × Acc × Bool) := r.fields.map fun x => (x.lsb, x.f.size, x.f.access, x.f.check)

theorem predF_shape (v : Nat) (k : PKind) (rt : Rights) (busy : Bool) (x : RF) :
    (predF v k rt busy x).lsb = x.lsb ∧ (predF v k rt busy x).f.size = x.f.size ∧ (predF v k rt busy x).f.access = x.f.access ∧
    (predF v k rt busy x).f.check = x.f.check := by
  unfold predF
  cases k with
  | write => simp [RegField.doPredict]
  | direct => simp [RegField.doPredict]
  | read =>
    cases ha : getAccess x.f rt <;> simp [RegField.doPredict, ha]

theorem shape_predF (r : Reg) (v : Nat) (k : PKind) (rt : Rights) (busy : Bool) :
    shape { r with fields := r.fields.map (predF v k rt busy) } = shape r := by
  simp only [shape, List.map_map]
  apply List.map_congr_left
  intro x _
  obtain ⟨h1, h2, h3, h4⟩ := predF_shape v k rt busy x
  simp [h1, h2, h3, h4]

theorem shape_set (r : Reg) (v : Int) : shape (Reg.set r v) = shape r := by
  simp only [shape, Reg.set, List.map_map]
  exact List.map_congr_left fun x _ => rfl

theorem shape_any {r r' : Reg} (h : shape r' = shape r) (p : Nat × Nat × Acc × Bool → Bool) :
    (r'.fields.any fun x => p (x.lsb, x.f.size, x.f.access, x.f.check)) = r.fields.any fun x => p (x.lsb, x.f.size, x.f.access, x.f.check) := by
  have e : ∀ q : Reg, (q.fields.any fun x => p (x.lsb, x.f.size, x.f.access, x.f.check)) = (shape q).any p := by
    intro q; simp [shape, List.any_map, Function.comp_def]
  rw [e, e, h]

theorem getAccess_congr {f g : Field} (h : f.access = g.access) (rt : Rights) : getAccess f rt = getAccess g rt := by
  simp [getAccess, h]

theorem shape_mem {r r' : Reg} (h : shape r' = shape r) {x : RF} (hx : x ∈ r.fields) :
    ∃ y ∈ r'.fields, y.lsb = x.lsb ∧ y.f.size = x.f.size ∧ y.f.access = x.f.access ∧ y.f.check = x.f.check := by
  have : (x.lsb, x.f.size, x.f.access, x.f.check) ∈ shape r' := by
    rw [h]; exact List.mem_map.2 ⟨x, hx, rfl⟩
  obtain ⟨y, hy, e⟩ := List.mem_map.1 this
  simp only [Prod.mk.injEq] at e
  exact ⟨y, hy, e⟩

theorem shape_apart {r r' : Reg} (h : shape r' = shape r) (ha : Apart r.fields) : Apart r'.fields := by
  have e : ∀ q : Reg, Apart q.fields ↔ (shape q).Pairwise (fun a b => a.1 + a.2.1 ≤ b.1) := by
    intro q; simp [Apart, shape, List.pairwise_map]
  rw [e, h, ← e]; exact ha

/-! ### One round -/

/-- What the device returns agrees with the mirror wherever no unreadable field lies. -/
theorem data_bit {σ} {d : Dev σ} {view : σ → List DF} (hd : FollowsDoc d view) {r : Reg} {s : σ} (hG : Good r)
    (hA : Agrees r (view s)) (i : Nat) (hread : ∀ x ∈ r.fields, Covers x i → Readable x.f.access) :
    (d.rd s).2.1.testBit i = (getMirrored r).testBit i := by
  rw [show (getMirrored r).testBit i = _ from assemble_testBit _ hG.disj _ (fun x hx => (hG.fits x hx).mirrored) i]
  by_cases hc : ∃ x ∈ r.fields, Covers x i
  · obtain ⟨x, hx, hc⟩ := hc
    obtain ⟨y, hy, h1, h2, h3, h4, _⟩ := hA.mem_left hx
    rw [assembled_mem hG.disj hx hc, hd.data s y hy (h3 ▸ hread x hx hc) i ⟨h1 ▸ hc.1, by rw [← h1, ← h2]; exact hc.2⟩, h4, h1]
  · rw [hd.rest s i ?_]
    · have : r.fields.find? (fun x => decide (Covers x i)) = none := by
        rw [List.find?_eq_none]; intro x hx; simpa using fun h => hc ⟨x, hx, h⟩
      simp [assembled, this]
    · intro y hy _ hcov
      obtain ⟨x, hx, h1, h2, _⟩ := hA.mem_right hy
      exact hc ⟨x, hx, h1 ▸ hcov.1, by rw [h1, h2]; exact hcov.2⟩

theorem readable_of {a : Acc} (h : writeOnly a = false) : Readable a := by
  cases a <;> simp [writeOnly] at h <;> simp [Readable, doc]

theorem andNot_eq {a b m : Nat} (h : ∀ i, m.testBit i = false → a.testBit i = b.testBit i) : andNot a m = andNot b m := by
  apply Nat.eq_of_testBit_eq
  intro i
  rw [andNot_testBit, andNot_testBit]
  cases hm : m.testBit i with
  | true => simp
  | false => rw [h i hm]

theorem getMirrored_predF_write (r : Reg) (v : Nat) (rt : Rights) (busy : Bool) :
    Reg.get { r with fields := r.fields.map (predF v .write rt busy) } = getMirrored { r with fields := r.fields.map (predF v .write rt busy) } := by
  simp only [Reg.get, getMirrored, List.foldl_map]
  rfl

/-- The list `dc_mask`, as a number, for the register: what `dcBits_spec` and `dcInt_testBit` give. -/
def IsDc (r : Reg) (dc : Nat) : Prop :=
  ∀ k, k < 64 → dc.testBit k = r.fields.any fun x => decide (Covers x k) && dontCare .RW x

theorem isDc_shape {r r' : Reg} (h : shape r' = shape r) {dc : Nat} (hd : IsDc r dc) : IsDc r' dc := by
  intro k hk
  rw [hd k hk]
  have := shape_any h (fun q => decide (q.1 ≤ k ∧ k < q.1 + q.2.1) && (!q.2.2.2 || writeOnly q.2.2.1))
  exact this.symm

/-- What holds of the register and the device during the test of a device that follows the documentation. -/
structure Ok {σ} (view : σ → List DF) (r0 : Reg) (t : St σ) : Prop where
  good : Good t.reg
  agrees : Agrees t.reg (view t.dev)
  shape : shape t.reg = shape r0
  bits : t.reg.nBits = r0.nBits

theorem bashOnce_clean {σ} {c : Cfg} (hr : c.route = .front .RW) (ha : c.auto = true) (hb : ∀ i, c.bare i = false) (dflt : Rights)
    {d : Dev σ} {view : σ → List DF} (hd : FollowsDoc d view) {h : Hooks} (hq : Quiet h) {r0 : Reg} (hn : ∀ x ∈ r0.fields, x.lsb + x.f.size ≤ 64)
    {dc : Nat} (hdc : IsDc r0 dc) (k : Nat) {t : St σ} (ht : Ok view r0 t) :
    ∃ t', bashOnce c dflt d h dc k t = some t' ∧ Ok view r0 t' ∧ t'.errs = t.errs := by
  obtain ⟨w, h1, h2, h3, h4⟩ := write_quiet hr hb dflt d hq hq t.reg t.dev (Reg.get t.reg ^^^ (1 <<< k))
  rw [ha, if_pos rfl] at h4
  have hGw : Good w.reg := by rw [h4]; exact good_predF hb (good_set ht.good _) _ .write (by decide) .RW
  have hAw : Agrees w.reg (view w.dev) := by
    rw [h4, h2]; exact agrees_write (good_set ht.good _) (agrees_set ht.agrees _) (hd.wr t.dev _).2 _
  have hSw : shape w.reg = shape r0 := by rw [h4, shape_predF, shape_set, ht.shape]
  have hNw : w.reg.nBits = r0.nBits := by rw [h4]; exact ht.bits
  have hget : Reg.get w.reg = getMirrored w.reg := by rw [h4]; exact getMirrored_predF_write _ _ _ _
  obtain ⟨o, g1, g2, g3, g4, _, g6⟩ := read_quiet hr hb d hq hq w.reg w.dev
  rw [ha, if_pos rfl] at g6
  have hlow : ∀ x ∈ w.reg.fields, x.lsb + x.f.size ≤ 64 := by
    intro x hx
    obtain ⟨y, hy, e1, e2, _⟩ := shape_mem hSw.symm hx
    have := hn y hy; omega
  have hv : andNot o.value dc = andNot (Reg.get w.reg) dc := by
    rw [g4, hget]
    apply andNot_eq
    intro i hi
    apply data_bit hd hGw hAw
    intro x hx hc
    have hi64 : i < 64 := by have := hlow x hx; have := hc.2; omega
    rw [isDc_shape hSw hdc i hi64, List.any_eq_false] at hi
    have := hi x hx
    simp only [hc, decide_true, Bool.true_and, dontCare, Bool.or_eq_true, not_or, Bool.not_eq_true] at this
    exact readable_of this.2
  refine ⟨⟨o.reg, o.dev, t.errs⟩, ?_, ⟨?_, ?_, ?_, ?_⟩, rfl⟩
  · have hwok : w.ok = true := by rw [h3]; exact (hd.wr _ _).1
    have hook : o.ok = true := by rw [g3]; exact (hd.rd _).1
    simp [bashOnce, h1, RegAccess.read, g1, hv, hwok, hook]
  · show Good o.reg
    rw [g6]; exact good_predF hb hGw _ .read (by decide) .RW
  · show Agrees o.reg (view o.dev)
    rw [g6, g2]; exact agrees_read hGw hAw (hd.rd w.dev).2 (fun y hy hR i hi => hd.data w.dev y hy hR i hi) _
  · show shape o.reg = _
    rw [g6, shape_predF, hSw]
  · show o.reg.nBits = _
    rw [g6]; exact hNw

theorem foldlM_inv {α β} {f : β → α → Option β} {P : β → Prop} (l : List α) (h : ∀ b a, a ∈ l → P b → ∃ b', f b a = some b' ∧ P b')
    (b : β) (hb : P b) : ∃ b', l.foldlM f b = some b' ∧ P b' := by
  induction l generalizing b with
  | nil => exact ⟨b, rfl, hb⟩
  | cons a l ih =>
    obtain ⟨b1, e1, h1⟩ := h b a List.mem_cons_self hb
    obtain ⟨b2, e2, h2⟩ := ih (fun b a ha => h b a (List.mem_cons_of_mem _ ha)) b1 h1
    exact ⟨b2, by rw [List.foldlM_cons, e1]; exact e2, h2⟩

theorem isDc_of {r : Reg} {l : List Bool} (h : ∀ k, k < 64 → l[k]? = some (r.fields.any fun x => decide (Covers x k) && dontCare .RW x)) :
    IsDc r (dcInt l) := by
  intro k hk
  rw [dcInt_testBit, h k hk]
  cases r.fields.any fun x => decide (Covers x k) && dontCare .RW x <;> rfl

theorem bytes_le {n : Nat} (h : n ≤ 64) : ((n - 1) / 8 + 1) * 8 ≤ 64 := by omega

theorem bashMap_clean {σ} (dflt : Rights) {view : σ → List DF} {h : Hooks} (hq : Quiet h) {r0 : Reg} (hn : Narrow r0) (hap : Apart r0.fields)
    {m : Via σ} (hm : Open m) (hd : FollowsDoc m.dev view) {t : St σ} (ht : Ok view r0 t) :
    ∃ t', bashMap dflt h t m = some t' ∧ Ok view r0 t' ∧ t'.errs = t.errs := by
  obtain ⟨hr, hrt, ha, hb⟩ := hm
  have hnt : ∀ x ∈ t.reg.fields, x.lsb + x.f.size ≤ 64 := by
    intro x hx
    obtain ⟨y, hy, e1, e2, _⟩ := shape_mem ht.shape.symm hx
    have := hn.2 y hy; omega
  obtain ⟨l, h1, h2, h3⟩ := dcBits_spec .RW t.reg (shape_apart ht.shape hap) hnt
  have hdc : IsDc r0 (dcInt l) := isDc_shape ht.shape.symm (isDc_of h3)
  obtain ⟨t', e, h5⟩ := foldlM_inv (f := bashStep m.cfg dflt m.dev h l) (P := fun u : St σ => Ok view r0 u ∧ u.errs = t.errs)
    (List.range (nBytes t.reg * 8)) (by
      intro u k hk hu
      have hk64 : k < 64 := by
        have h1 := List.mem_range.1 hk
        have h2 : nBytes t.reg * 8 ≤ 64 := bytes_le (by rw [ht.bits]; exact hn.1)
        omega
      rw [bashStep, h3 k hk64]
      cases t.reg.fields.any fun x => decide (Covers x k) && dontCare .RW x with
      | true => exact ⟨u, rfl, hu⟩
      | false =>
        obtain ⟨u1, e1, o1, x1⟩ := bashOnce_clean hr ha hb dflt hd hq hn.2 hdc k hu.1
        obtain ⟨u2, e2, o2, x2⟩ := bashOnce_clean hr ha hb dflt hd hq hn.2 hdc k o1
        exact ⟨u2, by simp only [bashBit, e1]; exact e2, o2, by rw [x2, x1, hu.2]⟩) t ⟨ht, rfl⟩
  exact ⟨t', by simp only [bashMap, hrt, h1]; exact e, h5⟩

theorem bashReg_clean {σ} (dflt : Rights) {view : σ → List DF} {h : Hooks} (hq : Quiet h) {r : Reg} (hn : Narrow r) (hap : Apart r.fields)
    (maps : List (Via σ)) (hm : ∀ m ∈ maps, Open m ∧ FollowsDoc m.dev view) {s : σ} (hG : Good r) (hA : Agrees r (view s)) :
    ∃ t, bashReg dflt h maps r s = some t ∧ Ok view r t ∧ t.errs = 0 :=
  foldlM_inv (f := bashMap dflt h) (P := fun u : St σ => Ok view r u ∧ u.errs = 0) maps (by
    intro u m hmem hu
    obtain ⟨u', e, o, x⟩ := bashMap_clean dflt hq hn hap (hm m hmem).1 (hm m hmem).2 hu.1
    exact ⟨u', e, o, by rw [x, hu.2]⟩) _ ⟨⟨hG, hA, rfl, rfl⟩, rfl⟩

/-! ### Arbitrary devices -/

/-- What holds of the register whatever the device does. -/
structure Shaped {σ} (r0 : Reg) (t : St σ) : Prop where
  good : Good t.reg
  shape : shape t.reg = shape r0
  bits : t.reg.nBits = r0.nBits

theorem testBit_flip (v k : Nat) : (v ^^^ (1 <<< k)).testBit k = !v.testBit k := by
  rw [Nat.testBit_xor, Nat.testBit_shiftLeft]; simp

/-- The bit of the desired value at a position covered by a field. -/
theorem get_bit_of {r : Reg} (hG : Good r) {x : RF} (hx : x ∈ r.fields) {k : Nat} (hc : Covers x k) :
    (Reg.get r).testBit k = x.f.desired.testBit (k - x.lsb) := by
  rw [show (Reg.get r).testBit k = _ from assemble_testBit _ hG.disj _ (fun x hx => (hG.fits x hx).desired) k, assembled_mem hG.disj hx hc]

theorem predF_write_rw (v : Nat) (busy : Bool) {x : RF} (hF : Fits x.f) (ha : x.f.access = .RW) (i : Nat) (hi : i < x.f.size) :
    (predF v .write .RW busy x).f.desired.testBit i = v.testBit (x.lsb + i) := by
  simp only [predF, RegField.doPredict, xpredict, getAccess, ha, if_true]
  simp only [Bool.true_eq_false, if_false]
  rw [and_mask_of_lt (maskInt_lt _ _), maskInt_slice _ _ _ _ hi, Nat.testBit_shiftRight]

theorem predF_read_rw (v : Nat) (busy : Bool) {x : RF} (hF : Fits x.f) (ha : x.f.access = .RW) (i : Nat) (hi : i < x.f.size) :
    (predF v .read .RW busy x).f.desired.testBit i = v.testBit (x.lsb + i) := by
  simp only [predF, RegField.doPredict, getAccess, ha, if_true]
  simp only [Bool.true_eq_false, if_false]
  rw [and_mask_of_lt (maskInt_lt _ _), maskInt_slice _ _ _ _ hi, Nat.testBit_shiftRight]

/-- One round on any device: nothing raises, the register keeps its shape; at a tested bit the value written is the opposite of the
desired value before, an error is reported unless it is read back, and the desired value becomes what is read. -/
theorem bashOnce_any {σ} {c : Cfg} (hr : c.route = .front .RW) (ha : c.auto = true) (hb : ∀ i, c.bare i = false) (dflt : Rights)
    (d : Dev σ) {h : Hooks} (hq : Quiet h) {r0 : Reg} (dc k : Nat) {t : St σ} (ht : Shaped r0 t) :
    ∃ t' s, bashOnce c dflt d h dc k t = some t' ∧ Shaped r0 t' ∧ t.errs ≤ t'.errs ∧
      (TestedBit r0 k → dc.testBit k = false →
        (Reg.get t'.reg).testBit k = (d.rd s).2.1.testBit k ∧
        (t'.errs = t.errs → (d.rd s).2.1.testBit k = !(Reg.get t.reg).testBit k)) := by
  obtain ⟨w, h1, h2, h3, h4⟩ := write_quiet hr hb dflt d hq hq t.reg t.dev (Reg.get t.reg ^^^ (1 <<< k))
  rw [ha, if_pos rfl] at h4
  have hGw : Good w.reg := by rw [h4]; exact good_predF hb (good_set ht.good _) _ .write (by decide) .RW
  have hSw : shape w.reg = shape r0 := by rw [h4, shape_predF, shape_set, ht.shape]
  have hNw : w.reg.nBits = r0.nBits := by rw [h4]; exact ht.bits
  obtain ⟨o, g1, g2, g3, g4, _, g6⟩ := read_quiet hr hb d hq hq w.reg w.dev
  rw [ha, if_pos rfl] at g6
  have hGo : Good o.reg := by rw [g6]; exact good_predF hb hGw _ .read (by decide) .RW
  refine ⟨_, w.dev, by simp only [bashOnce, h1, RegAccess.read, g1, Option.bind_eq_bind, Option.bind_some]; rfl, ⟨hGo, ?_, ?_⟩, ?_, ?_⟩
  · show shape o.reg = _
    rw [g6, shape_predF, hSw]
  · show o.reg.nBits = _
    rw [g6]; exact hNw
  · show t.errs ≤ t.errs + _ + _ + _
    omega
  · intro hT hdc
    obtain ⟨hk, x0, hx0, hc0, ha0, _⟩ := hT
    obtain ⟨x, hx, e1, e2, e3, _⟩ := shape_mem ht.shape hx0
    have hxa : x.f.access = .RW := e3.trans ha0
    have hc : Covers x k := ⟨e1 ▸ hc0.1, by rw [e1, e2]; exact hc0.2⟩
    have hi : k - x.lsb < x.f.size := by have := hc.1; have := hc.2; omega
    have hki : x.lsb + (k - x.lsb) = k := by have := hc.1; omega
    -- after the write
    have hset : RF.mk x.lsb (RegField.set x.f (slice (Reg.get t.reg ^^^ (1 <<< k) : Nat) x.lsb x.f.size)) ∈ (Reg.set t.reg (Reg.get t.reg ^^^ (1 <<< k) : Nat)).fields :=
      List.mem_map.2 ⟨x, hx, rfl⟩
    generalize hx1 : (RF.mk x.lsb (RegField.set x.f (slice (Reg.get t.reg ^^^ (1 <<< k) : Nat) x.lsb x.f.size))) = x1 at hset
    have q1 : x1.lsb = x.lsb := by rw [← hx1]
    have q2 : x1.f.size = x.f.size := by rw [← hx1]; rfl
    have q3 : x1.f.access = .RW := by rw [← hx1]; exact hxa
    generalize hV : (Reg.get t.reg ^^^ (1 <<< k)) % 2 ^ t.reg.nBits = V at h4
    have hVk : V.testBit k = !(Reg.get t.reg).testBit k := by
      rw [← hV, Nat.testBit_mod_two_pow, testBit_flip]
      have : k < t.reg.nBits := by rw [ht.bits]; exact hk
      simp [this]
    have hx2 : predF V .write .RW t.reg.busy x1 ∈ w.reg.fields := by
      rw [h4]; exact List.mem_map.2 ⟨x1, hset, rfl⟩
    obtain ⟨p1, p2, p3, _⟩ := predF_shape V .write .RW t.reg.busy x1
    have hFx1 : Fits x1.f := (good_set ht.good _).fits x1 hset
    have hcw : Covers (predF V .write .RW t.reg.busy x1) k := ⟨by rw [p1, q1]; exact hc.1, by rw [p1, p2, q1, q2]; exact hc.2⟩
    have hgw : (Reg.get w.reg).testBit k = !(Reg.get t.reg).testBit k := by
      rw [get_bit_of hGw hx2 hcw, p1, q1, predF_write_rw V _ hFx1 q3 _ (by rw [q2]; exact hi), q1, hki, hVk]
    -- after the read
    have hx3 : predF (d.rd w.dev).2.1 .read .RW w.reg.busy (predF V .write .RW t.reg.busy x1) ∈ o.reg.fields := by
      rw [g6]; exact List.mem_map.2 ⟨_, hx2, rfl⟩
    obtain ⟨r1, r2, _, _⟩ := predF_shape (d.rd w.dev).2.1 .read .RW w.reg.busy (predF V .write .RW t.reg.busy x1)
    have hgo : (Reg.get o.reg).testBit k = (d.rd w.dev).2.1.testBit k := by
      rw [get_bit_of hGo hx3 ⟨by rw [r1]; exact hcw.1, by rw [r1, r2]; exact hcw.2⟩, r1, p1, q1,
        predF_read_rw _ _ (hGw.fits _ hx2) (p3.trans q3) _ (by rw [p2, q2]; exact hi), p1, q1, hki]
    refine ⟨hgo, fun he => ?_⟩
    have he' : t.errs + (if w.ok then 0 else 1) + (if o.ok then 0 else 1) +
        (if andNot o.value dc = andNot (Reg.get w.reg) dc then 0 else 1) = t.errs := he
    have heq : andNot o.value dc = andNot (Reg.get w.reg) dc := by
      by_cases hh : andNot o.value dc = andNot (Reg.get w.reg) dc
      · exact hh
      · rw [if_neg hh] at he'; omega
    have := congrArg (·.testBit k) heq
    simp only [andNot_testBit, hdc, Bool.not_false, Bool.and_true] at this
    rw [← g4, this, hgw]

/-- Two rounds on a device on which bit `k` always reads the same: an error is reported. -/
theorem bashBit_stuck {σ} {c : Cfg} (hr : c.route = .front .RW) (ha : c.auto = true) (hb : ∀ i, c.bare i = false) (dflt : Rights)
    (d : Dev σ) {h : Hooks} (hq : Quiet h) {r0 : Reg} (dc k : Nat) (hT : TestedBit r0 k) (hdc : dc.testBit k = false)
    (b : Bool) (hs : ∀ s, (d.rd s).2.1.testBit k = b) {t : St σ} (ht : Shaped r0 t) :
    ∃ t', bashBit c dflt d h dc k t = some t' ∧ Shaped r0 t' ∧ t.errs < t'.errs := by
  obtain ⟨t1, s1, e1, hs1, l1, k1⟩ := bashOnce_any hr ha hb dflt d hq dc k ht
  obtain ⟨t2, s2, e2, hs2, l2, k2⟩ := bashOnce_any hr ha hb dflt d hq dc k hs1
  refine ⟨t2, by simp only [bashBit, e1]; exact e2, hs2, ?_⟩
  rcases Nat.lt_or_ge t.errs t2.errs with h1 | h1
  · exact h1
  exfalso
  have a1 := (k1 hT hdc).1
  have a2 := (k2 hT hdc).2 (by omega)
  rw [hs] at a1 a2
  rw [a1] at a2
  cases b <;> simp at a2

theorem noOverlap_mem {fs : List RF} (h : NoOverlap fs) {x y : RF} (hx : x ∈ fs) (hy : y ∈ fs) (e : x ≠ y) : ¬ Overlap x y := by
  induction fs with
  | nil => simp at hx
  | cons z fs ih =>
    obtain ⟨h1, h2⟩ := List.pairwise_cons.1 h
    rcases List.mem_cons.1 hx with rfl | hx' <;> rcases List.mem_cons.1 hy with rfl | hy'
    · exact absurd rfl e
    · exact h1 y hy'
    · rintro ⟨i, a, b⟩
      exact h1 x hx' ⟨i, b, a⟩
    · exact ih h2 hx' hy'

/-- Through a whole map: an error is reported. -/
theorem bashMap_stuck {σ} (dflt : Rights) {h : Hooks} (hq : Quiet h) {r0 : Reg} (hn : Narrow r0) (hap : Apart r0.fields) (hdis : NoOverlap r0.fields)
    {m : Via σ} (hm : Open m) {k : Nat} (hT : TestedBit r0 k) {t : St σ} (ht : Shaped r0 t)
    (b : Bool) (hs : ∀ s, (m.dev.rd s).2.1.testBit k = b) :
    ∃ t', bashMap dflt h t m = some t' ∧ Shaped r0 t' ∧ t.errs < t'.errs := by
  obtain ⟨hr, hrt, ha, hb⟩ := hm
  have hnt : ∀ x ∈ t.reg.fields, x.lsb + x.f.size ≤ 64 := by
    intro x hx
    obtain ⟨y, hy, e1, e2, _⟩ := shape_mem ht.shape.symm hx
    have := hn.2 y hy; omega
  obtain ⟨l, h1, h2, h3⟩ := dcBits_spec .RW t.reg (shape_apart ht.shape hap) hnt
  have hany : ∀ j, j < 64 → l[j]? = some (r0.fields.any fun x => decide (Covers x j) && dontCare .RW x) := by
    intro j hj
    rw [h3 j hj]
    exact congrArg some (shape_any ht.shape (fun q => decide (q.1 ≤ j ∧ j < q.1 + q.2.1) && (!q.2.2.2 || writeOnly q.2.2.1)))
  have hk64 : k < 64 := by have := hT.1; have := hn.1; omega
  have hkdc : (r0.fields.any fun x => decide (Covers x k) && dontCare .RW x) = false := by
    obtain ⟨_, x, hx, hc, hxa, hxc⟩ := hT
    rw [List.any_eq_false]
    intro y hy
    by_cases hcy : Covers y k
    · have hxy : y = x := by
        by_cases e : y = x
        · exact e
        · exact absurd ⟨k, hcy, hc⟩ (noOverlap_mem hdis hy hx e)
      subst hxy
      simp [dontCare, hxc, getAccess, hxa, writeOnly]
    · simp [hcy]
  have hkl : l[k]? = some false := by rw [hany k hk64, hkdc]
  have hdck : (dcInt l).testBit k = false := by rw [dcInt_testBit, hkl]; rfl
  have hkb : k < nBytes t.reg * 8 := by
    have h1 := hT.1
    have h2 := ht.bits
    simp only [nBytes]; omega
  have hsplit : List.range (nBytes t.reg * 8) = List.range k ++ k :: (List.range' (k + 1) (nBytes t.reg * 8 - (k + 1))) := by
    have e : nBytes t.reg * 8 = k + (1 + (nBytes t.reg * 8 - (k + 1))) := by omega
    rw [List.range_eq_range', List.range_eq_range', ← List.range'_succ]
    conv => lhs; rw [e]
    rw [← List.range'_append_1, Nat.zero_add, Nat.add_comm 1]
  have hle64 : nBytes t.reg * 8 ≤ 64 := bytes_le (by rw [ht.bits]; exact hn.1)
  have hstep : ∀ (u : St σ) (j : Nat), j < 64 → Shaped r0 u → ∃ u', bashStep m.cfg dflt m.dev h l u j = some u' ∧ Shaped r0 u' ∧ u.errs ≤ u'.errs := by
    intro u j hj hu
    rw [bashStep, hany j hj]
    cases r0.fields.any fun x => decide (Covers x j) && dontCare .RW x with
    | true => exact ⟨u, rfl, hu, Nat.le_refl _⟩
    | false =>
      obtain ⟨u1, _, e1, o1, x1, _⟩ := bashOnce_any hr ha hb dflt m.dev hq (dcInt l) j hu
      obtain ⟨u2, _, e2, o2, x2, _⟩ := bashOnce_any hr ha hb dflt m.dev hq (dcInt l) j o1
      exact ⟨u2, by simp only [bashBit, e1]; exact e2, o2, by omega⟩
  obtain ⟨t1, e1, s1, l1⟩ := foldlM_inv (f := bashStep m.cfg dflt m.dev h l) (P := fun u : St σ => Shaped r0 u ∧ t.errs ≤ u.errs)
    (List.range k) (by
      intro u j hj hu
      obtain ⟨u', e, o, x⟩ := hstep u j (by have := List.mem_range.1 hj; omega) hu.1
      exact ⟨u', e, o, by have := hu.2; omega⟩) t ⟨ht, Nat.le_refl _⟩
  obtain ⟨t2, e2, s2, l2⟩ := bashBit_stuck hr ha hb dflt m.dev hq (dcInt l) k hT hdck b hs s1
  obtain ⟨t3, e3, s3, l3⟩ := foldlM_inv (f := bashStep m.cfg dflt m.dev h l) (P := fun u : St σ => Shaped r0 u ∧ t2.errs ≤ u.errs)
    (List.range' (k + 1) (nBytes t.reg * 8 - (k + 1))) (by
      intro u j hj hu
      obtain ⟨u', e, o, x⟩ := hstep u j (by have := List.mem_range'_1.1 hj; omega) hu.1
      exact ⟨u', e, o, by have := hu.2; omega⟩) t2 ⟨s2, Nat.le_refl _⟩
  refine ⟨t3, ?_, s3, by omega⟩
  simp only [bashMap, hrt, h1, Option.bind_eq_bind, Option.bind_some]
  rw [hsplit, List.foldlM_append, e1]
  simp only [Option.bind_eq_bind, Option.bind_some, List.foldlM_cons, bashStep, hkl, e2]
  exact e3

theorem bashMap_any {σ} (dflt : Rights) {h : Hooks} (hq : Quiet h) {r0 : Reg} (hn : Narrow r0) (hap : Apart r0.fields)
    {m : Via σ} (hm : Open m) {t : St σ} (ht : Shaped r0 t) :
    ∃ t', bashMap dflt h t m = some t' ∧ Shaped r0 t' ∧ t.errs ≤ t'.errs := by
  obtain ⟨hr, hrt, ha, hb⟩ := hm
  have hnt : ∀ x ∈ t.reg.fields, x.lsb + x.f.size ≤ 64 := by
    intro x hx
    obtain ⟨y, hy, e1, e2, _⟩ := shape_mem ht.shape.symm hx
    have := hn.2 y hy; omega
  obtain ⟨l, h1, h2, h3⟩ := dcBits_spec .RW t.reg (shape_apart ht.shape hap) hnt
  have hle64 : nBytes t.reg * 8 ≤ 64 := bytes_le (by rw [ht.bits]; exact hn.1)
  obtain ⟨t', e, o, x⟩ := foldlM_inv (f := bashStep m.cfg dflt m.dev h l) (P := fun u : St σ => Shaped r0 u ∧ t.errs ≤ u.errs)
    (List.range (nBytes t.reg * 8)) (by
      intro u j hj hu
      rw [bashStep, h3 j (by have := List.mem_range.1 hj; omega)]
      cases t.reg.fields.any fun x => decide (Covers x j) && dontCare .RW x with
      | true => exact ⟨u, rfl, hu⟩
      | false =>
        obtain ⟨u1, _, e1, o1, x1, _⟩ := bashOnce_any hr ha hb dflt m.dev hq (dcInt l) j hu.1
        obtain ⟨u2, _, e2, o2, x2, _⟩ := bashOnce_any hr ha hb dflt m.dev hq (dcInt l) j o1
        exact ⟨u2, by simp only [bashBit, e1]; exact e2, o2, by have := hu.2; omega⟩) t ⟨ht, Nat.le_refl _⟩
  exact ⟨t', by simp only [bashMap, hrt, h1]; exact e, o, x⟩

/-! ### Fields of a reachable register are in order -/

theorem sorted_layout {fs gs : List RF} (h : SameLayout fs gs) (hs : Sorted fs) : Sorted gs := by
  have e : ∀ q : List RF, Sorted q ↔ (q.map fun x => x.lsb).Pairwise (· ≤ ·) := by
    intro q; simp [Sorted, List.pairwise_map]
  have e2 : gs.map (fun x => x.lsb) = fs.map fun x => x.lsb := by
    have := congrArg (List.map (·.1)) h
    simpa [SameLayout, List.map_map, Function.comp_def] using this.symm
  rw [e, e2, ← e]; exact hs

theorem layout_step {r : Reg} (h : Good r) (op : Reg.Op) : SameLayout r.fields (Reg.step r op).fields := by
  cases op with
  | set v => simp only [Reg.step, Reg.set, SameLayout, List.map_map]; exact List.map_congr_left fun x _ => rfl
  | reset k =>
    simp only [Reg.step, Reg.reset, SameLayout, List.map_map]
    exact List.map_congr_left fun x hx => by
      simp [show (RegField.reset x.f k).size = x.f.size from (RegField.fits_step (h.fits x hx) (.reset k)).2]
  | setReset v k => simp only [Reg.step, Reg.setReset, SameLayout, List.map_map]; exact List.map_congr_left fun x _ => rfl
  | predict v k p rt =>
    simp only [Reg.step]
    cases hp : Reg.doPredict r v k p rt (-1) with
    | none => rfl
    | some q =>
      simp only [Reg.doPredict] at hp
      split at hp
      · simp at hp; rw [← hp]; rfl
      · cases hm : r.fields.mapM (predictField v k p rt (-1) r.busy) with
        | none => simp [hm] at hp
        | some fs =>
          simp [hm] at hp
          rw [← hp]
          obtain ⟨hl, he⟩ := mapM_some _ r.fields fs hm
          simp only [SameLayout]
          apply List.ext_getElem (by simp [hl])
          intro i h1 h2
          simp only [List.length_map] at h1 h2
          obtain ⟨_, a, b⟩ := predictField_fits (h.fits _ (List.getElem_mem h1)) (he i h1 h2)
          simp [a, b]
  | fieldOp i op => exact (fieldOp_same r.fields i op h.fits).1

theorem layout_steps (ops : List Reg.Op) {r : Reg} (h : Good r) : SameLayout r.fields (Reg.steps r ops).fields := by
  induction ops generalizing r with
  | nil => rfl
  | cons op ops ih => exact (layout_step h op).trans (ih (good_step h op).1)

theorem reachable_apart {r : Reg} (h : Reg.Reachable r) : Apart r.fields := by
  have hG := reachable_good h
  refine apart_of ?_ hG.disj fun x hx => (hG.fits x hx).size
  obtain ⟨n, xs, ops, hx, he, rfl⟩ := h
  have hf : ∀ x ∈ xs, Fits x.f := fun x h => RegField.reachable_fits (hx x h)
  obtain ⟨hs, hp, hb⟩ := C16_fields_ordered_and_overlaps_reported n xs (fun x h => (hf x h).size)
  exact sorted_layout (layout_steps ops ⟨(noOverlap_perm hp).2 (hb.1 he).1, fun x h => hf x (hp.mem_iff.1 h)⟩) hs

/-! ### The walk over the blocks -/

theorem height_pos (b : Blk) : 0 < height b := by cases b; simp [height]

theorem height_le_heights {b : Blk} {bs : List Blk} (h : b ∈ bs) : height b ≤ heights bs := by
  induction bs with
  | nil => simp at h
  | cons c bs ih =>
    simp only [heights]
    rcases List.mem_cons.1 h with rfl | h
    · omega
    · have := ih h; omega

mutual
theorem mem_below (c : Blk) : ∀ b : Blk, c ∈ below b ↔ ∃ d ∈ b.blks, In c d
  | .mk s r m bs => by rw [below]; exact mem_belowAll c bs
theorem mem_belowAll (c : Blk) : ∀ bs : List Blk, c ∈ belowAll bs ↔ ∃ d ∈ bs, In c d
  | [] => by simp [belowAll]
  | b :: bs => by
    rw [belowAll, List.mem_cons, List.mem_append, mem_below c b, mem_belowAll c bs]
    constructor
    · rintro (rfl | ⟨d, hd, hi⟩ | ⟨d, hd, hi⟩)
      · exact ⟨c, List.mem_cons_self, .self⟩
      · exact ⟨b, List.mem_cons_self, .sub hd hi⟩
      · exact ⟨d, List.mem_cons_of_mem _ hd, hi⟩
    · rintro ⟨d, hd, hi⟩
      rcases List.mem_cons.1 hd with rfl | hd
      · cases hi with
        | self => exact Or.inl rfl
        | sub he hi => exact Or.inr (Or.inl ⟨_, he, hi⟩)
      · exact Or.inr (Or.inr ⟨d, hd, hi⟩)
end

theorem height_in {c b : Blk} (h : In c b) : height c ≤ height b := by
  induction h with
  | self => exact Nat.le_refl _
  | @sub b d hd _ ih =>
    have := height_le_heights hd
    cases b with
    | mk s r m bs => simp only [height, Blk.blks] at *; omega

theorem height_below {c b : Blk} (h : c ∈ below b) : height c < height b := by
  obtain ⟨d, hd, hi⟩ := (mem_below c b).1 h
  have h1 := height_in hi
  have h2 := height_le_heights hd
  cases b with
  | mk s r m bs => simp only [height, Blk.blks] at *; omega

theorem In.trans' {a b c : Blk} (h1 : In a b) (h2 : In b c) : In a c := by
  induction h2 with
  | self => exact h1
  | sub hd _ ih => exact .sub hd ih

theorem mem_wanted {l : List (Nat × Bool)} {r : Nat} : r ∈ wanted l ↔ (r, false) ∈ l := by
  simp only [wanted, List.mem_map, List.mem_filter]
  constructor
  · rintro ⟨⟨a, b⟩, ⟨h1, h2⟩, rfl⟩
    cases b
    · exact h1
    · simp at h2
  · intro h
    exact ⟨(r, false), ⟨h, rfl⟩, rfl⟩

theorem mapM_exists {α β} {f : α → Option β} {R : α → β → Prop} : ∀ (l : List α), (∀ a ∈ l, ∃ b, f a = some b ∧ R a b) →
    ∃ m, l.mapM f = some m ∧ (∀ b ∈ m, ∃ a ∈ l, R a b) ∧ (∀ a ∈ l, ∃ b ∈ m, R a b)
  | [], _ => ⟨[], rfl, by simp, by simp⟩
  | a :: l, h => by
    obtain ⟨b, e, r⟩ := h a List.mem_cons_self
    obtain ⟨m, em, h1, h2⟩ := mapM_exists l fun a ha => h a (List.mem_cons_of_mem _ ha)
    refine ⟨b :: m, by rw [List.mapM_cons, e, em]; rfl, ?_, ?_⟩
    · intro c hc
      rcases List.mem_cons.1 hc with rfl | hc
      · exact ⟨a, List.mem_cons_self, r⟩
      · obtain ⟨a', ha', r'⟩ := h1 c hc
        exact ⟨a', List.mem_cons_of_mem _ ha', r'⟩
    · intro c hc
      rcases List.mem_cons.1 hc with rfl | hc
      · exact ⟨b, List.mem_cons_self, r⟩
      · obtain ⟨b', hb', r'⟩ := h2 c hc
        exact ⟨b', List.mem_cons_of_mem _ hb', r'⟩

end Verif.RegTests
