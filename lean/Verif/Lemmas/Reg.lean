import Verif.Spec.Reg
import Verif.Lemmas.RegFieldUpdate
namespace Verif.Reg
open Verif.RegField (intBit maskInt)

theorem intBit_div (v : Int) (l i : Nat) : intBit (v / (2 ^ l : Nat)) i = intBit v (l + i) := by
  simp only [intBit]
  rw [Int.ediv_ediv_of_nonneg (Int.natCast_nonneg _), ← Int.natCast_mul, ← Nat.pow_add]

theorem slice_lt (v : Int) (l n : Nat) : slice v l n < 2 ^ n := RegField.maskInt_lt _ _

theorem slice_testBit (v : Int) (l n i : Nat) (h : i < n) : (slice v l n).testBit i = intBit v (l + i) := by
  rw [slice, RegField.maskInt_testBit _ _ _ h, intBit_div]

theorem intBit_nat (v i : Nat) : intBit (v : Int) i = v.testBit i := by
  simp only [intBit, Nat.testBit_eq_decide_div_mod_eq]
  rw [← Int.natCast_ediv, show (2 : Int) = ((2 : Nat) : Int) from rfl, ← Int.natCast_emod]
  by_cases h : v / 2 ^ i % 2 = 1
  · rw [h]; simp
  · simp only [h, decide_false]
    rw [beq_eq_false_iff_ne]
    exact fun hh => h (by exact_mod_cast hh)

theorem foldl_or_testBit {α} (fs : List α) (g : α → Nat) (a i : Nat) :
    (fs.foldl (fun acc x => acc ||| g x) a).testBit i = (a.testBit i || fs.any fun x => (g x).testBit i) := by
  induction fs generalizing a with
  | nil => simp
  | cons x fs ih => simp [ih, Nat.testBit_or, Bool.or_assoc]

theorem shift_testBit_covers (x : RF) (v : Nat) (hv : v < 2 ^ x.f.size) (i : Nat) :
    (v <<< x.lsb).testBit i = (decide (Covers x i) && v.testBit (i - x.lsb)) := by
  rw [Nat.testBit_shiftLeft]
  by_cases h1 : x.lsb ≤ i
  · by_cases h2 : i < x.lsb + x.f.size
    · simp [Covers, h1, h2]
    · rw [RegField.testBit_high hv (by omega)]; simp
  · simp [Covers, h1]

theorem any_assembled (fs : List RF) (hd : NoOverlap fs) (val : RF → Nat) (i : Nat) :
    (fs.any fun x => decide (Covers x i) && (val x).testBit (i - x.lsb)) = assembled fs val i := by
  induction fs with
  | nil => rfl
  | cons x fs ih =>
    have hd' := List.pairwise_cons.1 hd
    simp only [List.any_cons, assembled, List.find?_cons]
    by_cases h : Covers x i
    · simp only [h, decide_true, Bool.true_and]
      have : (fs.any fun x => decide (Covers x i) && (val x).testBit (i - x.lsb)) = false := by
        rw [List.any_eq_false]
        intro y hy
        have : ¬ Covers y i := fun hc => hd'.1 y hy ⟨i, h, hc⟩
        simp [this]
      simp [this]
    · simp only [h, decide_false, Bool.false_and, Bool.false_or]
      exact ih hd'.2

theorem assemble_testBit (fs : List RF) (hd : NoOverlap fs) (val : RF → Nat) (hv : ∀ x ∈ fs, val x < 2 ^ x.f.size) (i : Nat) :
    (fs.foldl (fun acc x => acc ||| (val x <<< x.lsb)) 0).testBit i = assembled fs val i := by
  rw [foldl_or_testBit, Nat.zero_testBit, Bool.false_or, ← any_assembled fs hd]
  rw [Bool.eq_iff_iff, List.any_eq_true, List.any_eq_true]
  constructor
  · rintro ⟨x, hx, h⟩; exact ⟨x, hx, by rw [← shift_testBit_covers x _ (hv x hx)]; exact h⟩
  · rintro ⟨x, hx, h⟩; exact ⟨x, hx, by rw [shift_testBit_covers x _ (hv x hx)]; exact h⟩

theorem assembled_mem {fs : List RF} (hd : NoOverlap fs) {x : RF} (hx : x ∈ fs) {i : Nat} (hc : Covers x i) (val : RF → Nat) :
    assembled fs val i = (val x).testBit (i - x.lsb) := by
  induction fs with
  | nil => simp at hx
  | cons y fs ih =>
    have hd' := List.pairwise_cons.1 hd
    by_cases hy : Covers y i
    · have : x = y := by
        rcases List.mem_cons.1 hx with h | h
        · exact h
        · exact absurd ⟨i, hy, hc⟩ (hd'.1 x h)
      subst this
      simp [assembled, hc]
    · have : x ∈ fs := by
        rcases List.mem_cons.1 hx with h | h
        · subst h; exact absurd hc hy
        · exact h
      rw [← ih hd'.2 this]
      simp [assembled, hy]

/-- At most one field covers a bit. -/
theorem covers_unique {fs : List RF} (hd : NoOverlap fs) {x y : RF} (hx : x ∈ fs) (hy : y ∈ fs) {i : Nat} (hcx : Covers x i) (hcy : Covers y i) : x = y := by
  induction fs with
  | nil => simp at hx
  | cons z fs ih =>
    have hd' := List.pairwise_cons.1 hd
    rcases List.mem_cons.1 hx with h | h <;> rcases List.mem_cons.1 hy with h' | h'
    · rw [h, h']
    · subst h; exact absurd ⟨i, hcx, hcy⟩ (hd'.1 y h')
    · subst h'; exact absurd ⟨i, hcy, hcx⟩ (hd'.1 x h)
    · exact ih hd'.2 h h'

/-- Two lists of fields with the same layout. -/
def SameLayout (fs gs : List RF) : Prop := fs.map (fun x => (x.lsb, x.f.size)) = gs.map (fun x => (x.lsb, x.f.size))

theorem noOverlap_layout {fs gs : List RF} (h : SameLayout fs gs) (hd : NoOverlap fs) : NoOverlap gs := by
  have key : ∀ fs : List RF, NoOverlap fs ↔ (fs.map (fun x => (x.lsb, x.f.size))).Pairwise
      (fun a b => ¬ ∃ i, (a.1 ≤ i ∧ i < a.1 + a.2) ∧ (b.1 ≤ i ∧ i < b.1 + b.2)) := by
    intro fs; rw [List.pairwise_map]; rfl
  rw [key, ← h, ← key]; exact hd

theorem find_map (fs : List RF) (g : RF → RF) (hg : ∀ x ∈ fs, (g x).lsb = x.lsb ∧ (g x).f.size = x.f.size) (i : Nat) :
    (fs.map g).find? (fun x => decide (Covers x i)) = (fs.find? (fun x => decide (Covers x i))).map g := by
  induction fs with
  | nil => rfl
  | cons x fs ih =>
    have hx := hg x (by simp)
    have : Covers (g x) i ↔ Covers x i := by simp [Covers, hx.1, hx.2]
    simp only [List.map_cons, List.find?_cons, this]
    by_cases h : Covers x i
    · simp [h]
    · simp only [h, decide_false]; exact ih fun y hy => hg y (by simp [hy])

/-! ### add_field -/

theorem insertAt_spec (x : RF) (fs : List RF) (hs : Sorted fs) :
    ∃ pre post, fs = pre ++ post ∧ insertAt x fs = (pre ++ x :: post, pre.length) ∧
      (∀ y ∈ pre, y.lsb ≤ x.lsb) ∧ (∀ y ∈ post, x.lsb < y.lsb) := by
  induction fs with
  | nil => exact ⟨[], [], rfl, rfl, by simp, by simp⟩
  | cons y ys ih =>
    have hs' := List.pairwise_cons.1 hs
    by_cases h : x.lsb < y.lsb
    · refine ⟨[], y :: ys, rfl, by simp [insertAt, h], by simp, ?_⟩
      intro z hz
      rcases List.mem_cons.1 hz with rfl | hz
      · exact h
      · have := hs'.1 z hz; omega
    · obtain ⟨pre, post, e, hi, h1, h2⟩ := ih hs'.2
      refine ⟨y :: pre, post, by simp [e], by simp [insertAt, h, hi], ?_, h2⟩
      intro z hz
      rcases List.mem_cons.1 hz with rfl | hz
      · omega
      · exact h1 z hz

theorem overlap_iff (x y : RF) (hx : 1 ≤ x.f.size) (hy : 1 ≤ y.f.size) :
    Overlap x y ↔ x.lsb < y.lsb + y.f.size ∧ y.lsb < x.lsb + x.f.size := by
  constructor
  · rintro ⟨i, ⟨a, b⟩, c, d⟩; omega
  · rintro ⟨h1, h2⟩
    exact ⟨max x.lsb y.lsb, ⟨by omega, by omega⟩, by omega, by omega⟩

theorem sorted_insert {x : RF} {pre post : List RF} (hs : Sorted (pre ++ post))
    (h1 : ∀ y ∈ pre, y.lsb ≤ x.lsb) (h2 : ∀ y ∈ post, x.lsb < y.lsb) : Sorted (pre ++ x :: post) := by
  have hs' := List.pairwise_append.1 hs
  refine List.pairwise_append.2 ⟨hs'.1, List.pairwise_cons.2 ⟨fun y hy => by have := h2 y hy; omega, hs'.2.1⟩, ?_⟩
  intro a ha b hb
  rcases List.mem_cons.1 hb with rfl | hb
  · exact h1 a ha
  · exact hs'.2.2 a ha b hb

/-- In a sorted list without overlaps whose fields are non-empty, only the neighbours can overlap. -/
theorem neighbours_prev {x : RF} {pre : List RF} (hs : Sorted pre) (hd : NoOverlap pre) (hsz : ∀ y ∈ pre, 1 ≤ y.f.size)
    (hx : 1 ≤ x.f.size) (h1 : ∀ y ∈ pre, y.lsb ≤ x.lsb) (y : RF) (hy : y ∈ pre) (ho : Overlap y x) :
    ∃ p, pre.getLast? = some p ∧ Overlap p x := by
  have hne : pre ≠ [] := by intro e; simp [e] at hy
  refine ⟨pre.getLast hne, List.getLast?_eq_some_getLast hne, ?_⟩
  have hmem : pre.getLast hne ∈ pre := List.getLast_mem hne
  have hsp : pre = pre.dropLast ++ [pre.getLast hne] := (List.dropLast_concat_getLast hne).symm
  generalize pre.getLast hne = p at *
  by_cases he : y = p
  · rw [← he]; exact ho
  · rw [hsp] at hy hs hd
    have hyd : y ∈ pre.dropLast := by
      rcases List.mem_append.1 hy with h | h
      · exact h
      · simp at h; exact absurd h he
    have a := (List.pairwise_append.1 hs).2.2 y hyd p (by simp)
    have b := (List.pairwise_append.1 hd).2.2 y hyd p (by simp)
    have hyp : y ∈ pre := by rw [hsp]; exact hy
    rw [overlap_iff y p (hsz y hyp) (hsz p hmem)] at b
    rw [overlap_iff y x (hsz y hyp) hx] at ho
    rw [overlap_iff p x (hsz p hmem) hx]
    have := h1 p hmem
    have := hsz p hmem
    constructor
    · omega
    · omega

theorem neighbours_next {x : RF} {post : List RF} (hs : Sorted post) (hsz : ∀ y ∈ post, 1 ≤ y.f.size)
    (hx : 1 ≤ x.f.size) (h2 : ∀ y ∈ post, x.lsb < y.lsb) (y : RF) (hy : y ∈ post) (ho : Overlap x y) :
    ∃ p, post.head? = some p ∧ Overlap x p := by
  cases post with
  | nil => simp at hy
  | cons p ps =>
    refine ⟨p, rfl, ?_⟩
    rcases List.mem_cons.1 hy with rfl | h
    · exact ho
    · have a := (List.pairwise_cons.1 hs).1 y h
      rw [overlap_iff x y hx (hsz y hy)] at ho
      have := hsz p (by simp)
      rw [overlap_iff x p hx this]
      have := h2 p (by simp)
      omega

/-- The error for the field before, given the fields before. -/
def errPrev (pre : List RF) (x : RF) : List AddError :=
  match pre.getLast? with
  | some p => if p.lsb + p.f.size > x.lsb then [AddError.overlapsPrev] else []
  | none => []

/-- The error for the field after. -/
def errNext (post : List RF) (x : RF) : List AddError :=
  match post.head? with
  | some n => if x.lsb + x.f.size > n.lsb then [AddError.overlapsNext] else []
  | none => []

theorem addField_errors (r : Reg) (x : RF) (hs : Sorted r.fields) :
    ∃ pre post, r.fields = pre ++ post ∧ (addField r x).1.fields = pre ++ x :: post ∧
      (∀ y ∈ pre, y.lsb ≤ x.lsb) ∧ (∀ y ∈ post, x.lsb < y.lsb) ∧
      (addField r x).2 = (if r.nUsed + x.f.size > r.nBits then [AddError.tooManyBits] else []) ++
        errPrev pre x ++ errNext post x := by
  obtain ⟨pre, post, e, hi, h1, h2⟩ := insertAt_spec x r.fields hs
  refine ⟨pre, post, e, by simp [addField, hi], h1, h2, ?_⟩
  simp only [addField, hi, errPrev, errNext]
  congr 1
  · congr 1
    cases hp : pre.length with
    | zero => have : pre = [] := List.length_eq_zero_iff.1 hp; simp [this]
    | succ n =>
      have hl : pre.getLast? = pre[n]? := by rw [List.getLast?_eq_getElem?, hp]; rfl
      have hlt : n < pre.length := by omega
      simp [List.getElem?_append_left, hl, hlt]
  · cases post with
    | nil => simp
    | cons n ns => simp

end Verif.Reg
namespace Verif.Reg
open Verif.RegField (intBit maskInt Fits)

/-- Layout without overlap, and every field's values fit. -/
structure Good (r : Reg) : Prop where
  disj : NoOverlap r.fields
  fits : ∀ x ∈ r.fields, Fits x.f

theorem good_map {r : Reg} (h : Good r) (g : RF → RF)
    (hg : ∀ x ∈ r.fields, Fits (g x).f ∧ (g x).lsb = x.lsb ∧ (g x).f.size = x.f.size) (b : Bool) :
    Good { r with fields := r.fields.map g, busy := b } := by
  constructor
  · refine noOverlap_layout (fs := r.fields) ?_ h.disj
    simp only [SameLayout, List.map_map]
    apply List.map_congr_left
    intro x hx
    obtain ⟨_, a, b⟩ := hg x hx
    simp [a, b]
  · intro x hx
    obtain ⟨y, hy, rfl⟩ := List.mem_map.1 hx
    exact (hg y hy).1

theorem predictField_fits {v : Int} {k p rt be busy} {x y : RF} (hx : Fits x.f)
    (h : predictField v k p rt be busy x = some y) : Fits y.f ∧ y.lsb = x.lsb ∧ y.f.size = x.f.size := by
  simp only [predictField, Option.map_eq_some_iff] at h
  obtain ⟨⟨f', b⟩, hq, rfl⟩ := h
  obtain ⟨a, b⟩ := RegField.fits_doPredict hx hq
  exact ⟨a, rfl, b.1⟩

theorem mapM_some {α β} (g : α → Option β) (l : List α) (m : List β) (h : l.mapM g = some m) :
    l.length = m.length ∧ ∀ i (hi : i < l.length) (hj : i < m.length), g l[i] = some m[i] := by
  induction l generalizing m with
  | nil => simp at h; subst h; simp
  | cons a l ih =>
    rw [List.mapM_cons] at h
    cases ha : g a with
    | none => simp [ha] at h
    | some b =>
      simp only [ha, Option.bind_eq_bind, Option.bind_some] at h
      cases hl : l.mapM g with
      | none => simp [hl] at h
      | some m' =>
        simp [hl] at h
        subst h
        obtain ⟨h1, h2⟩ := ih m' hl
        refine ⟨by simp [h1], ?_⟩
        intro i hi hj
        cases i with
        | zero => simpa using ha
        | succ i => simpa using h2 i (by simpa using hi) (by simpa using hj)

theorem mapM_eq_map {α β} (g : α → Option β) (g' : α → β) (l : List α) (h : ∀ x ∈ l, g x = some (g' x)) :
    l.mapM g = some (l.map g') := by
  induction l with
  | nil => rfl
  | cons a l ih =>
    rw [List.mapM_cons, h a (by simp), ih fun x hx => h x (by simp [hx])]; rfl

theorem good_mapM {r : Reg} (h : Good r) {g : RF → Option RF} {fs : List RF}
    (hg : ∀ x ∈ r.fields, ∀ y, g x = some y → Fits y.f ∧ y.lsb = x.lsb ∧ y.f.size = x.f.size)
    (hm : r.fields.mapM g = some fs) : Good { r with fields := fs } := by
  obtain ⟨hl, he⟩ := mapM_some g r.fields fs hm
  constructor
  · refine noOverlap_layout (fs := r.fields) ?_ h.disj
    simp only [SameLayout]
    apply List.ext_getElem (by simp [hl])
    intro i h1 h2
    simp only [List.length_map] at h1 h2
    obtain ⟨_, a, b⟩ := hg _ (List.getElem_mem h1) _ (he i h1 h2)
    simp [a, b]
  · intro y hy
    obtain ⟨i, hi, rfl⟩ := List.mem_iff_getElem.1 hy
    have hi : i < fs.length := hi
    exact (hg _ (List.getElem_mem (by omega)) _ (he i (by omega) hi)).1

theorem good_doPredict {r r' : Reg} {b : Bool} {v k p rt be} (h : Good r) (hp : doPredict r v k p rt be = some (r', b)) :
    Good r' ∧ r'.nBits = r.nBits := by
  simp only [doPredict] at hp
  split at hp
  · simp at hp; rw [← hp.1]; exact ⟨h, rfl⟩
  · cases hm : r.fields.mapM (predictField v k p rt be r.busy) with
    | none => simp [hm] at hp
    | some fs =>
      simp [hm] at hp
      rw [← hp.1]
      exact ⟨good_mapM h (fun x hx y hy => predictField_fits (h.fits x hx) hy) hm, rfl⟩

theorem fieldOp_same (fs : List RF) (i : Nat) (op : RegField.Op) (h : ∀ x ∈ fs, Fits x.f) :
    SameLayout fs (fs.modify i fun x => { x with f := RegField.step x.f op }) ∧
    ∀ y ∈ (fs.modify i fun x => { x with f := RegField.step x.f op }), Fits y.f := by
  induction fs generalizing i with
  | nil => cases i <;> simp [SameLayout]
  | cons x fs ih =>
    have hx := RegField.fits_step (h x (by simp)) op
    cases i with
    | zero =>
      constructor
      · simp [SameLayout, hx.2]
      · intro y hy
        simp at hy
        rcases hy with rfl | hy
        · exact hx.1
        · exact h y (by simp [hy])
    | succ i =>
      obtain ⟨a, b⟩ := ih i fun y hy => h y (by simp [hy])
      constructor
      · simp only [SameLayout, List.modify_succ_cons, List.map_cons] at a ⊢; rw [a]
      · intro y hy
        simp only [List.modify_succ_cons, List.mem_cons] at hy
        rcases hy with rfl | hy
        · exact h y (by simp)
        · exact b y hy

theorem good_step {r : Reg} (h : Good r) (op : Op) : Good (step r op) ∧ (step r op).nBits = r.nBits := by
  cases op with
  | set v =>
    exact ⟨good_map h (fun x => { x with f := RegField.set x.f (slice v x.lsb x.f.size) })
      (fun x hx => ⟨(RegField.fits_step (h.fits x hx) (.set (slice v x.lsb x.f.size))).1, rfl, rfl⟩) r.busy, rfl⟩
  | reset k =>
    exact ⟨good_map h (fun x => { x with f := RegField.reset x.f k })
      (fun x hx => ⟨(RegField.fits_step (h.fits x hx) (.reset k)).1, rfl, (RegField.fits_step (h.fits x hx) (.reset k)).2⟩) false, rfl⟩
  | setReset v k =>
    exact ⟨good_map h (fun x => { x with f := RegField.setReset x.f (v / (2 ^ x.lsb : Nat)) k })
      (fun x hx => ⟨(RegField.fits_step (h.fits x hx) (.setReset _ k)).1, rfl, rfl⟩) r.busy, rfl⟩
  | predict v k p rt =>
    simp only [step]
    cases hp : doPredict r v k p rt (-1) with
    | none => exact ⟨h, rfl⟩
    | some q => exact good_doPredict h hp
  | fieldOp i op =>
    obtain ⟨a, b⟩ := fieldOp_same r.fields i op h.fits
    exact ⟨⟨noOverlap_layout a h.disj, b⟩, rfl⟩

theorem good_steps (ops : List Op) {r : Reg} (h : Good r) : Good (steps r ops) ∧ (steps r ops).nBits = r.nBits := by
  induction ops generalizing r with
  | nil => exact ⟨h, rfl⟩
  | cons op ops ih =>
    obtain ⟨a, b⟩ := good_step h op
    obtain ⟨c, d⟩ := ih a
    exact ⟨c, d.trans b⟩

end Verif.Reg
