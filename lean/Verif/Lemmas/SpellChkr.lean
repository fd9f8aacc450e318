import Verif.Model.SpellChkr
import Verif.Spec.SpellChkr
namespace Verif.SpellChkr
variable {α : Type}

/-! ## Edit scripts and alignments -/

theorem edit_cons {s t : List α} (a : α) (h : Edit s t) : Edit (a :: s) (a :: t) := by
  cases h with
  | insert p q c => exact Edit.insert (a :: p) q c
  | delete p q c => exact Edit.delete (a :: p) q c
  | subst p q c d => exact Edit.subst (a :: p) q c d

theorem edit_reverse {s t : List α} (h : Edit s t) : Edit s.reverse t.reverse := by
  cases h with
  | insert p q c => simpa using Edit.insert q.reverse p.reverse c
  | delete p q c => simpa using Edit.delete q.reverse p.reverse c
  | subst p q c d => simpa using Edit.subst q.reverse p.reverse c d

theorem edit_symm {s t : List α} (h : Edit s t) : Edit t s := by
  cases h with
  | insert p q c => exact Edit.delete p q c
  | delete p q c => exact Edit.insert p q c
  | subst p q c d => exact Edit.subst p q d c

theorem editsIn_cons {k : Nat} {s t : List α} (a : α) (h : EditsIn k s t) : EditsIn k (a :: s) (a :: t) := by
  induction h with
  | zero s => exact .zero _
  | step e _ ih => exact .step (edit_cons a e) ih

theorem editsIn_reverse {k : Nat} {s t : List α} (h : EditsIn k s t) : EditsIn k s.reverse t.reverse := by
  induction h with
  | zero s => exact .zero _
  | step e _ ih => exact .step (edit_reverse e) ih

theorem editsIn_snoc {k : Nat} {s u t : List α} (h : EditsIn k s u) (e : Edit u t) : EditsIn (k + 1) s t := by
  induction h with
  | zero s => exact .step e (.zero _)
  | step e' _ ih => exact .step e' (ih e)

theorem editsIn_symm {k : Nat} {s t : List α} (h : EditsIn k s t) : EditsIn k t s := by
  induction h with
  | zero s => exact .zero _
  | step e _ ih => exact editsIn_snoc ih (edit_symm e)

/-- Alignments. -/
inductive Align : Nat → List α → List α → Prop
  | nil : Align 0 [] []
  | ins {k s t} (b) : Align k s t → Align (k + 1) s (b :: t)
  | del {k s t} (a) : Align k s t → Align (k + 1) (a :: s) t
  | keep {k s t} (a) : Align k s t → Align k (a :: s) (a :: t)
  | sub {k s t} (a b) : Align k s t → Align (k + 1) (a :: s) (b :: t)

theorem align_refl (s : List α) : Align 0 s s := by
  induction s with
  | nil => exact .nil
  | cons a s ih => exact .keep a ih

/-- Cons-wise view of one edit. -/
inductive EditC : List α → List α → Prop
  | ins (q c) : EditC q (c :: q)
  | del (q c) : EditC (c :: q) q
  | sub (q c d) : EditC (c :: q) (d :: q)
  | cons {s t} (a) : EditC s t → EditC (a :: s) (a :: t)

theorem editC_of_edit {s t : List α} (h : Edit s t) : EditC s t := by
  have app : ∀ (p : List α) {s t : List α}, EditC s t → EditC (p ++ s) (p ++ t) := by
    intro p; induction p with
    | nil => intro s t h; exact h
    | cons a p ih => intro s t h; exact .cons a (ih h)
  cases h with
  | insert p q c => exact app p (.ins q c)
  | delete p q c => exact app p (.del q c)
  | subst p q c d => exact app p (.sub q c d)

theorem align_edit {k : Nat} {s' t : List α} (h : Align k s' t) :
    ∀ {s}, EditC s s' → ∃ k', k' ≤ k + 1 ∧ Align k' s t := by
  induction h with
  | nil =>
    intro s e
    cases e with
    | del q c => exact ⟨1, by omega, .del c .nil⟩
  | ins b _ ih =>
    intro s e
    obtain ⟨k', hk, ha⟩ := ih e
    exact ⟨k' + 1, by omega, .ins b ha⟩
  | del a h ih =>
    intro s e
    cases e with
    | ins q c => exact ⟨_, by omega, h⟩
    | del q c => exact ⟨_, by omega, .del c (.del a h)⟩
    | sub q c d => exact ⟨_, by omega, .del c h⟩
    | cons a e => obtain ⟨k', hk, ha⟩ := ih e; exact ⟨k' + 1, by omega, .del a ha⟩
  | keep a h ih =>
    intro s e
    cases e with
    | ins q c => exact ⟨_, by omega, .ins a h⟩
    | del q c => exact ⟨_, by omega, .del c (.keep a h)⟩
    | sub q c d => exact ⟨_, by omega, .sub c a h⟩
    | cons a e => obtain ⟨k', hk, ha⟩ := ih e; exact ⟨k', by omega, .keep a ha⟩
  | sub a b h ih =>
    intro s e
    cases e with
    | ins q c => exact ⟨_, by omega, .ins b h⟩
    | del q c => exact ⟨_, by omega, .del c (.sub a b h)⟩
    | sub q c d => exact ⟨_, by omega, .sub c b h⟩
    | cons a e => obtain ⟨k', hk, ha⟩ := ih e; exact ⟨k' + 1, by omega, .sub a b ha⟩

theorem align_of_editsIn {k : Nat} {s t : List α} (h : EditsIn k s t) : ∃ k', k' ≤ k ∧ Align k' s t := by
  induction h with
  | zero s => exact ⟨0, Nat.le_refl _, align_refl s⟩
  | step e _ ih =>
    obtain ⟨k1, h1, a1⟩ := ih
    obtain ⟨k2, h2, a2⟩ := align_edit a1 (editC_of_edit e)
    exact ⟨k2, by omega, a2⟩

variable [DecidableEq α]

/-- The textbook recursion. -/
def lev : List α → List α → Nat
  | [], t => t.length
  | a :: s, [] => (a :: s).length
  | a :: s, b :: t =>
    minimum (lev (a :: s) t + 1) (lev s (b :: t) + 1) (lev s t + (if a ≠ b then 1 else 0))
termination_by s t => s.length + t.length

theorem lev_nil_left (t : List α) : lev [] t = t.length := by simp [lev]
theorem lev_nil_right (s : List α) : lev s [] = s.length := by cases s <;> simp [lev]
theorem lev_cons_cons (a b : α) (s t : List α) : lev (a :: s) (b :: t) =
    minimum (lev (a :: s) t + 1) (lev s (b :: t) + 1) (lev s t + (if a ≠ b then 1 else 0)) := by rw [lev]

theorem lev_le_align {k : Nat} {s t : List α} (h : Align k s t) : lev s t ≤ k := by
  induction h with
  | nil => simp [lev]
  | @ins k s t b h ih =>
    cases s with
    | nil => simp [lev_nil_left] at ih ⊢; omega
    | cons a s => rw [lev_cons_cons]; simp only [minimum]; omega
  | @del k s t a h ih =>
    cases t with
    | nil => simp [lev_nil_right] at ih ⊢; omega
    | cons b t => rw [lev_cons_cons]; simp only [minimum]; omega
  | keep a h ih => rw [lev_cons_cons]; simp only [minimum]; simp; omega
  | sub a b h ih => rw [lev_cons_cons]; simp only [minimum]; split <;> omega

theorem lev_editsIn (s t : List α) : EditsIn (lev s t) s t := by
  induction s, t using lev.induct with
  | case1 t =>
    rw [lev_nil_left]
    induction t with
    | nil => exact .zero _
    | cons b t ih => exact .step (Edit.insert [] [] b) (editsIn_cons b ih)
  | case2 a s =>
    rw [lev_nil_right]
    generalize hu : a :: s = u
    clear hu a s
    induction u with
    | nil => exact .zero _
    | cons a s ih => exact .step (Edit.delete [] s a) ih
  | case3 a s b t ih1 ih2 ih3 =>
    rw [lev_cons_cons]
    have h1 : EditsIn (lev (a :: s) t + 1) (a :: s) (b :: t) :=
      .step (Edit.insert [] (a :: s) b) (editsIn_cons b ih1)
    have h2 : EditsIn (lev s (b :: t) + 1) (a :: s) (b :: t) := .step (Edit.delete [] s a) ih2
    have h3 : EditsIn (lev s t + (if a ≠ b then 1 else 0)) (a :: s) (b :: t) := by
      split
      · exact .step (Edit.subst [] s a b) (editsIn_cons b ih3)
      · next h => simp at h; subst h; exact editsIn_cons a ih3
    simp only [minimum]
    rcases Nat.le_total (lev (a :: s) t + 1) (lev s (b :: t) + 1) with h | h
    · rw [Nat.min_eq_left h]
      rcases Nat.le_total (lev (a :: s) t + 1) (lev s t + (if a ≠ b then 1 else 0)) with g | g
      · rw [Nat.min_eq_left g]; exact h1
      · rw [Nat.min_eq_right g]; exact h3
    · rw [Nat.min_eq_right h]
      rcases Nat.le_total (lev s (b :: t) + 1) (lev s t + (if a ≠ b then 1 else 0)) with g | g
      · rw [Nat.min_eq_left g]; exact h2
      · rw [Nat.min_eq_right g]; exact h3

theorem lev_isEditDistance (s t : List α) : IsEditDistance s t (lev s t) := by
  refine ⟨lev_editsIn s t, fun j hj => ?_⟩
  obtain ⟨k', hk, ha⟩ := align_of_editsIn hj
  exact Nat.le_trans (lev_le_align ha) hk

omit [DecidableEq α] in
theorem isEditDistance_reverse {s t : List α} {k : Nat} (h : IsEditDistance s.reverse t.reverse k) :
    IsEditDistance s t k := by
  refine ⟨?_, fun j hj => h.2 j (editsIn_reverse hj)⟩
  simpa using editsIn_reverse h.1

omit [DecidableEq α] in
theorem isEditDistance_unique {s t : List α} {j k : Nat} (h : IsEditDistance s t j) (g : IsEditDistance s t k) :
    j = k := Nat.le_antisymm (h.2 _ g.1) (g.2 _ h.1)

/-! ## The flat-array computation -/

theorem flat_inj {n i i' j j' : Nat} (hi : i < n) (hi' : i' < n) (h : j * n + i = j' * n + i') : j = j' ∧ i = i' := by
  have h1 : (j * n + i) / n = j := by rw [Nat.mul_comm, Nat.mul_add_div (by omega), Nat.div_eq_of_lt hi]; rfl
  have h2 : (j' * n + i') / n = j' := by rw [Nat.mul_comm, Nat.mul_add_div (by omega), Nat.div_eq_of_lt hi']; rfl
  have : j = j' := by rw [← h1, h, h2]
  subst this; omega

theorem flat_lt {n m i j : Nat} (hi : i < n) (hj : j < m) : j * n + i < m * n := by
  have : (j + 1) * n ≤ m * n := Nat.mul_le_mul_right n (by omega)
  rw [Nat.add_mul] at this; omega

theorem put_some {d : List Nat} {k v : Nat} (h : k < d.length) : put d k v = some (d.set k v) := by
  simp [put, h]

/-- The value cell (i, j) must hold. -/
def L (s t : List α) (i j : Nat) : Nat := lev (s.take i).reverse (t.take j).reverse

theorem L_zero_left (s t : List α) {j : Nat} (hj : j ≤ t.length) : L s t 0 j = j := by
  simp [L, lev_nil_left, hj]
theorem L_zero_right (s t : List α) {i : Nat} (hi : i ≤ s.length) : L s t i 0 = i := by
  simp [L, lev_nil_right, hi]

theorem L_succ (s t : List α) {i j : Nat} (hi : i < s.length) (hj : j < t.length) :
    L s t (i + 1) (j + 1) = minimum (L s t (i + 1) j + 1) (L s t i (j + 1) + 1)
      (L s t i j + (if s[i] ≠ t[j] then 1 else 0)) := by
  simp only [L, List.take_succ_eq_append_getElem hi, List.take_succ_eq_append_getElem hj,
    List.reverse_append, List.reverse_cons, List.reverse_nil, List.nil_append, List.singleton_append]
  rw [lev_cons_cons]

theorem lev_code (s t : List α) (hs : s ≠ []) (ht : t ≠ []) :
    levenshteinDistance s t = some ((lev s.reverse t.reverse : Nat) : Int) := by
  have hsl : 0 < s.length := List.length_pos_iff.mpr hs
  have htl : 0 < t.length := List.length_pos_iff.mpr ht
  simp only [levenshteinDistance]
  rw [if_neg (by omega)]
  generalize hn : s.length + 1 = n
  generalize hm : t.length + 1 = m
  have hmn : n ≤ m * n := Nat.le_mul_of_pos_left n (by omega)
  -- first row
  obtain ⟨d1, e1, l1, r1⟩ := forRange_inv
    (fun k (d : List Nat) => d.length = m * n ∧ ∀ i, i < k → d[i]? = some i)
    (Nat.zero_le n) (f := fun k d => put d k k) (s := List.replicate (m * n) 0)
    ⟨by simp, by intro i hi; omega⟩
    (by
      intro k d _ hk ⟨hl, hd⟩
      refine ⟨d.set k k, put_some (by omega), by simp [hl], ?_⟩
      intro i hi
      rw [List.getElem?_set]
      split
      · next h => subst h; simp; omega
      · exact hd i (by omega))
  -- first column
  obtain ⟨d2, e2, l2, r2, c2⟩ := forRange_inv
    (fun k (d : List Nat) => d.length = m * n ∧ (∀ i, i < n → d[i]? = some i) ∧
      ∀ j, j < k → d[j * n]? = some j)
    (Nat.zero_le m) (f := fun k d => put d (k * n) k) (s := d1)
    ⟨l1, r1, by intro i hi; omega⟩
    (by
      intro k d _ hk ⟨hl, hd, hc⟩
      have hkn := flat_lt (n := n) (m := m) (i := 0) (j := k) (by omega) hk
      refine ⟨d.set (k * n) k, put_some (by simpa [hl] using hkn), by simp [hl], ?_, ?_⟩
      · intro i hi
        rw [List.getElem?_set]
        split
        · next h =>
          obtain ⟨a, b⟩ := flat_inj (n := n) (i := 0) (i' := i) (j := k) (j' := 0) (by omega) hi (by omega)
          subst a; subst b; simp; intro hd0; rw [hd0] at hl; simp at hl; omega
        · exact hd i hi
      · intro j hj
        rw [List.getElem?_set]
        split
        · next h =>
          obtain ⟨a, b⟩ := flat_inj (n := n) (i := 0) (i' := 0) (j := k) (j' := j) (by omega) (by omega) (by omega)
          subst a; simp; omega
        · next h =>
          have : j ≠ k := fun e => h (by rw [e])
          exact hc j (by omega))
  -- main loops
  obtain ⟨d3, e3, l3, r3⟩ := forRange_inv
    (fun i (d : List Nat) => d.length = m * n ∧
      ∀ j i', j < m → i' < n → (i' < i ∨ j = 0) → d[j * n + i']? = some (L s t i' j))
    (show 1 ≤ n by omega) (f := fun i d => forRange 1 m (fun j d => cell s t n i j d) d) (s := d2)
    ⟨l2, by
      intro j i' hj hi' h
      rcases Nat.eq_zero_or_pos j with rfl | hj0
      · rw [L_zero_right s t (by omega)]; simpa using r2 i' hi'
      · have : i' = 0 := by omega
        subst this
        rw [L_zero_left s t (by omega)]; simpa using c2 j hj⟩
    (by
      intro i d hi1 hin ⟨hl, hd⟩
      obtain ⟨d', e', l', r'⟩ := forRange_inv
        (fun j0 (d : List Nat) => d.length = m * n ∧
          ∀ j i', j < m → i' < n → (i' < i ∨ j = 0 ∨ (i' = i ∧ j < j0)) → d[j * n + i']? = some (L s t i' j))
        (show 1 ≤ m by omega) (f := fun j d => cell s t n i j d) (s := d)
        ⟨hl, by intro j i' hj hi' h; exact hd j i' hj hi' (by omega)⟩
        (by
          intro j d hj1 hjm ⟨hl, hd⟩
          obtain ⟨i0, rfl⟩ : ∃ i0, i = i0 + 1 := ⟨i - 1, by omega⟩
          obtain ⟨j0, rfl⟩ : ∃ j0, j = j0 + 1 := ⟨j - 1, by omega⟩
          have hi0 : i0 < s.length := by omega
          have hj0 : j0 < t.length := by omega
          have hx := hd j0 (i0 + 1) (by omega) (by omega) (by omega)
          have hy := hd (j0 + 1) i0 (by omega) (by omega) (by omega)
          have hz := hd j0 i0 (by omega) (by omega) (by omega)
          have hlt := flat_lt (n := n) (m := m) (i := i0 + 1) (j := j0 + 1) hin hjm
          refine ⟨d.set ((j0 + 1) * n + (i0 + 1)) (L s t (i0 + 1) (j0 + 1)), ?_, by simp [hl], ?_⟩
          · have a1 : s[i0]? = some s[i0] := List.getElem?_eq_getElem hi0
            have a2 : t[j0]? = some t[j0] := List.getElem?_eq_getElem hj0
            have i1 : (j0 + 1) * n + (i0 + 1) - 1 = (j0 + 1) * n + i0 := by omega
            have i2 : j0 * n + (i0 + 1) - 1 = j0 * n + i0 := by omega
            simp only [cell, Nat.add_sub_cancel, a1, a2, i1, i2, hx, hy, hz, Option.bind_eq_bind, Option.bind_some]
            rw [put_some (by omega), L_succ s t hi0 hj0]
          · intro j i' hj hi' h
            rw [List.getElem?_set]
            split
            · next he =>
              obtain ⟨a, b⟩ := flat_inj hin hi' he
              subst a; subst b; simp; omega
            · next he =>
              refine hd j i' hj hi' ?_
              rcases h with h | h | ⟨h1, h2⟩
              · exact .inl h
              · exact .inr (.inl h)
              · subst h1
                have : j ≠ j0 + 1 := fun e => he (by rw [e])
                exact .inr (.inr ⟨rfl, by omega⟩))
      refine ⟨d', e', l', ?_⟩
      intro j i' hj hi' h
      exact r' j i' hj hi' (by omega))
  have hidx : n * m - 1 = (m - 1) * n + (n - 1) := by
    obtain ⟨m0, rfl⟩ : ∃ m0, m = m0 + 1 := ⟨m - 1, by omega⟩
    obtain ⟨n0, rfl⟩ : ∃ n0, n = n0 + 1 := ⟨n - 1, by omega⟩
    simp [Nat.mul_add, Nat.mul_comm]; omega
  have hr := r3 (m - 1) (n - 1) (by omega) (by omega) (by omega)
  have hL : L s t (n - 1) (m - 1) = lev s.reverse t.reverse := by
    have h1 : n - 1 = s.length := by omega
    have h2 : m - 1 = t.length := by omega
    simp [L, h1, h2]
  simp only [e1, e2, e3, Option.bind_eq_bind, Option.bind_some, hidx, hr, hL]
  rfl

theorem lev_code_empty (s t : List α) (h : s = [] ∨ t = []) : levenshteinDistance s t = some (-1) := by
  simp only [levenshteinDistance]
  rw [if_pos (by rcases h with h | h <;> simp [h])]
  rfl

end Verif.SpellChkr
