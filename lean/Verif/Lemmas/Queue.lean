import Verif.Spec.Queue
namespace Verif.Queue
variable {α : Type}

theorem insertedAt_take_drop (q : List α) (i : Nat) (x : α) (h : i ≤ q.length) :
    InsertedAt q i x (q.take i ++ x :: q.drop i) := by
  refine ⟨?_, ?_, ?_, ?_⟩
  · simp; omega
  · intro j hj
    rw [List.getElem?_append_left (by simp; omega)]
    simp [hj]
  · rw [List.getElem?_append_right (by simp; omega)]
    simp [Nat.min_eq_left h]
  · intro j hj
    rw [List.getElem?_append_right (by simp; omega)]
    have : j + 1 - (List.take i q).length = (j - i) + 1 := by simp [Nat.min_eq_left h]; omega
    rw [this, List.getElem?_cons_succ, List.getElem?_drop]
    congr 1; omega

/-- The position-wise description determines the result. -/
theorem insertedAt_unique {q q₁ q₂ : List α} {i : Nat} {x : α}
    (h₁ : InsertedAt q i x q₁) (h₂ : InsertedAt q i x q₂) : q₁ = q₂ := by
  apply List.ext_getElem?
  intro j
  by_cases hj : j < i
  · rw [h₁.2.1 j hj, h₂.2.1 j hj]
  · by_cases hji : j = i
    · subst hji; rw [h₁.2.2.1, h₂.2.2.1]
    · obtain ⟨k, rfl⟩ : ∃ k, j = k + 1 := ⟨j - 1, by omega⟩
      rw [h₁.2.2.2 k (by omega), h₂.2.2.2 k (by omega)]

theorem removedAt_take_drop (q : List α) (i : Nat) (x : α) (h : q[i]? = some x) :
    RemovedAt q i x (q.take i ++ q.drop (i + 1)) := by
  have hi : i < q.length := (List.getElem?_eq_some_iff.1 h).1
  have hx : q[i] = x := (List.getElem?_eq_some_iff.1 h).2
  have hq : q = q.take i ++ x :: q.drop (i + 1) := by
    rw [← hx, List.getElem_cons_drop hi, List.take_append_drop]
  have hlen : (q.take i ++ q.drop (i + 1)).length + 1 = q.length := by simp; omega
  have key := insertedAt_take_drop (q.take i ++ q.drop (i + 1)) i x (by omega)
  have e1 : (q.take i ++ q.drop (i + 1)).take i = q.take i := by
    rw [List.take_append_of_le_length (by simp; omega)]; simp [List.take_take]
  have e2 : (q.take i ++ q.drop (i + 1)).drop i = q.drop (i + 1) := by
    rw [List.drop_append_of_le_length (by simp; omega)]
    simp
  rw [e1, e2, ← hq] at key
  exact key

theorem removedAt_unique {q q₁ q₂ : List α} {i : Nat} {x y : α}
    (h₁ : RemovedAt q i x q₁) (h₂ : RemovedAt q i y q₂) : x = y ∧ q₁ = q₂ := by
  refine ⟨?_, ?_⟩
  · have := h₁.2.2.1.symm.trans h₂.2.2.1; simpa using this
  · apply List.ext_getElem?
    intro j
    by_cases hj : j < i
    · rw [← h₁.2.1 j hj, ← h₂.2.1 j hj]
    · rw [← h₁.2.2.2 j (by omega), ← h₂.2.2.2 j (by omega)]

theorem findWith_eq (f : α → Bool) (acc l : List α) : findWith f acc l = acc ++ l.filter f := by
  induction l generalizing acc with
  | nil => simp [findWith]
  | cons e es ih =>
    by_cases h : f e <;> simp [findWith, h, ih, pushBack]

theorem findFirstIndex_spec (f : α → Bool) (k : Nat) (l : List α) :
    (∃ (i : Nat) (a : α), findFirstIndex f k l = ((k + i : Nat) : Int) ∧ l[i]? = some a ∧ f a = true ∧
        ∀ j b, j < i → l[j]? = some b → f b = false) ∨
    ((∀ a ∈ l, f a = false) ∧ findFirstIndex f k l = -1) := by
  induction l generalizing k with
  | nil => right; simp [findFirstIndex]
  | cons e es ih =>
    by_cases h : f e
    · left; exact ⟨0, e, by simp [findFirstIndex, h], by simp, h, by omega⟩
    · rcases ih (k + 1) with ⟨i, a, h1, h2, h3, h4⟩ | ⟨h1, h2⟩
      · left
        refine ⟨i + 1, a, ?_, by simpa using h2, h3, ?_⟩
        · simp [findFirstIndex, h, h1]; omega
        · intro j b hj hb
          cases j with
          | zero => simp at hb; subst hb; simpa using h
          | succ j => exact h4 j b (by omega) (by simpa using hb)
      · right; exact ⟨by simpa [h] using h1, by simp [findFirstIndex, h, h2]⟩

theorem step_allowed (q : List α) (op : Op α) : Allowed q op (step q op).2 (step q op).1 := by
  cases op with
  | get i =>
    refine ⟨rfl, ?_⟩
    simp only [step, get, Valid]
    by_cases h : 0 ≤ i ∧ i < q.length
    · left
      have hi : i.toNat < q.length := by omega
      refine ⟨h, q[i.toNat], by simp [hi], ?_⟩
      rw [if_neg (by omega)]
      simp [pyGet, h.1, hi]
    · right; exact ⟨h, by rw [if_pos (by omega)]⟩
  | size => exact ⟨rfl, rfl⟩
  | setItem i x =>
    simp only [step, setItem, Allowed, pySet]
    by_cases h0 : 0 ≤ i
    · by_cases h1 : i < q.length
      · left
        refine ⟨i.toNat, by simp [h0]; omega, by omega, ?_, ?_⟩
        · simp [h0, h1]
        · simp only [h0, h1, if_true]
          refine ⟨by simp, ?_, ?_⟩
          · rw [List.getElem?_set]; simp; omega
          · intro k hk; rw [List.getElem?_set]; simp [Ne.symm hk]
      · right; simp [h1]; omega
    · have h1 : i < q.length := by omega
      by_cases h2 : -(q.length : Int) ≤ i
      · left
        refine ⟨((q.length : Int) + i).toNat, by simp [h0]; omega, by omega, ?_, ?_⟩
        · simp [h0, h1, h2]
        · simp only [h0, h1, h2, if_true, if_false]
          refine ⟨by simp, ?_, ?_⟩
          · rw [List.getElem?_set]; simp; omega
          · intro k hk; rw [List.getElem?_set]; simp [Ne.symm hk]
      · right; simp [h0, h1, h2]; omega
  | getItem i =>
    refine ⟨rfl, ?_⟩
    simp only [step, getItem, pyGet]
    by_cases h0 : 0 ≤ i
    · by_cases h1 : i < q.length
      · left
        have hi : i.toNat < q.length := by omega
        exact ⟨i.toNat, by simp [h0]; omega, q[i.toNat], by simp [hi], by simp [h0, h1, hi]⟩
      · right; simp [h1]; omega
    · have h1 : i < q.length := by omega
      by_cases h2 : -(q.length : Int) ≤ i
      · left
        have hi : ((q.length : Int) + i).toNat < q.length := by omega
        exact ⟨((q.length : Int) + i).toNat, by simp [h0]; omega, q[((q.length : Int) + i).toNat],
          by simp [hi], by simp [h0, h1, h2, hi]⟩
      · right; simp [h0, h1, h2]; omega
  | insert i x =>
    simp only [step, insert, Allowed, Valid]
    by_cases h : 0 ≤ i ∧ i < q.length
    · left
      rw [if_neg (by omega)]
      exact ⟨h, rfl, insertedAt_take_drop q i.toNat x (by omega)⟩
    · right; rw [if_pos (by omega)]; exact ⟨h, rfl, rfl⟩
  | delete i =>
    simp only [step, delete, Allowed, Valid]
    by_cases h : 0 ≤ i ∧ i < q.length
    · left
      rw [if_neg (by omega), if_neg (by omega)]
      have hi : i.toNat < q.length := by omega
      exact ⟨h, rfl, q[i.toNat], removedAt_take_drop q i.toNat _ (by simp [hi])⟩
    · right
      by_cases h1 : i = -1
      · left; subst h1; rw [if_neg (by omega)]; simp
      · right; rw [if_pos (by omega)]; exact ⟨h, h1, rfl, rfl⟩
  | popFront =>
    cases q with
    | nil => right; simp [step, popFront]
    | cons a q =>
      left; refine ⟨a, rfl, ?_⟩
      have := removedAt_take_drop (a :: q) 0 a (by simp)
      simpa [step, popFront] using this
  | front =>
    refine ⟨rfl, ?_⟩
    cases q <;> simp [step, front]
  | back =>
    refine ⟨rfl, ?_⟩
    simp only [step, back]
    by_cases h : q.length > 0
    · left
      have : q.length - 1 < q.length := by omega
      exact ⟨q[q.length - 1], q.length - 1, by omega, by simp [this], by simp [h, List.getElem?_eq_getElem this]⟩
    · right; simp at h; simp [h]
  | popBack =>
    simp only [step, popBack, Allowed]
    cases hq : q.getLast? with
    | none => right; simp at hq; simp [hq]
    | some a =>
      left
      refine ⟨a, rfl, ?_⟩
      have hne : q ≠ [] := by rintro rfl; simp at hq
      have hl : 0 < q.length := List.length_pos_iff.2 hne
      rw [List.getLast?_eq_getElem?] at hq
      have := removedAt_take_drop q (q.length - 1) a hq
      rw [List.drop_of_length_le (by omega), List.append_nil, ← List.dropLast_eq_take] at this
      simpa using this
  | pushFront x =>
    refine ⟨rfl, ?_⟩
    have := insertedAt_take_drop q 0 x (by omega)
    simpa [step, pushFront] using this
  | pushBack x =>
    refine ⟨rfl, ?_⟩
    have := insertedAt_take_drop q q.length x (by omega)
    simpa [step, pushBack] using this
  | findWith f => exact ⟨rfl, by simp [step, findWith_eq]⟩
  | findFirstIndex f =>
    refine ⟨rfl, ?_⟩
    have := findFirstIndex_spec f 0 q
    simpa [step] using this

theorem allowed_unique (q : List α) (op : Op α) {o₁ o₂ : Out α} {q₁ q₂ : List α}
    (h₁ : Allowed q op o₁ q₁) (h₂ : Allowed q op o₂ q₂) : o₁ = o₂ ∧ q₁ = q₂ := by
  have nil_not : ∀ {i : Nat} {a : α} {p : List α}, ¬ RemovedAt ([] : List α) i a p := by
    intro i a p h; have := h.2.2.1; simp at this
  cases op with
  | get i => simp only [Allowed] at h₁ h₂; grind
  | size => simp only [Allowed] at h₁ h₂; grind
  | setItem i x =>
    simp only [Allowed] at h₁ h₂
    rcases h₁ with ⟨j, hj, hjl, ho, hl, hx, hk⟩ | ⟨hi, ho, hq⟩ <;>
    rcases h₂ with ⟨j', hj', hjl', ho', hl', hx', hk'⟩ | ⟨hi', ho', hq'⟩
    · have : j = j' := by omega
      subst this
      refine ⟨by rw [ho, ho'], List.ext_getElem? fun k => ?_⟩
      by_cases hkj : k = j
      · subst hkj; rw [hx, hx']
      · rw [hk k hkj, hk' k hkj]
    · split at hj <;> omega
    · split at hj' <;> omega
    · exact ⟨by rw [ho, ho'], by rw [hq, hq']⟩
  | getItem i =>
    simp only [Allowed] at h₁ h₂
    obtain ⟨hq, h₁⟩ := h₁
    obtain ⟨hq', h₂⟩ := h₂
    refine ⟨?_, by rw [hq, hq']⟩
    rcases h₁ with ⟨j, hj, a, ha, ho⟩ | ⟨hi, ho⟩ <;> rcases h₂ with ⟨j', hj', a', ha', ho'⟩ | ⟨hi', ho'⟩
    · have : j = j' := by omega
      subst this; grind
    · have := (List.getElem?_eq_some_iff.1 ha).1; split at hj <;> omega
    · have := (List.getElem?_eq_some_iff.1 ha').1; split at hj' <;> omega
    · rw [ho, ho']
  | insert i x =>
    rcases h₁ with ⟨hv, ho, hi⟩ | ⟨hv, ho, hi⟩ <;> rcases h₂ with ⟨hv', ho', hi'⟩ | ⟨hv', ho', hi'⟩
    · exact ⟨by rw [ho, ho'], insertedAt_unique hi hi'⟩
    · exact absurd hv hv'
    · exact absurd hv' hv
    · exact ⟨by rw [ho, ho'], by rw [hi, hi']⟩
  | delete i =>
    rcases h₁ with ⟨hv, ho, x, hi⟩ | ⟨hv, ho, hi⟩ | ⟨hv, hn, ho, hi⟩ <;>
    rcases h₂ with ⟨hv', ho', x', hi'⟩ | ⟨hv', ho', hi'⟩ | ⟨hv', hn', ho', hi'⟩
    · exact ⟨by rw [ho, ho'], (removedAt_unique hi hi').2⟩
    · simp only [Valid] at hv; omega
    · exact absurd hv hv'
    · simp only [Valid] at hv'; omega
    · exact ⟨by rw [ho, ho'], by rw [hi, hi']⟩
    · exact absurd hv hn'
    · exact absurd hv' hv
    · exact absurd hv' hn
    · exact ⟨by rw [ho, ho'], by rw [hi, hi']⟩
  | popFront =>
    rcases h₁ with ⟨a, ho, hi⟩ | ⟨hv, ho, hi⟩ <;> rcases h₂ with ⟨a', ho', hi'⟩ | ⟨hv', ho', hi'⟩
    · have := removedAt_unique hi hi'; exact ⟨by rw [ho, ho', this.1], this.2⟩
    · subst hv'; exact absurd hi nil_not
    · subst hv; exact absurd hi' nil_not
    · exact ⟨by rw [ho, ho'], by rw [hi, hi']⟩
  | front => simp only [Allowed] at h₁ h₂; grind
  | back =>
    obtain ⟨hq, h₁⟩ := h₁
    obtain ⟨hq', h₂⟩ := h₂
    refine ⟨?_, by rw [hq, hq']⟩
    rcases h₁ with ⟨a, n, hn, ha, ho⟩ | ⟨hi, ho⟩ <;> rcases h₂ with ⟨a', n', hn', ha', ho'⟩ | ⟨hi', ho'⟩
    · have : n = n' := by omega
      subst this; grind
    · subst hi'; simp at hn
    · subst hi; simp at hn'
    · rw [ho, ho']
  | popBack =>
    rcases h₁ with ⟨a, ho, hi⟩ | ⟨hv, ho, hi⟩ <;> rcases h₂ with ⟨a', ho', hi'⟩ | ⟨hv', ho', hi'⟩
    · have hl : q₁.length = q₂.length := by have := hi.1; have := hi'.1; omega
      rw [hl] at hi
      have := removedAt_unique hi hi'; exact ⟨by rw [ho, ho', this.1], this.2⟩
    · subst hv'; exact absurd hi nil_not
    · subst hv; exact absurd hi' nil_not
    · exact ⟨by rw [ho, ho'], by rw [hi, hi']⟩
  | pushFront x => exact ⟨by rw [h₁.1, h₂.1], insertedAt_unique h₁.2 h₂.2⟩
  | pushBack x => exact ⟨by rw [h₁.1, h₂.1], insertedAt_unique h₁.2 h₂.2⟩
  | findWith f => exact ⟨by rw [h₁.2, h₂.2], by rw [h₁.1, h₂.1]⟩
  | findFirstIndex f =>
    obtain ⟨hq, h₁⟩ := h₁
    obtain ⟨hq', h₂⟩ := h₂
    refine ⟨?_, by rw [hq, hq']⟩
    rcases h₁ with ⟨i, a, ho, ha, hf, hm⟩ | ⟨hn, ho⟩ <;> rcases h₂ with ⟨i', a', ho', ha', hf', hm'⟩ | ⟨hn', ho'⟩
    · have : i = i' := by
        rcases Nat.lt_trichotomy i i' with h | h | h
        · have := hm' i a h ha; simp [hf] at this
        · exact h
        · have := hm i' a' h ha'; simp [hf'] at this
      rw [ho, ho', this]
    · have := hn' a (List.mem_of_getElem? ha); simp [hf] at this
    · have := hn a' (List.mem_of_getElem? ha'); simp [hf'] at this
    · rw [ho, ho']

end Verif.Queue
