import Verif.Lemmas.SpellChkr
/-! # C06: the spell checker's distance is the edit distance -/
namespace Verif.SpellChkr
variable {α : Type} [DecidableEq α]

/-- C06. For all non-empty strings the computed distance exists (no exception) and is the least number of
single-character insertions, deletions and substitutions. -/
theorem C06_distance_is_least_edits (s t : List α) (hs : s ≠ []) (ht : t ≠ []) :
    ∃ k : Nat, levenshteinDistance s t = some (k : Int) ∧ IsEditDistance s t k :=
  ⟨_, lev_code s t hs ht, isEditDistance_reverse (lev_isEditDistance _ _)⟩

/-- C06. An empty argument gives -1. -/
theorem C06_distance_empty (s t : List α) (h : s = [] ∨ t = []) : levenshteinDistance s t = some (-1) :=
  lev_code_empty s t h

/-- C06. The distance is symmetric. -/
theorem C06_distance_symmetric (s t : List α) : levenshteinDistance s t = levenshteinDistance t s := by
  by_cases h : s = [] ∨ t = []
  · rw [lev_code_empty s t h, lev_code_empty t s h.symm]
  · simp only [not_or] at h
    obtain ⟨j, hj, ej⟩ := C06_distance_is_least_edits s t h.1 h.2
    obtain ⟨k, hk, ek⟩ := C06_distance_is_least_edits t s h.2 h.1
    have : IsEditDistance s t k := ⟨editsIn_symm ek.1, fun i hi => ek.2 i (editsIn_symm hi)⟩
    rw [hj, hk, isEditDistance_unique ej this]

/-- C06. The distance is zero exactly when the strings are equal. -/
theorem C06_distance_zero_iff (s t : List α) (hs : s ≠ []) (ht : t ≠ []) :
    levenshteinDistance s t = some 0 ↔ s = t := by
  obtain ⟨k, hk, ek⟩ := C06_distance_is_least_edits s t hs ht
  rw [hk]
  constructor
  · intro h
    have : k = 0 := by simpa using h
    subst this
    cases ek.1
    rfl
  · intro h
    subst h
    have := ek.2 0 (.zero _)
    have : k = 0 := by omega
    simp [this]

/-- C88. `check` answers whether the string is a key of the table, and never raises. -/
theorem C88_check_iff_known (tab : List (List α)) (s : List α) :
    ∃ sug, check tab s = some (decide (s ∈ tab), sug) := by
  by_cases h : s ∈ tab
  · exact ⟨[], by simp [check, h]⟩
  · have loop : ∀ (ks : List (List α)) acc, ∃ r, checkLoop s ks acc = some r := by
      intro ks
      induction ks with
      | nil => intro acc; exact ⟨acc, rfl⟩
      | cons k ks ih =>
        intro ⟨mn, mk⟩
        have : ∃ d, levenshteinDistance k s = some d := by
          by_cases he : k = [] ∨ s = []
          · exact ⟨_, lev_code_empty k s he⟩
          · simp only [not_or] at he; exact ⟨_, lev_code k s he.1 he.2⟩
        obtain ⟨d, hd⟩ := this
        simp only [checkLoop, hd, Option.bind_eq_bind, Option.bind_some]
        split
        · exact ih _
        · split
          · exact ih _
          · split <;> exact ih _
    obtain ⟨⟨mn, mk⟩, hr⟩ := loop tab (maxVal, [])
    simp only [check, h, if_false, hr, Option.bind_eq_bind, Option.bind_some]
    by_cases hm : mn = maxVal <;> simp [hm]

/-- C88 fails for the suggestions of `check` (its documentation promises the closest keys): because the
initial minimum is 1 instead of "infinity", no alternative is ever suggested, for any table. -/
theorem C88_check_never_suggests_fails (tab : List (List α)) (s : List α) (b : Bool) (sug : List (List α))
    (h : check tab s = some (b, sug)) : sug = [] := by
  by_cases hm : s ∈ tab
  · simp [check, hm] at h; exact h.2.symm ▸ rfl
  · have loop : ∀ (ks : List (List α)) mk, s ∉ ks → ∃ r, checkLoop s ks (maxVal, mk) = some (maxVal, r) := by
      intro ks
      induction ks with
      | nil => intro mk _; exact ⟨mk, rfl⟩
      | cons k ks ih =>
        intro mk hks
        simp only [List.mem_cons, not_or] at hks
        by_cases he : k = [] ∨ s = []
        · simp only [checkLoop, lev_code_empty k s he, Option.bind_eq_bind, Option.bind_some]
          exact ih mk hks.2
        · simp only [not_or] at he
          obtain ⟨d, hd, _⟩ := C06_distance_is_least_edits k s he.1 he.2
          have h0 : d ≠ 0 := by
            intro h0; subst h0
            exact hks.1 (((C06_distance_zero_iff k s he.1 he.2).mp hd).symm)
          simp only [checkLoop, hd, Option.bind_eq_bind, Option.bind_some]
          rw [if_neg (by omega), if_neg (by simp only [maxVal]; omega)]
          split <;> exact ih _ hks.2
    obtain ⟨r, hr⟩ := loop tab [] hm
    simp only [check, hm, if_false, hr, Option.bind_eq_bind, Option.bind_some] at h
    simp at h; exact h.2.symm ▸ rfl

/-- The suggestion loop itself is right, whatever minimum it starts from: it ends with the least distance found
(if below the start) and exactly the keys at that distance, in table order.  (Empty keys are skipped.)
`check` starts it at 1, see `C88_check_never_suggests_fails`. -/
theorem C88_alternatives_are_closest_partial (s : List α) (hs : s ≠ []) (ks : List (List α)) (start : Int) :
    ∃ mn mk, checkLoop s ks (start, []) = some (mn, mk) ∧ mn ≤ start ∧
      (∀ k ∈ ks, k ≠ [] → ∀ d, levenshteinDistance k s = some d → mn ≤ d) ∧
      (mn < start → ∃ k ∈ ks, levenshteinDistance k s = some mn) ∧
      mk = ks.filter (fun k => decide (k ≠ []) && decide (levenshteinDistance k s = some mn)) := by
  have key : ∀ (ks pre : List (List α)) (mn : Int) (mk : List (List α)), mn ≤ start →
      (∀ k ∈ pre, k ≠ [] → ∀ d, levenshteinDistance k s = some d → mn ≤ d) →
      (mn < start → ∃ k ∈ pre, levenshteinDistance k s = some mn) →
      mk = pre.filter (fun k => decide (k ≠ []) && decide (levenshteinDistance k s = some mn)) →
      ∃ mn' mk', checkLoop s ks (mn, mk) = some (mn', mk') ∧ mn' ≤ start ∧
        (∀ k ∈ pre ++ ks, k ≠ [] → ∀ d, levenshteinDistance k s = some d → mn' ≤ d) ∧
        (mn' < start → ∃ k ∈ pre ++ ks, levenshteinDistance k s = some mn') ∧
        mk' = (pre ++ ks).filter (fun k => decide (k ≠ []) && decide (levenshteinDistance k s = some mn')) := by
    intro ks
    induction ks with
    | nil => intro pre mn mk h1 h2 h3 h4; exact ⟨mn, mk, rfl, h1, by simpa using h2, by simpa using h3, by simpa using h4⟩
    | cons k ks ih =>
      intro pre mn mk h1 h2 h3 h4
      have e : pre ++ k :: ks = (pre ++ [k]) ++ ks := by simp
      rw [e]
      by_cases he : k = []
      · simp only [checkLoop, lev_code_empty k s (.inl he), Option.bind_eq_bind, Option.bind_some]
        refine ih (pre ++ [k]) mn mk h1 ?_ ?_ ?_
        · intro k' hk' hne
          rcases List.mem_append.1 hk' with h | h
          · exact h2 k' h hne
          · simp at h; exact absurd (h.trans he) hne
        · intro h; obtain ⟨k', hk', hd⟩ := h3 h; exact ⟨k', by simp [hk'], hd⟩
        · simp [List.filter_append, h4, he]
      · obtain ⟨d, hd, _⟩ := C06_distance_is_least_edits k s he hs
        simp only [checkLoop, hd, Option.bind_eq_bind, Option.bind_some]
        rw [if_neg (by omega)]
        by_cases hlt : (d : Int) < mn
        · rw [if_pos hlt]
          refine ih (pre ++ [k]) d [k] (by omega) ?_ ?_ ?_
          · intro k' hk' hne d' hd'
            rcases List.mem_append.1 hk' with h | h
            · have := h2 k' h hne d' hd'; omega
            · simp at h; subst h; rw [hd] at hd'; simp at hd'; omega
          · intro _; exact ⟨k, by simp, hd⟩
          · rw [List.filter_append]
            have : pre.filter (fun k => decide (k ≠ []) && decide (levenshteinDistance k s = some (d : Int))) = [] := by
              rw [List.filter_eq_nil_iff]
              intro k' hk' hc
              simp only [Bool.and_eq_true, decide_eq_true_eq] at hc
              have := h2 k' hk' hc.1 _ hc.2
              omega
            rw [this]; simp [he, hd]
        · rw [if_neg hlt]
          have hle : ∀ k' ∈ pre ++ [k], k' ≠ [] → ∀ d', levenshteinDistance k' s = some d' → mn ≤ d' := by
            intro k' hk' hne d' hd'
            rcases List.mem_append.1 hk' with h | h
            · exact h2 k' h hne d' hd'
            · simp at h; subst h; rw [hd] at hd'; simp at hd'; omega
          have hex : mn < start → ∃ k' ∈ pre ++ [k], levenshteinDistance k' s = some mn := by
            intro h; obtain ⟨k', hk', hd'⟩ := h3 h; exact ⟨k', by simp [hk'], hd'⟩
          by_cases heq : (d : Int) = mn
          · rw [if_pos heq]
            exact ih (pre ++ [k]) mn (mk ++ [k]) h1 hle hex (by rw [List.filter_append, ← h4]; simp [he, hd, heq])
          · rw [if_neg heq]
            exact ih (pre ++ [k]) mn mk h1 hle hex (by rw [List.filter_append, ← h4]; simp [hd, heq])
  have := key ks [] start [] (by omega) (by simp) (by simp) (by simp)
  simpa using this

-- Non-vacuity: distance("kitten", "sitting") = 3; a real table with a near miss.
example : levenshteinDistance "kitten".toList "sitting".toList = some 3 := by decide +kernel
example : check ["foo".toList, "bar".toList] "fop".toList = some (false, []) := by decide +kernel
example : levenshteinDistance "foo".toList "fop".toList = some 1 := by decide +kernel

end Verif.SpellChkr
