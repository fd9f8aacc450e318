import Verif.Model.CmpHist
/-!
# Properties of histories of comparisons: C322
-/
namespace Verif.CmpHist

/-- Specification: what a call on its own gives. -/
def alone (c : Call) : Option Bool :=
  if c.raisesAt = none then some (decide (c.miscompares = 0 ∧ c.verdict = true)) else none

theorem cmp_again {s : St} {c : Call} {l : Nat} (h : (enter s).map.lookup c.rhs = some l) : compare s c = again (enter s) l c := by
  unfold compare; rw [h]

theorem cmp_fields {s : St} {c : Call} (h : (enter s).map.lookup c.rhs = none) : compare s c = fields (enter s) c := by
  unfold compare; rw [h]

theorem enter_clean {s : St} (h : s.depth = 0) : enter s = ⟨1, 0, []⟩ := by simp [enter, h]

theorem enter_open {s : St} (h : s.depth ≠ 0) : enter s = s := by simp [enter, h]

theorem compare_clean (s : St) (hs : s.depth = 0) (c : Call) : (compare s c).2 = alone c ∧ (c.raisesAt = none → (compare s c).1.depth = 0) ∧
    (∀ d, c.raisesAt = some d → (compare s c).1.depth = d + 1) := by
  have he := enter_clean hs
  rw [cmp_fields (by rw [he]; rfl), he]
  unfold fields alone
  cases hr : c.raisesAt with
  | none => simp [leave]
  | some d => simp [Nat.add_comm]

theorem clean_run (h : List Call) (s : St) (hs : s.depth = 0) (hh : ∀ c ∈ h, c.raisesAt = none) : (runS compare s h).depth = 0 := by
  induction h generalizing s with
  | nil => exact hs
  | cons x h ih =>
    rw [runS_cons]
    exact ih _ ((compare_clean s hs x).2.1 (hh x (by simp))) fun c hc => hh c (by simp [hc])

theorem compare_one (s : St) (hs : s.depth = 1) (c : Call) (hr : c.raisesAt = none) : (compare s c).1.depth = 0 := by
  have he : enter s = s := enter_open (by omega)
  cases hm : (enter s).map.lookup c.rhs with
  | some l => rw [cmp_again hm, he]; simp [again, leave, hs]
  | none => rw [cmp_fields hm, he]; simp [fields, hr, leave, hs]

/-- C322 (part): as long as no comparison raises, each gives what it gives on its own, whatever was compared before. -/
theorem C322_no_exception_partial (h : List Call) (hh : ∀ c ∈ h, c.raisesAt = none) (c : Call) :
    (compare (runS compare init h) c).2 = alone c := by
  exact (compare_clean _ (clean_run h init rfl hh) c).1

example : (compare (runS compare init [⟨1, 2, 3, true, none⟩, ⟨1, 2, 0, true, none⟩]) ⟨4, 2, 0, true, none⟩).2 = some true := by decide

/-- C322 (part): a comparison that raises in the fields or the `do_compare` of the object itself, not of a sub-object, spoils at most the next one. -/
theorem C322_only_the_next_partial (h : List Call) (hh : ∀ c ∈ h, c.raisesAt = none) (x y : Call) (hx : x.raisesAt = some 0)
    (hy : y.raisesAt = none) (l : List Call) (hl : ∀ c ∈ l, c.raisesAt = none) (c : Call) :
    (compare (runS compare init (h ++ x :: y :: l)) c).2 = alone c := by
  have h1 := clean_run h init rfl hh
  rw [runS_append, runS_cons, runS_cons]
  have h2 := (compare_clean _ h1 x).2.2 0 hx
  have h3 := compare_one _ h2 y hy
  exact (compare_clean _ (clean_run l _ h3 hl) c).1

/-- C322 fails in the code: after a comparison that raised, the next comparison of the same right-hand object says that it differs, whatever it is compared
with. -/
theorem C322_next_fails (h : List Call) (hh : ∀ c ∈ h, c.raisesAt = none) (x y : Call) (d : Nat) (hx : x.raisesAt = some d) (hy : y.rhs = x.rhs) :
    (compare (runS compare init (h ++ [x])) y).2 = some false := by
  rw [runS_append, runS_cons, runS_nil]
  generalize hs : runS compare init h = s
  have h0 : s.depth = 0 := hs ▸ clean_run h init rfl hh
  have he := enter_clean h0
  have hq : (compare s x).1 = ⟨1 + d, 0 + x.miscompares, [(x.rhs, x.lhs)]⟩ := by
    rw [cmp_fields (by rw [he]; rfl), he]; simp [fields, hx]
  rw [hq]
  have he2 : enter ⟨1 + d, 0 + x.miscompares, [(x.rhs, x.lhs)]⟩ = ⟨1 + d, 0 + x.miscompares, [(x.rhs, x.lhs)]⟩ := enter_open (by simp)
  rw [cmp_again (l := x.lhs) (by rw [he2, hy]; simp [List.lookup])]
  rfl

/-- What is left of the state once a comparison has raised below a sub-object. -/
theorem stuck (h : List Call) (s : St) (hs : 2 ≤ s.depth) :
    2 ≤ (runS compare s h).depth ∧ s.result ≤ (runS compare s h).result ∧ (∀ p ∈ s.map, p ∈ (runS compare s h).map) := by
  induction h generalizing s with
  | nil => exact ⟨hs, Nat.le_refl _, fun _ => id⟩
  | cons x h ih =>
    rw [runS_cons]
    have he : enter s = s := enter_open (by omega)
    have hq : 2 ≤ (compare s x).1.depth ∧ s.result ≤ (compare s x).1.result ∧ (∀ p ∈ s.map, p ∈ (compare s x).1.map) := by
      have hl : ∀ t : St, 2 ≤ t.depth → leave t = t := fun t ht => by unfold leave; rw [if_neg (by omega)]
      cases hm : (enter s).map.lookup x.rhs with
      | some l =>
        rw [cmp_again hm, he]
        unfold again
        rw [hl { s with result := if l ≠ x.lhs then s.result + 1 else s.result } hs]
        refine ⟨hs, ?_, fun _ => id⟩
        show s.result ≤ if l ≠ x.lhs then s.result + 1 else s.result
        split <;> omega
      | none =>
        rw [cmp_fields hm, he]
        unfold fields
        cases hr : x.raisesAt with
        | some d => exact ⟨by simp; omega, by simp, fun p hp => List.mem_cons_of_mem _ hp⟩
        | none =>
          simp only
          rw [hl { s with map := (x.rhs, x.lhs) :: s.map, result := s.result + x.miscompares } hs]
          exact ⟨hs, by simp, fun p hp => List.mem_cons_of_mem _ hp⟩
    obtain ⟨a, b, c⟩ := ih _ hq.1
    exact ⟨a, Nat.le_trans hq.2.1 b, fun p hp => c p (hq.2.2 p hp)⟩

theorem lookup_some {p : Nat × Nat} {l : List (Nat × Nat)} (h : p ∈ l) : ∃ v, l.lookup p.1 = some v := by
  induction l with
  | nil => simp at h
  | cons q l ih =>
    by_cases e : p.1 = q.1
    · exact ⟨q.2, by rw [e]; simp [List.lookup]⟩
    · rcases List.mem_cons.1 h with rfl | h
      · exact absurd rfl e
      · obtain ⟨v, hv⟩ := ih h
        refine ⟨v, ?_⟩
        have : (p.1 == q.1) = false := by simpa using e
        simp [List.lookup, this, hv]

theorem compare_stuck (s : St) (hs : 2 ≤ s.depth) (c : Call) (hc : c.raisesAt = none)
    (h : 0 < s.result ∨ (∃ p ∈ s.map, p.1 = c.rhs) ∨ c.miscompares ≠ 0) : (compare s c).2 = some false := by
  have he : enter s = s := enter_open (by omega)
  cases hm : (enter s).map.lookup c.rhs with
  | some l => rw [cmp_again hm]; rfl
  | none =>
    rw [cmp_fields hm, he]
    unfold fields
    simp only [hc]
    have : s.result + c.miscompares ≠ 0 := by
      rcases h with h | ⟨p, hp, e⟩ | h
      · omega
      · obtain ⟨v, hv⟩ := lookup_some hp
        rw [he] at hm
        rw [e, hm] at hv; cases hv
      · omega
    rw [decide_eq_false this]; rfl

/-- C322 fails in the code: once a comparison has raised below a sub-object, one comparison that differs makes all later ones differ, for ever, also those of
equal objects. -/
theorem C322_for_ever_fails (h : List Call) (hh : ∀ c ∈ h, c.raisesAt = none) (x : Call) (d : Nat) (hx : x.raisesAt = some (d + 1))
    (l l' : List Call) (y : Call) (hy : y.raisesAt = none) (hd : y.miscompares ≠ 0) (hn : ∀ z ∈ h ++ x :: l, z.rhs ≠ y.rhs)
    (c : Call) (hc : c.raisesAt = none) :
    (compare (runS compare init (h ++ x :: l ++ y :: l')) c).2 = some false := by
  have keys : ∀ (h : List Call) (s : St), (∀ p ∈ (runS compare s h).map, p ∈ s.map ∨ ∃ z ∈ h, p.1 = z.rhs) := by
    intro h
    induction h with
    | nil => intro s p hp; exact .inl hp
    | cons z h ih =>
      intro s p hp
      rw [runS_cons] at hp
      rcases ih _ p hp with h1 | ⟨w, hw, e⟩
      · have : p ∈ (enter s).map ∨ p.1 = z.rhs := by
          cases hm : (enter s).map.lookup z.rhs with
          | some v =>
            rw [cmp_again hm] at h1
            simp only [again, leave] at h1
            split at h1 <;> exact .inl h1
          | none =>
            rw [cmp_fields hm] at h1
            unfold fields at h1
            cases hr : z.raisesAt with
            | some d =>
              simp only [hr] at h1
              rcases List.mem_cons.1 h1 with rfl | h1
              · exact .inr rfl
              · exact .inl h1
            | none =>
              simp only [hr, leave] at h1
              split at h1 <;>
              · rcases List.mem_cons.1 h1 with rfl | h1
                · exact .inr rfl
                · exact .inl h1
        rcases this with h2 | h2
        · refine .inl ?_
          unfold enter at h2
          split at h2
          · simp at h2
          · exact h2
        · exact .inr ⟨z, by simp, h2⟩
      · exact .inr ⟨w, by simp [hw], e⟩
  rw [runS_append]
  have hst : 2 ≤ (runS compare init (h ++ x :: l)).depth := by
    rw [runS_append, runS_cons]
    have h1 := (compare_clean _ (clean_run h init rfl hh) x).2.2 _ hx
    exact (stuck l _ (by omega)).1
  have hmap := keys (h ++ x :: l) init
  generalize runS compare init (h ++ x :: l) = s at hst hmap
  rw [runS_cons]
  have he : enter s = s := enter_open (by omega)
  have hlk : s.map.lookup y.rhs = none := by
    rw [List.lookup_eq_none_iff]
    intro p hp
    rcases hmap p hp with h1 | ⟨z, hz, e⟩
    · simp [init] at h1
    · have h2 : p.1 ≠ y.rhs := by rw [e]; exact hn z hz
      have := Ne.symm h2; simpa using this
  have hq : 2 ≤ (compare s y).1.depth ∧ 0 < (compare s y).1.result := by
    rw [cmp_fields (by rw [he]; exact hlk), he]
    simp only [fields, hy, leave]
    rw [if_neg (by omega)]
    exact ⟨hst, by simp; omega⟩
  obtain ⟨a, b, _⟩ := stuck l' _ hq.1
  exact compare_stuck _ a c hc (.inl (by omega))

example : (compare (runS compare init ([] ++ ⟨1, 2, 0, true, some 1⟩ :: [⟨3, 4, 0, true, none⟩] ++ ⟨5, 6, 1, true, none⟩ :: [])) ⟨7, 8, 0, true, none⟩).2 =
    some false := by decide

end Verif.CmpHist
