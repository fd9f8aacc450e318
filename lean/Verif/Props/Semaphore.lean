import Verif.Spec.Semaphore
/-! # C186–C188: the semaphore -/
namespace Verif.Semaphore

structure Inv (n : Nat) (r : Run) : Prop where
  max : r.sem.max = n
  count : r.sem.count + r.holders.length = n
  nonneg : 0 ≤ r.sem.count
  zero : r.sem.count = 0 → r.sem.locked = true ∧ r.sem.granted = none
  held : r.sem.held = true ↔ r.sem.locked = true ∨ r.sem.granted.isSome
  excl : ¬ (r.sem.locked = true ∧ r.sem.granted.isSome)
  wait : r.sem.held = false → r.sem.waiting = []
  ones : ∀ w ∈ r.sem.granted.toList ++ r.sem.waiting, w.2 = 1

theorem inv_get {n : Nat} {r : Run} (hn : 1 ≤ n) (h : Inv n r) (t : Nat) : Inv n ⟨(step r.sem (.get t 1)).1, ((step r.sem (.get t 1)).2.map (·.1)).toList ++ r.holders⟩ := by
  obtain ⟨s, hs⟩ := r
  obtain ⟨h1, h2, h3, h4, h5, h6, h7, h8⟩ := h
  simp only at *
  simp only [step, get]
  by_cases c1 : s.count > 1
  · simp only [c1, if_true]
    exact ⟨h1, by simp; omega, by simp; omega, by simp; omega, h5, h6, h7, h8⟩
  · simp only [c1, if_false]
    have c2 : ¬ (1 : Int) > s.max := by omega
    simp only [c2, if_false]
    cases c3 : s.held with
    | true =>
      simp only [if_true]
      refine ⟨h1, by simpa using h2, h3, h4, by simpa [c3] using h5, h6, by simp, ?_⟩
      intro w hw
      simp only [← List.append_assoc, List.mem_append] at hw
      rcases hw with hw | hw
      · exact h8 w (by simpa using hw)
      · rw [List.mem_singleton.1 hw]
    | false =>
      simp only [Bool.false_eq_true, if_false]
      rw [c3] at h5
      have hlk : s.locked = false := by
        cases hl : s.locked with
        | false => rfl
        | true => simp [hl] at h5
      refine ⟨h1, by simpa using h2, h3, ?_, by simp, by simp [hlk], by simp, ?_⟩
      · intro h0
        have := (h4 h0).1
        rw [hlk] at this; cases this
      · intro w hw
        simp only [h7 c3, Option.toList_some, List.append_nil, List.mem_singleton] at hw
        rw [hw]

theorem inv_resume {n : Nat} {r : Run} (h : Inv n r) : Inv n ⟨(step r.sem .resume).1, ((step r.sem .resume).2.map (·.1)).toList ++ r.holders⟩ := by
  obtain ⟨s, hs⟩ := r
  obtain ⟨h1, h2, h3, h4, h5, h6, h7, h8⟩ := h
  simp only at *
  simp only [step, resume]
  cases hg : s.granted with
  | none =>
    refine ⟨h1, by simpa using h2, h3, ?_, ?_, ?_, h7, ?_⟩
    · simpa [hg] using h4
    · simpa [hg] using h5
    · simp [hg]
    · simpa [hg] using h8
  | some w =>
    have hw1 := h8 w (by simp [hg])
    obtain ⟨t, k⟩ := w
    simp only at hw1
    subst hw1
    have hc : s.count ≠ 0 := fun h0 => by have := (h4 h0).2; rw [hg] at this; cases this
    have hh : s.held = true := h5.2 (.inr (by simp [hg]))
    refine ⟨h1, by simp; omega, by simp; omega, by simp, by simp [hh], by simp, by simp [hh], ?_⟩
    intro w hw
    simp only [Option.toList_none, List.nil_append] at hw
    exact h8 w (by simp [hw])

theorem inv_put {n : Nat} {r : Run} (h : Inv n r) (t : Nat) (ht : t ∈ r.holders) : Inv n ⟨(step r.sem (.put t 1)).1, r.holders.erase t⟩ := by
  obtain ⟨s, hs⟩ := r
  obtain ⟨h1, h2, h3, h4, h5, h6, h7, h8⟩ := h
  simp only at *
  have hlen : (hs.erase t).length + 1 = hs.length := by
    rw [List.length_erase_of_mem ht]
    have := List.length_pos_of_mem ht
    omega
  simp only [step, put]
  have c1 : s.count < s.max := by omega
  simp only [c1, if_true]
  cases c2 : s.locked with
  | false =>
    simp only [Bool.false_eq_true, if_false]
    refine ⟨h1, by simp; omega, by simp; omega, by simp; omega, by simpa [c2] using h5, by simp [c2], h7, h8⟩
  | true =>
    have hg : s.granted = none := by
      cases hg : s.granted with
      | none => rfl
      | some w => exact absurd ⟨c2, by simp [hg]⟩ h6
    simp only [if_true, release]
    cases hw : s.waiting with
    | nil =>
      refine ⟨h1, by simp; omega, by simp; omega, by simp; omega, by simp [hg], by simp, by simp [hw], by simp [hg, hw]⟩
    | cons w ws =>
      have hh : s.held = true := h5.2 (.inl c2)
      refine ⟨h1, by simp; omega, by simp; omega, by simp; omega, by simp [hh], by simp, by simp [hh], ?_⟩
      intro x hx
      exact h8 x (by simpa [hg, hw] using hx)

theorem reach_inv {n : Nat} (hn : 1 ≤ n) {r : Run} (h : Reach n r) : Inv n r := by
  induction h with
  | init => exact ⟨rfl, by simp [create], by simp [create], by simp [create]; omega, by simp [create], by simp [create], by simp [create], by simp [create]⟩
  | next _ hs ih =>
    cases hs with
    | get t => exact inv_get hn ih t
    | resume => exact inv_resume ih
    | put t ht => exact inv_put ih t ht

/-- C186: under every schedule of `get()` and `put()` with single tokens, a semaphore with `n` tokens has never more than `n` tokens out; what it counts is what
is left. -/
theorem C186_at_most_n (n : Nat) (hn : 1 ≤ n) (r : Run) (h : Reach n r) : r.holders.length ≤ n ∧ r.sem.count = n - r.holders.length := by
  have := reach_inv hn h
  have h2 := this.count
  have h3 := this.nonneg
  omega

/-- C186: tokens are given to waiting tasks in the order of their calls: a call that has to wait goes to the end of the queue, and only the first of the
queue obtains a token by waiting. -/
theorem C186_first_come_first (n : Nat) (hn : 1 ≤ n) (r : Run) (h : Reach n r) :
    (∀ t, (step r.sem (.get t 1)).2 = none → queue (step r.sem (.get t 1)).1 = queue r.sem ++ [t]) ∧
    (∀ t k, (step r.sem .resume).2 = some (t, k) → queue r.sem = t :: queue (step r.sem .resume).1) ∧
    (∀ t, queue (step r.sem (.put t 1)).1 = queue r.sem) := by
  obtain ⟨h1, h2, h3, h4, h5, h6, h7, h8⟩ := reach_inv hn h
  refine ⟨?_, ?_, ?_⟩
  · intro t ht
    simp only [step, get] at ht ⊢
    by_cases c1 : r.sem.count > 1
    · simp [c1] at ht
    · have c2 : ¬ (1 : Int) > r.sem.max := by omega
      simp only [c1, if_false, c2]
      cases c3 : r.sem.held with
      | true => simp [queue]
      | false =>
        have hg : r.sem.granted = none := by
          cases hg : r.sem.granted with
          | none => rfl
          | some w => rw [c3] at h5; simp [hg] at h5
        simp [queue, hg, h7 c3]
  · intro t k ht
    simp only [step, resume] at ht ⊢
    simp [ht, queue]
  · intro t
    simp only [step, put]
    split
    · split
      · next hl =>
        have hg : r.sem.granted = none := by
          cases hg : r.sem.granted with
          | none => rfl
          | some w => exact absurd ⟨hl, by simp [hg]⟩ h6
        simp only [release]
        cases hw : r.sem.waiting with
        | nil => simp [queue, hg, hw]
        | cons w ws => simp [queue, hg, hw]
      · rfl
    · rfl

theorem Prompt.reach {n : Nat} {r : Run} (h : Prompt n r) : Reach n r := by
  induction h with
  | init => exact .init
  | get t _ ih => exact .next ih (.get t)
  | resume _ ih => exact .next ih .resume
  | put t ht _ _ ih => exact .next ih (.put t ht)

/-- In such runs the lock is taken exactly while no token is left. -/
theorem prompt_inv {n : Nat} (hn : 1 ≤ n) {r : Run} (h : Prompt n r) :
    (r.sem.locked = true → r.sem.count = 0) ∧ (r.sem.granted.isSome → r.sem.count = 1) := by
  induction h with
  | init => exact ⟨by simp [create], by simp [create]⟩
  | @get r t hr ih =>
    obtain ⟨h1, h2, h3, h4, h5, h6, h7, h8⟩ := reach_inv hn hr.reach
    simp only [step, get]
    by_cases c1 : r.sem.count > 1
    · simp only [c1, if_true]
      exact ⟨fun hl => by have := ih.1 hl; omega, fun hg => by have := ih.2 hg; omega⟩
    · simp only [c1, if_false]
      have c2 : ¬ (1 : Int) > r.sem.max := by omega
      simp only [c2, if_false]
      cases c3 : r.sem.held with
      | true => exact ih
      | false =>
        simp only [Bool.false_eq_true, if_false]
        refine ⟨ih.1, fun _ => ?_⟩
        have : r.sem.count ≠ 0 := fun h0 => by
          have := h5.2 (.inl (h4 h0).1)
          rw [c3] at this; cases this
        show r.sem.count = 1
        omega
  | @resume r hr ih =>
    obtain ⟨h1, h2, h3, h4, h5, h6, h7, h8⟩ := reach_inv hn hr.reach
    simp only [step, Semaphore.resume]
    cases hg : r.sem.granted with
    | none => rw [hg] at ih; exact ⟨ih.1, by simp [hg]⟩
    | some w =>
      have hw1 := h8 w (by simp [hg])
      obtain ⟨t, k⟩ := w
      simp only at hw1
      subst hw1
      have := ih.2 (by simp [hg])
      exact ⟨fun _ => by simp; omega, by simp⟩
  | @put r t ht hp hr ih =>
    obtain ⟨h1, h2, h3, h4, h5, h6, h7, h8⟩ := reach_inv hn hr.reach
    have hpos := List.length_pos_of_mem ht
    have c1 : r.sem.count < r.sem.max := by omega
    simp only [step, Semaphore.put, c1, if_true]
    cases c2 : r.sem.locked with
    | false => simp [hp, c2]
    | true =>
      have h0 := ih.1 c2
      simp only [if_true, release]
      cases hw : r.sem.waiting with
      | nil => simp [hp]
      | cons w ws => simp [h0]

/-- C187, part: with any number of tokens, if every task that was woken continues before the next token is put back, nobody waits for nothing: if a token is free, the first waiting
task has been woken.  Missing: tokens put back before the woken task continues (`C187_lost_token_fails`). -/
theorem C187_prompt_partial (n : Nat) (hn : 1 ≤ n) (r : Run) (h : Prompt n r) (hf : r.holders.length < n) (hg : r.sem.granted = none) : queue r.sem = [] := by
  obtain ⟨h1, h2, h3, h4, h5, h6, h7, h8⟩ := reach_inv hn h.reach
  simp only [queue, hg, Option.toList_none, List.nil_append, List.map_eq_nil_iff]
  apply h7
  cases hh : r.sem.held with
  | false => rfl
  | true =>
    rcases h5.1 hh with hl | hl
    · have := (prompt_inv hn h).1 hl
      omega
    · simp [hg] at hl

/-- Two tokens: tasks 1 and 2 hold them, 3 waits; 1 puts its token back, 3 continues, 2 puts its token back: one token is free and nobody waits. -/
example : ∃ r, Prompt 2 r ∧ r.holders.length < 2 ∧ r.sem.granted = none ∧ 3 ∈ r.holders := by
  have a := Prompt.resume (Prompt.get 2 (Prompt.resume (Prompt.get 1 (Prompt.init (n := 2)))))
  have b := Prompt.resume (Prompt.put 1 (by decide) (by decide) (Prompt.get 3 a))
  exact ⟨_, Prompt.put 2 (by decide) (by decide) b, by decide, by decide, by decide⟩

/-- C187: with one token nobody waits for nothing: if the token is free, the first waiting task has been woken. -/
theorem C187_no_lost_token_partial (r : Run) (h : Reach 1 r) (hf : r.holders = []) : r.sem.granted = none → queue r.sem = [] := by
  obtain ⟨h1, h2, h3, h4, h5, h6, h7, h8⟩ := reach_inv (by omega) h
  intro hg
  simp only [queue, hg, Option.toList_none, List.nil_append, List.map_eq_nil_iff]
  apply h7
  cases hh : r.sem.held with
  | false => rfl
  | true =>
    exfalso
    have hl : r.sem.locked = true := by
      rcases h5.1 hh with h | h
      · exact h
      · simp [hg] at h
    -- with one token, `locked` means that the token is out
    have key : ∀ r, Reach 1 r → r.sem.locked = true → r.holders ≠ [] := by
      intro r hr
      induction hr with
      | init => simp [create]
      | @next r r' hr hs ih =>
        have hi := reach_inv (by omega) hr
        intro hl
        cases hs with
        | get t =>
          simp only [step, get] at hl ⊢
          have := hi.max
          have := hi.count
          have c1 : ¬ r.sem.count > 1 := by omega
          have c2 : ¬ (1 : Int) > r.sem.max := by omega
          simp only [c1, if_false, c2] at hl ⊢
          cases c3 : r.sem.held with
          | true => simp only [c3, if_true] at hl ⊢; simpa using ih hl
          | false => simp only [c3, Bool.false_eq_true, if_false] at hl ⊢; simpa using ih hl
        | resume =>
          simp only [step, resume] at hl ⊢
          cases hg : r.sem.granted with
          | none => simp only [hg] at hl ⊢; simpa using ih hl
          | some w => simp
        | put t ht =>
          exfalso
          have := hi.count
          have := hi.max
          have hlen := List.length_pos_of_mem ht
          simp only [step, put] at hl
          have c1 : r.sem.count < r.sem.max := by omega
          simp only [c1, if_true] at hl
          cases c2 : r.sem.locked with
          | false => simp [c2] at hl
          | true =>
            simp only [c2, if_true, release] at hl
            cases hw : r.sem.waiting <;> simp [hw] at hl
    exact key r h hl hf

/-- The semaphore after events. -/
def after (s : Sem) (es : List Ev) : Sem := es.foldl (fun s e => (step s e).1) s

/-- C187 fails with two tokens: tasks 1 and 2 hold them, 3 and 4 wait.  Both tokens are put back before task 3 continues: task 4 is not woken although a token is free. -/
theorem C187_lost_token_fails :
    let s := after (create 2) [.get 1 1, .get 2 1, .resume, .get 3 1, .get 4 1, .put 1 1, .put 2 1, .resume]
    s.count = 1 ∧ queue s = [4] ∧ s.granted = none := by decide

/-- C188 fails: a task can get more tokens than there are: with one of two tokens out, `get(2)` succeeds. -/
theorem C188_several_tokens_fails :
    let s := after (create 2) [.get 1 1, .get 2 2]
    s.granted = some (2, 2) ∧ (step s .resume).2 = some (2, 2) ∧ (step s .resume).1.count = -1 := by decide

/-- C188 fails: `try_get()` can take the token that a waiting task has been promised: two tasks hold the only token. -/
theorem C188_try_get_fails :
    (step (after (create 1) [.get 1 1]) (.tryGet 2 1)).2 = some (2, 1) ∧
    (step (after (create 1) [.get 1 1, .tryGet 2 1]) .resume).2 = some (1, 1) := by decide

/-- C188 fails: after `try_get()` took the last token, `get()` does not wait. -/
theorem C188_get_after_try_get_fails :
    (step (create 1) (.tryGet 2 1)).2 = some (2, 1) ∧ (step (after (create 1) [.tryGet 2 1, .get 1 1]) .resume).2 = some (1, 1) := by decide

/-- C188: tokens put back are counted, all of them, as long as the semaphore is not full; a call that finds more tokens than it asks for takes them at once. -/
theorem C188_counts_partial (s : Sem) (t : Nat) (k : Int) :
    (s.count < s.max → (put s k).count = s.count + k) ∧ (s.count > k → get s t k = ({ s with count := s.count - k }, .got)) := by
  refine ⟨fun h => ?_, fun h => by simp [get, h]⟩
  simp only [put, h, if_true]
  split
  · simp only [release]; split <;> rfl
  · rfl

/-- C188: a call for more tokens than the semaphore has is refused; `try_get(k)` succeeds exactly when `k` tokens are left, and takes them; tokens put back to a
full semaphore are dropped. -/
theorem C188_refusals_partial (s : Sem) (t : Nat) (k : Int) :
    (s.count ≤ k → k > s.max → get s t k = (s, .raised)) ∧ ((tryGet s k).2 = .got ↔ s.count ≥ k) ∧
    ((tryGet s k).2 = .got → (tryGet s k).1 = { s with count := s.count - k }) ∧ ((tryGet s k).2 ≠ .got → (tryGet s k).1 = s) ∧ (s.count ≥ s.max → put s k = s) := by
  refine ⟨?_, ?_, ?_, ?_, ?_⟩
  · intro h1 h2
    have : ¬ s.count > k := by omega
    simp [get, this, h2]
  · by_cases h : s.count ≥ k <;> simp [tryGet, h]
  · by_cases h : s.count ≥ k <;> simp [tryGet, h]
  · by_cases h : s.count ≥ k <;> simp [tryGet, h]
  · intro h
    have : ¬ s.count < s.max := by omega
    simp [put, this]

-- a run in which one task waits for the other
example : ∃ r, Reach 1 r ∧ r.holders = [2] ∧ queue r.sem = [] := by
  have h0 := Reach.init (n := 1)
  have h1 := h0.next (.get 1)
  have h2 := h1.next .resume
  have h3 := h2.next (.get 2)
  have h4 := h3.next (.put 1 (by decide))
  have h5 := h4.next .resume
  exact ⟨_, h5, by decide, by decide⟩

end Verif.Semaphore
