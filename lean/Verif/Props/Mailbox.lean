import Verif.Lemmas.Mailbox
/-! # C03, C04: the mailbox under every schedule -/
namespace Verif.Mailbox
variable {α : Type}

/-- C03. For every bound, every set of coroutines and every schedule: the items handed out by
completed gets, followed by the items still stored, are exactly the items of completed puts,
in completion order. -/
theorem C03_mailbox_fifo_every_schedule (size : Int) (sched : List (Ev α)) :
    (run step (init size) sched).2.filterMap delivered ++ (run step (init size) sched).1.queue =
      (run step (init size) sched).2.filterMap accepted := by
  have := run_account (init size : State α) sched
  simpa [init] using this.symm

/-- C03. A positive bound is never exceeded, under every schedule. -/
theorem C03_mailbox_capacity (size : Int) (hs : 0 < size) (sched : List (Ev α)) :
    ((runS step (init size) sched).queue.length : Int) ≤ size :=
  (reach_inv size sched).cap hs

/-- C03. The internal consistency exception of `get` is never raised. -/
theorem C03_mailbox_never_raises (size : Int) (sched : List (Ev α)) :
    .raised ∉ (run step (init size : State α) sched).2 := run_not_raised _ _

/-- C03. `try_put` succeeds exactly when there is room, `try_get` and `try_peek` exactly when an item is
stored; `try_peek` and a failed `try_*` leave the stored items unchanged. -/
theorem C03_mailbox_try_calls (s : State α) (x : α) :
    (step s (.tryPut x)).2 = .tryPut x (decide (s.maxSize ≤ 0 ∨ (s.queue.length : Int) < s.maxSize)) ∧
    (step s .tryGet).2 = .tryGet s.queue.head? ∧
    (step s .tryPeek).2 = .tryPeek s.queue.head? ∧ (step s .tryPeek).1 = s ∧
    (¬ (s.maxSize ≤ 0 ∨ (s.queue.length : Int) < s.maxSize) → (step s (.tryPut x)).1 = s) ∧
    (s.queue = [] → (step s .tryGet).1 = s) := by
  refine ⟨?_, ?_, ?_, ?_, ?_, ?_⟩
  · simp only [step, canPut]
    by_cases h1 : s.maxSize ≤ 0
    · simp [h1]
    · by_cases h2 : (s.queue.length : Int) < s.maxSize <;> simp [h1, h2]
  · cases h : s.queue <;> simp [step, canGet, h]
  · cases h : s.queue <;> simp [step, canGet, h]
  · simp only [step]; split <;> rfl
  · intro h
    simp only [not_or] at h
    have : canPut s = false := by simp [canPut, h.1, h.2]
    simp [step, this]
  · intro h; simp [step, canGet, h]

/-- C04. No lost wake-ups: under every schedule, a coroutine suspended in `get` or `peek` with no wake-up
pending implies the mailbox is empty, and one suspended in `put` with no wake-up pending implies it is full. -/
theorem C04_mailbox_no_lost_wakeup (size : Int) (sched : List (Ev α)) (t : Nat) :
    let s := runS step (init size) sched
    (StuckGet s t → s.queue = []) ∧ (StuckPeek s t → s.queue = []) ∧
      (StuckPut s t → 0 < size ∧ (s.queue.length : Int) = size) := by
  have h := reach_inv (α := α) size sched
  exact ⟨fun hs => h.noLostGet t (.inl hs), fun hs => h.noLostGet t (.inr hs), fun hs => h.noLostPut t hs⟩

/-- C04. Consequently a producer and a consumer are never both stuck: there is no deadlock between them. -/
theorem C04_mailbox_no_deadlock (size : Int) (sched : List (Ev α)) (t u : Nat)
    (ht : StuckGet (runS step (init size) sched) t) : ¬ StuckPut (runS step (init size) sched) u := by
  intro hu
  have h1 := C04_mailbox_no_lost_wakeup size sched t
  have h2 := C04_mailbox_no_lost_wakeup size sched u
  have e := h1.1 ht
  have := h2.2.2 hu
  rw [e] at this; simp at this; omega

/-- C04. An unbounded mailbox (size ≤ 0) never suspends a producer. -/
theorem C04_mailbox_unbounded_put_never_blocks (size : Int) (hs : size ≤ 0) (sched : List (Ev α)) (t : Nat) (x : α)
    (ht : (runS step (init size) sched).tasks t = .idle) :
    (step (runS step (init size) sched) (.callPut t x)).2 = .putDone t x := by
  have h := reach_inv (α := α) size sched
  simp [step, ht, putLoop, canPut, h.size, hs]

/-- C03. `num()` only tells whether anything is stored (it is a Bool, see C43), and changes nothing. -/
theorem C03_num_is_nonempty (s : State α) :
    step s .num = (s, .num (decide (s.queue ≠ []))) := by
  cases h : s.queue <;> simp [step, h]

/-- C86 fails for blocking `peek`: after its single wait it does not re-check, so when another consumer
takes the item first, `peek` completes with no item (`None`). -/
theorem C86_peek_may_return_none_fails :
    (run step (init 0) [.callGet 1, .callPeek 2, .callPut 3 (7 : Nat), .resume 1, .resume 2]).2 =
      [.blocked, .blocked, .putDone 3 7, .gotten 1 7, .peeked 2 none] := by decide

/-- C86 (part that holds for `peek`): a peek that completes with an item returns the oldest stored item,
and peeking never changes the stored items. -/
theorem C86_peek_front_partial (s : State α) (t u : Nat) (r : Option α) :
    (∀ e, (e = .callPeek t ∨ (e = .resume t ∧ s.tasks t = .peekWoken)) → (step s e).2 = .peeked u r →
      u = t ∧ r = s.queue.head? ∧ (step s e).1.queue = s.queue) := by
  intro e he ho
  rcases he with rfl | ⟨rfl, ht⟩
  · simp only [step] at ho ⊢
    split at ho
    · split at ho
      · simp at ho
      · next h hc => simp [peekTail] at ho; rw [if_neg hc]; simp [peekTail, setTask, ho]
    · simp at ho
  · simp only [step, ht, peekTail] at ho ⊢
    simp at ho
    simp [setTask, ho]

-- Non-vacuity: two producers and two consumers on a mailbox of size 1; everybody really blocks.
def sampleSched : List (Ev Nat) :=
  [.callGet 1, .callGet 2, .callPut 3 10, .callPut 4 11, .callPut 5 12, .resume 2, .resume 1, .resume 4, .resume 5,
   .resume 1]

example : (run step (init 1) sampleSched).2 =
    [.blocked, .blocked, .putDone 3 10, .blocked, .blocked, .gotten 2 10, .blocked, .putDone 4 11, .blocked,
     .gotten 1 11] := by decide
example : StuckGet (runS step (init 1) [.callGet 1, .callPeek 2] : State Nat) 1 := rfl
example : ∃ x, (runS step (init 1) [.callPut 1 5, .callPut 2 6] : State Nat).tasks 2 = .putWait x :=
  ⟨6, by decide⟩

end Verif.Mailbox
