import Verif.Lemmas.TlmFifo
/-! # C42, C43: TLM FIFOs under every schedule -/
namespace Verif.TlmFifo
open Verif
variable {α : Type}

/-- C42. For every size and every history of blocking and non-blocking calls under every schedule: the transactions
taken out so far, followed by those still stored, are exactly the transactions put in, in that order. -/
theorem C42_order (size : Int) (es : List (Ev α)) :
    (run step (init size) es).2.flatMap takenBy ++ (run step (init size) es).1.m.queue =
      (run step (init size) es).2.flatMap putBy := by
  have h := (run_acc (init size : State α) es).queue
  simpa [init, Mailbox.init] using h.symm

/-- C42. Observers of `put_ap` see every transaction put exactly once, in order. -/
theorem C42_put_ap (size : Int) (es : List (Ev α)) :
    (run step (init size) es).1.putSeen = (run step (init size) es).2.flatMap putBy := by
  have h := (run_acc (init size : State α) es).putSeen
  simpa [init] using h

/-- C104, part: observers of `get_ap` see every transaction taken exactly once, in order, provided `try_get` is
always handed an empty list and `flush` is not used.
Missing: those two uses (`C104_get_ap_try_get_fails`, `C104_get_ap_flush_fails`). -/
theorem C104_get_ap_partial (size : Int) (es : List (Ev α)) (hp : ∀ e ∈ es, PlainGet e) :
    (run step (init size) es).1.getSeen = (run step (init size) es).2.flatMap takenBy := by
  have h := run_getSeen (init size : State α) es hp
  simpa [init] using h

/-- C104 fails for `try_get` with a list that already holds something: the observers see the list's first element,
not the transaction taken. -/
theorem C104_get_ap_try_get_fails :
    ∃ es : List (Ev Nat), (∀ e ∈ es, e ≠ .flush) ∧
      (run step (init 0) es).2.flatMap takenBy = [7] ∧ (run step (init 0) es).1.getSeen = [3] :=
  ⟨[.tryPut 7, .tryGet [3]], by decide⟩

/-- C104 fails for `flush`: the observers of `get_ap` see the first transaction again and again. -/
theorem C104_get_ap_flush_fails :
    ∃ es : List (Ev Nat), (run step (init 0) es).2.flatMap takenBy = [1, 2, 3] ∧
      (run step (init 0) es).1.getSeen = [1, 1, 1] :=
  ⟨[.tryPut 1, .tryPut 2, .tryPut 3, .flush], by decide⟩

/-- C42. In every state `flush` removes everything that is stored, oldest first, never reports its error, and shows
`get_ap` one transaction per transaction removed, each time the oldest. -/
theorem C42_flush (s : State α) :
    (step s .flush).2 = .flushed s.m.queue false ∧ (step s .flush).1.m.queue = [] ∧
    (step s .flush).1.putSeen = s.putSeen ∧
    (step s .flush).1.getSeen = s.getSeen ++ (s.m.queue.map (fun _ => s.m.queue.head?.toList)).flatten := by
  obtain ⟨i1, i2, i3, i4, i5, i6, i7, i8⟩ := flushLoop_spec s.m.queue s [] rfl (s.m.queue.length + 1) (by omega)
  refine ⟨?_, i2, i3, ?_⟩
  · simp [step, flush, i1, num, i2]
  · simp only [step, flush]; rw [i4]; simp

/-- C42. A bounded FIFO never holds more transactions than its size; an unbounded one (size 0) accepts every
`try_put` and every `put`. -/
theorem C42_capacity (size : Int) (es : List (Ev α)) :
    (0 < size → ((runS step (init size) es).m.queue.length : Int) ≤ size) ∧
    (size = 0 → ∀ x, (step (runS step (init size) es) (.tryPut x)).2 = .tryPut x true) ∧
    (size = 0 → ∀ t x, (runS step (init size) es).m.tasks t = .idle →
      (step (runS step (init size) es) (.callPut t x)).2 = .putDone t x) := by
  have h := reach_inv (α := α) size es
  refine ⟨h.cap, ?_, ?_⟩
  · intro h0 x
    have : Mailbox.canPut (runS step (init size) es).m = true := by
      subst h0; simp [Mailbox.canPut, h.size]
    simp [step, tryPut_eq, this]
  · intro h0 t x ht
    have hc : Mailbox.canPut (runS step (init size) es).m = true := by subst h0; simp [Mailbox.canPut, h.size]
    simp [step, ht, Mailbox.step, Mailbox.putLoop, hc, after]

/-- C42. An analysis FIFO accepts every write: after any history of any calls, each `write` appends its
transaction and shows it to `put_ap`. -/
theorem C42_analysis_write (es : List (Ev α)) (x : α) :
    (step (runS step initAnalysis es) (.write x)).2 = .written x true ∧
    (step (runS step initAnalysis es) (.write x)).1.m.queue = (runS step initAnalysis es).m.queue ++ [x] ∧
    (step (runS step initAnalysis es) (.write x)).1.putSeen = (runS step initAnalysis es).putSeen ++ [x] := by
  have h := reach_inv (α := α) 0 es
  have hc : Mailbox.canPut (runS step initAnalysis es : State α).m = true := by
    unfold initAnalysis; simp [Mailbox.canPut, h.size]
  simp [step, tryPut_eq, hc, mb_tryPut_queue _ _ hc]

/-- C42. No lost wake-ups: after every history a coroutine suspended in `get` or `peek` with no wake-up pending
means the FIFO is empty, and one suspended in `put` means it is full. -/
theorem C42_no_lost_wakeup (size : Int) (es : List (Ev α)) (t : Nat) :
    let s := runS step (init size) es
    (Mailbox.StuckGet s.m t → s.m.queue = []) ∧ (Mailbox.StuckPeek s.m t → s.m.queue = []) ∧
      (Mailbox.StuckPut s.m t → 0 < size ∧ (s.m.queue.length : Int) = size) := by
  have h := reach_inv (α := α) size es
  exact ⟨fun hs => h.noLostGet t (.inl hs), fun hs => h.noLostGet t (.inr hs), fun hs => h.noLostPut t hs⟩

/-- C42. `try_peek` and a completed `peek` show the oldest stored transaction and remove nothing; the observers of
`get_ap` and `put_ap` see nothing. -/
theorem C42_try_peek (s : State α) (l : List α) :
    (step s (.tryPeek l)).2 = (match s.m.queue with | [] => .tryPeek false l | x :: _ => .tryPeek true (l ++ [x])) ∧
    (step s (.tryPeek l)).1 = s := by
  cases h : s.m.queue <;> simp [step, Mailbox.step, Mailbox.canGet, h]

/-- C42. `try_get` returns the oldest stored transaction at the end of the list, or fails and changes nothing. -/
theorem C42_try_get (s : State α) (l : List α) :
    (step s (.tryGet l)).2 = (match s.m.queue with | [] => .tryGet false l | x :: _ => .tryGet true (l ++ [x])) ∧
    (step s (.tryGet l)).1.m.queue = s.m.queue.tail ∧
    (s.m.queue = [] → (step s (.tryGet l)).1 = s) := by
  cases h : s.m.queue with
  | nil => simp [step, tryGet_nil s l h, h]
  | cons x q => simp [step, tryGet_cons s l h, mb_tryGet_queue _ h]

/-- C104 fails for `peek` with an output list: the peeked transaction is appended twice. -/
theorem C104_peek_list_fails :
    (run step (init 1) [.tryPut (5 : Nat), .callPeek 1 true]).2 = [.tryPut 5 true, .peeked 1 (some 5) [some 5, some 5]] := by
  decide

/-- C43, part: `used()` tells only whether something is stored: it is 1 for any positive number of transactions.
Missing: the count itself (`C43_used_fails`). -/
theorem C43_used_partial (s : State α) : used s = if s.m.queue = [] then 0 else 1 := by
  unfold used num
  cases h : s.m.queue <;> simp

/-- C43 fails: with two transactions stored `used()` is 1. -/
theorem C43_used_fails :
    ∃ es : List (Ev Nat), (runS step (init 0) es).m.queue.length = 2 ∧ used (runS step (init 0) es) = 1 :=
  ⟨[.tryPut 1, .tryPut 2], by decide⟩

/-- C43. `is_empty` holds exactly when nothing is stored. -/
theorem C43_is_empty (s : State α) : isEmpty s = true ↔ s.m.queue = [] := by
  unfold isEmpty num
  cases h : s.m.queue <;> simp

/-- C43, part: for sizes 0 and 1 `is_full` holds exactly when the number stored equals a non-zero size; for every
size `is_full` implies that the FIFO is full. Missing: sizes above 1 (`C43_is_full_fails`). -/
theorem C43_is_full_partial (size : Int) (es : List (Ev α)) :
    ((size = 0 ∨ size = 1) → (isFull (runS step (init size) es) = true ↔
      size ≠ 0 ∧ ((runS step (init size) es).m.queue.length : Int) = size)) ∧
    (isFull (runS step (init size) es) = true → size ≠ 0 ∧ ((runS step (init size) es).m.queue.length : Int) = size) := by
  have h := reach_inv (α := α) size es
  have hs := reach_size (α := α) size es
  have key : (isFull (runS step (init size) es) = true ↔
      size ≠ 0 ∧ (if (runS step (init size : State α) es).m.queue.length > 0 then (1 : Int) else 0) = size) := by
    simp [isFull, num, hs]
  rw [key]
  constructor
  · rintro (rfl | rfl)
    · simp
    · have := h.cap (by omega)
      by_cases hq : (runS step (init 1 : State α) es).m.queue.length > 0
      · simp [hq]; omega
      · simp [hq]; omega
  · rintro ⟨h0, h1⟩
    by_cases hq : (runS step (init size : State α) es).m.queue.length > 0
    · rw [if_pos hq] at h1
      have := h.cap (by omega)
      exact ⟨h0, by omega⟩
    · rw [if_neg hq] at h1; omega

/-- C43 fails: a FIFO of size 2 that is full says it is not. -/
theorem C43_is_full_fails :
    ∃ es : List (Ev Nat), (runS step (init 2) es).m.queue.length = 2 ∧ isFull (runS step (init 2) es) = false :=
  ⟨[.tryPut 1, .tryPut 2], by decide⟩

/-- C43, part: when a `try_put` would succeed `can_put` says so (any size from 0 up); for sizes 0 and 1 the
converse holds too. Missing: the converse for sizes above 1 (`C43_can_put_fails`). -/
theorem C43_can_put_partial (size : Int) (h0 : 0 ≤ size) (es : List (Ev α)) (x : α) :
    (tryPutOk (runS step (init size) es) x → canPut (runS step (init size) es) = true) ∧
    (size ≤ 1 → (canPut (runS step (init size) es) = true ↔ tryPutOk (runS step (init size) es) x)) := by
  have h := reach_inv (α := α) size es
  have hs := reach_size (α := α) size es
  have ok : tryPutOk (runS step (init size) es) x ↔
      (size ≤ 0 ∨ ((runS step (init size) es).m.queue.length : Int) < size) := by
    unfold tryPutOk
    simp only [step, tryPut_eq]
    have hc : Mailbox.canPut (runS step (init size : State α) es).m = true ↔
        (size ≤ 0 ∨ ((runS step (init size) es).m.queue.length : Int) < size) := by
      simp only [Mailbox.canPut, h.size]; split <;> simp <;> omega
    rw [← hc]
    by_cases hb : Mailbox.canPut (runS step (init size : State α) es).m = true <;> simp [hb]
  have cp : canPut (runS step (init size) es) = true ↔
      (size = 0 ∨ (if (runS step (init size : State α) es).m.queue.length > 0 then (1 : Int) else 0) < size) := by
    simp [canPut, num, hs]
  rw [ok, cp]
  constructor
  · rintro (h1 | h1)
    · left; omega
    · by_cases hz : size = 0
      · exact .inl hz
      · right
        split <;> omega
  · intro h1
    by_cases hz : size = 0
    · simp [hz]
    · have : size = 1 := by omega
      subst this
      by_cases hq : (runS step (init 1 : State α) es).m.queue.length > 0
      · rw [if_pos hq]; omega
      · rw [if_neg hq]; omega

/-- C43 fails: a full FIFO of size 2 says `can_put`, yet `try_put` is refused. -/
theorem C43_can_put_fails :
    ∃ es : List (Ev Nat), canPut (runS step (init 2) es) = true ∧
      (step (runS step (init 2) es) (.tryPut 9)).2 = .tryPut 9 false :=
  ⟨[.tryPut 1, .tryPut 2], by decide⟩

/-- C43. `can_peek` holds exactly when a `try_peek` would succeed. -/
theorem C43_can_peek (s : State α) (l : List α) :
    canPeek s = true ↔ ∃ x, (step s (.tryPeek l)).2 = .tryPeek true (l ++ [x]) := by
  rw [(C42_try_peek s l).1]
  unfold canPeek num
  cases h : s.m.queue <;> simp

/-- C43. When `can_get` says yes, a `try_get` succeeds. -/
theorem C43_can_get_sound (s : State α) (l : List α) (h : canGet s = true) :
    ∃ x, (step s (.tryGet l)).2 = .tryGet true (l ++ [x]) := by
  rw [(C42_try_get s l).1]
  unfold canGet num at h
  cases hq : s.m.queue with
  | nil => simp [hq] at h
  | cons x q => exact ⟨x, rfl⟩

/-- C43, part: as long as no coroutine is cancelled, `can_get` holds exactly when something is stored and no
coroutine is inside a blocking `get`. `N` is any bound on the coroutines taking part.
Missing: histories with cancelled coroutines (`C43_can_get_after_kill_fails`). -/
theorem C43_can_get_partial (size : Int) (N : Nat) (es : List (Ev α)) (hb : ∀ e ∈ es, Below N e)
    (hk : ∀ e ∈ es, NoKill e) :
    canGet (runS step (init size) es) = true ↔
      (runS step (init size) es).m.queue ≠ [] ∧ ∀ t, t < N → inGet ((runS step (init size) es).m.tasks t) = false := by
  have hp := pend_run N (init size : State α) es hb hk (by
    have : ∀ l : List Nat, (l.filter (fun u => inGet ((init size : State α).m.tasks u))).length = 0 := by
      intro l; induction l <;> simp_all [init, Mailbox.init, inGet]
    unfold getters; rw [this]; rfl)
  have hz : (runS step (init size : State α) es).pending = 0 ↔
      ∀ t, t < N → inGet ((runS step (init size) es).m.tasks t) = false := by
    rw [hp]
    unfold getters
    constructor
    · intro h t ht
      have : ((List.range N).filter (fun u => inGet ((runS step (init size : State α) es).m.tasks u))) = [] := by
        apply List.eq_nil_of_length_eq_zero; omega
      rw [List.filter_eq_nil_iff] at this
      have := this t (List.mem_range.2 ht)
      simpa using this
    · intro h
      have : ((List.range N).filter (fun u => inGet ((runS step (init size : State α) es).m.tasks u))) = [] := by
        rw [List.filter_eq_nil_iff]
        intro t ht
        rw [h t (List.mem_range.1 ht)]; simp
      rw [this]; rfl
  rw [← hz]
  unfold canGet num
  cases h : (runS step (init size : State α) es).m.queue <;> simp

/-- C43 fails after a cancelled `get`: the counter of blocked gets stays up for ever, so `can_get` says no although
a transaction is stored, nobody is waiting and `try_get` succeeds. -/
theorem C43_can_get_after_kill_fails :
    ∃ es : List (Ev Nat), canGet (runS step (init 0) es) = false ∧
      (∀ t, t < 5 → (runS step (init 0) es).m.tasks t = .idle) ∧
      (step (runS step (init 0) es) (.tryGet [])).2 = .tryGet true [4] :=
  ⟨[.callGet 1, .kill 1, .tryPut 4], by decide⟩

-- Non-vacuity: a bounded FIFO with blocked producer and consumer.
example : (run step (init 1) [.callGet 1, .callPut 2 (10 : Nat), .callPut 3 11, .resume 1, .resume 3, .tryGet []]).2 =
    [.blocked, .putDone 2 10, .blocked, .gotten 1 10, .putDone 3 11, .tryGet true [11]] := by decide
example : (runS step (init 1) [.callGet 1, .callPut 2 (10 : Nat), .callPut 3 11, .resume 1]).getSeen = [10] := by decide
example : ∀ e ∈ ([.callGet 1, .callPut 2 10, .tryGet []] : List (Ev Nat)), PlainGet e ∧ NoKill e ∧ Below 4 e := by
  simp [PlainGet, NoKill, Below]
example : canGet (runS step (init 1) [.callGet 1, .tryPut (4 : Nat)]) = false := by decide
example : canGet (runS step (init 1) [.callGet 1, .tryPut (4 : Nat), .resume 1, .tryPut 5]) = true := by decide

end Verif.TlmFifo
