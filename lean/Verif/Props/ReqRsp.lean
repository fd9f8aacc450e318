import Verif.Lemmas.ReqRsp
import Verif.Props.TlmFifo
namespace Verif.ReqRsp
open Verif
variable {α : Type}

/-- C155. Whatever calls are made through whatever end points, in every interleaving: the requests taken so far,
followed by those still stored, are exactly the requests put, in order, and the same for responses; nothing put on one
side ever shows up on the other. -/
theorem C155_order (n m : Int) (es : List (Ev α)) (f : Fifo) :
    let r := run step (init n m) es
    takesOn f r.2 ++ stored r.1 f = putsOn f r.2 := by
  intro r
  obtain ⟨h1, h2⟩ := run_side (init n m : State α) es f
  have hs : ∃ k, side (init n m : State α) f = TlmFifo.init k := by
    cases f
    · exact ⟨n, rfl⟩
    · exact ⟨m, rfl⟩
  obtain ⟨k, hk⟩ := hs
  have hq : stored r.1 f = (side r.1 f).m.queue := by cases f <;> rfl
  have := TlmFifo.C42_order (α := α) k (eventsOn f es)
  rw [hq, takesOn, putsOn, flatMap_outsOn, flatMap_outsOn]
  show (outsOn f (run step (init n m) es).2).flatMap _ ++ (side (run step (init n m) es).1 f).m.queue = _
  rw [h1, h2, hk]
  exact this

/-- C155. The observers of `request_ap` have seen exactly the requests put, those of `response_ap` exactly the
responses put, in order. -/
theorem C155_analysis_ports (n m : Int) (es : List (Ev α)) (f : Fifo) :
    let r := run step (init n m) es
    shown r.1 f = putsOn f r.2 := by
  intro r
  obtain ⟨h1, h2⟩ := run_side (init n m : State α) es f
  have hs : ∃ k, side (init n m : State α) f = TlmFifo.init k := by
    cases f
    · exact ⟨n, rfl⟩
    · exact ⟨m, rfl⟩
  obtain ⟨k, hk⟩ := hs
  have hq : shown r.1 f = (side r.1 f).putSeen := by cases f <;> rfl
  have := TlmFifo.C42_put_ap (α := α) k (eventsOn f es)
  rw [hq, putsOn, flatMap_outsOn]
  show (side (run step (init n m) es).1 f).putSeen = _
  rw [h1, h2, hk]
  exact this

/-- C155. The size given for each side bounds what that side holds, whatever happens on the other. -/
theorem C155_capacity (n m : Int) (es : List (Ev α)) :
    let s := (run step (init n m) es).1
    (0 < n → ((stored s .request).length : Int) ≤ n) ∧ (0 < m → ((stored s .response).length : Int) ≤ m) := by
  intro s
  obtain ⟨h1, -⟩ := run_side (init n m : State α) es .request
  obtain ⟨g1, -⟩ := run_side (init n m : State α) es .response
  refine ⟨fun h => ?_, fun h => ?_⟩
  · have := (TlmFifo.C42_capacity (α := α) n (eventsOn .request es)).1 h
    have e : s.request = runS TlmFifo.step (TlmFifo.init n) (eventsOn .request es) := h1
    rw [stored, e]; exact this
  · have := (TlmFifo.C42_capacity (α := α) m (eventsOn .response es)).1 h
    have e : s.response = runS TlmFifo.step (TlmFifo.init m) (eventsOn .response es) := g1
    rw [stored, e]; exact this

/-- C155. No lost wake-ups across the channel: after every history a coroutine suspended in `get` or `peek` on a side
with no wake-up pending means that side is empty, one suspended in `put` means it is full. -/
theorem C155_no_lost_wakeup (n m : Int) (es : List (Ev α)) (t : Nat) :
    let s := (run step (init n m) es).1
    ((Mailbox.StuckGet s.request.m t ∨ Mailbox.StuckPeek s.request.m t) → stored s .request = []) ∧
    ((Mailbox.StuckGet s.response.m t ∨ Mailbox.StuckPeek s.response.m t) → stored s .response = []) ∧
    (Mailbox.StuckPut s.request.m t → 0 < n ∧ ((stored s .request).length : Int) = n) ∧
    (Mailbox.StuckPut s.response.m t → 0 < m ∧ ((stored s .response).length : Int) = m) := by
  intro s
  have e : s.request = runS TlmFifo.step (TlmFifo.init n) (eventsOn .request es) :=
    (run_side (init n m : State α) es .request).1
  have g : s.response = runS TlmFifo.step (TlmFifo.init m) (eventsOn .response es) :=
    (run_side (init n m : State α) es .response).1
  have he := TlmFifo.C42_no_lost_wakeup (α := α) n (eventsOn .request es) t
  have hg := TlmFifo.C42_no_lost_wakeup (α := α) m (eventsOn .response es) t
  simp only [stored, e, g]
  exact ⟨fun h => h.elim he.1 he.2.1, fun h => h.elim hg.1 hg.2.1, he.2.2, hg.2.2⟩

/-- C155. Every end point does what its role says: a call of the put interface through it adds to the side(s) it puts
on and to no other, a call of the get interface takes from the side it gets from, and where the role has no such
direction the call raises and nothing happens. -/
theorem C155_roles (s : State α) (e : End) (c : Call α) :
    (step s (.call e c)).2.1 =
      (if c.isPut then
        (if (role e).putsRequests then some .request else if (role e).putsResponses then some .response else none)
       else
        (if (role e).getsRequests then some .request else if (role e).getsResponses then some .response else none)) ∧
    ((step s (.call e c)).2.1 = none → (step s (.call e c)).2.2 = .raised ∧ (step s (.call e c)).1 = s) ∧
    ((step s (.call e c)).2.1 ≠ some .request → (step s (.call e c)).1.request = s.request) ∧
    ((step s (.call e c)).2.1 ≠ some .response → (step s (.call e c)).1.response = s.response) := by
  cases e <;> cases c <;>
    simp [step, target, Call.isPut, putTarget, getTarget, role, masterExport, slaveExport, atFifo]

/-- What an empty or non-empty side does with a non-blocking call: `try_put` through the master succeeds exactly when
the request side has room and then the request is the last one stored; `try_get` through the slave takes the oldest. -/
theorem C155_try (s : State α) (x : α) (l : List α) :
    (step s (.call .slave (.tryGet l))).2.2 =
      (match s.request.m.queue with | [] => .tryGet false l | y :: _ => .tryGet true (l ++ [y])) ∧
    (step s (.call .master (.tryGet l))).2.2 =
      (match s.response.m.queue with | [] => .tryGet false l | y :: _ => .tryGet true (l ++ [y])) ∧
    (step s (.call .master (.tryPut x))).2.2 = (TlmFifo.step s.request (.tryPut x)).2 ∧
    (step s (.call .slave (.tryPut x))).2.2 = (TlmFifo.step s.response (.tryPut x)).2 := by
  refine ⟨?_, ?_, rfl, rfl⟩
  · exact (TlmFifo.C42_try_get s.request l).1
  · exact (TlmFifo.C42_try_get s.response l).1

/-- C155. Blocking calls of the master, after every history: `put` completes at once and stores the request last
exactly when the request side is unbounded or has room, otherwise it is suspended and nothing is stored; `get` takes the
oldest response, or is suspended when there is none. -/
theorem C155_blocking_master (n m : Int) (es : List (Ev α)) (t : Nat) (x : α) :
    let s := (run step (init n m) es).1
    (s.request.m.tasks t = .idle →
      (n ≤ 0 ∨ ((stored s .request).length : Int) < n →
        (step s (.call .master (.put t x))).2 = (some .request, .putDone t x) ∧
        stored (step s (.call .master (.put t x))).1 .request = stored s .request ++ [x]) ∧
      (0 < n ∧ n ≤ ((stored s .request).length : Int) →
        (step s (.call .master (.put t x))).2 = (some .request, .blocked) ∧
        stored (step s (.call .master (.put t x))).1 .request = stored s .request)) ∧
    (s.response.m.tasks t = .idle →
      (stored s .response = [] → (step s (.call .master (.get t))).2 = (some .response, .blocked)) ∧
      (∀ y q, stored s .response = y :: q → (step s (.call .master (.get t))).2 = (some .response, .gotten t y) ∧
        stored (step s (.call .master (.get t))).1 .response = q)) := by
  intro s
  have e : s.request = runS TlmFifo.step (TlmFifo.init n) (eventsOn .request es) :=
    (run_side (init n m : State α) es .request).1
  have hk : s.request.m.maxSize = n := by rw [e]; exact (TlmFifo.reach_inv n _).size
  refine ⟨fun hi => ?_, fun hi => ?_⟩
  · obtain ⟨h1, h2⟩ := fifo_put s.request t x n hk hi
    exact ⟨fun h => ⟨Prod.ext rfl (h2 h).1, (h2 h).2⟩, fun h => ⟨Prod.ext rfl (h1 h).1, (h1 h).2⟩⟩
  · obtain ⟨h1, h2⟩ := fifo_get s.response t hi
    exact ⟨fun h => Prod.ext rfl (h1 h).1, fun y q h => ⟨Prod.ext rfl (h2 y q h).1, (h2 y q h).2⟩⟩

/-- C155. Blocking calls of the slave: the mirror image. -/
theorem C155_blocking_slave (n m : Int) (es : List (Ev α)) (t : Nat) (x : α) :
    let s := (run step (init n m) es).1
    (s.response.m.tasks t = .idle →
      (m ≤ 0 ∨ ((stored s .response).length : Int) < m →
        (step s (.call .slave (.put t x))).2 = (some .response, .putDone t x) ∧
        stored (step s (.call .slave (.put t x))).1 .response = stored s .response ++ [x]) ∧
      (0 < m ∧ m ≤ ((stored s .response).length : Int) →
        (step s (.call .slave (.put t x))).2 = (some .response, .blocked) ∧
        stored (step s (.call .slave (.put t x))).1 .response = stored s .response)) ∧
    (s.request.m.tasks t = .idle →
      (stored s .request = [] → (step s (.call .slave (.get t))).2 = (some .request, .blocked)) ∧
      (∀ y q, stored s .request = y :: q → (step s (.call .slave (.get t))).2 = (some .request, .gotten t y) ∧
        stored (step s (.call .slave (.get t))).1 .request = q)) := by
  intro s
  have e : s.response = runS TlmFifo.step (TlmFifo.init m) (eventsOn .response es) :=
    (run_side (init n m : State α) es .response).1
  have hk : s.response.m.maxSize = m := by rw [e]; exact (TlmFifo.reach_inv m _).size
  refine ⟨fun hi => ?_, fun hi => ?_⟩
  · obtain ⟨h1, h2⟩ := fifo_put s.response t x m hk hi
    exact ⟨fun h => ⟨Prod.ext rfl (h2 h).1, (h2 h).2⟩, fun h => ⟨Prod.ext rfl (h1 h).1, (h1 h).2⟩⟩
  · obtain ⟨h1, h2⟩ := fifo_get s.request t hi
    exact ⟨fun h => Prod.ext rfl (h1 h).1, fun y q h => ⟨Prod.ext rfl (h2 y q h).1, (h2 y q h).2⟩⟩

/-- C155. A served channel: if the responses put are the answers `f` to the first requests taken, in the order they
were taken, then the responses the master gets are the answers to the first requests put, in the order they were put:
the k-th response belongs to the k-th request. -/
theorem C155_served (n m : Int) (es : List (Ev α)) (f : α → α)
    (hs : putsOn .response (run step (init n m) es).2 <+: (takesOn .request (run step (init n m) es).2).map f) :
    takesOn .response (run step (init n m) es).2 <+: (putsOn .request (run step (init n m) es).2).map f := by
  have h1 := C155_order (α := α) n m es .request
  have h2 := C155_order (α := α) n m es .response
  have a : takesOn .response (run step (init n m) es).2 <+: putsOn .response (run step (init n m) es).2 := by
    rw [← h2]; exact List.prefix_append _ _
  have b : (takesOn .request (run step (init n m) es).2).map f <+: (putsOn .request (run step (init n m) es).2).map f := by
    rw [← h1, List.map_append]; exact List.prefix_append _ _
  exact a.trans (hs.trans b)

/-- Two requests in flight, a blocking master and a polling slave, an observer: the hypotheses are met and the master
has its first answer. -/
example :
    let r := run step (init 0 1 : State Nat)
      [.call .master (.put 1 10), .call .putRequest (.tryPut 20), .call .master (.get 2), .call .slave (.tryGet []),
       .call .slave (.put 3 11), .resume .response 2, .call .getPeekRequest (.get 4), .call .slave (.tryPut 21)]
    takesOn .request r.2 = [10, 20] ∧ putsOn .request r.2 = [10, 20] ∧ putsOn .response r.2 = [11, 21] ∧
    takesOn .response r.2 = [11] ∧ stored r.1 .response = [21] ∧ shown r.1 .response = [11, 21] ∧
    putsOn .response r.2 <+: (takesOn .request r.2).map (· + 1) := by decide

/-- C156 fails: `await port.get(...)` through any port, export or implementation evaluates to nothing, whatever was
taken out; only a direct call of the FIFO returns the transaction. -/
theorem C156_value_fails (t : Nat) (x : α) (l : List (Option α)) (y : Option α) :
    (handedBack false (.gotten t x)).1 = none ∧ (handedBack false (.peeked t y l)).1 = none ∧
    (handedBack true (.gotten t x)).1 = some x ∧ (handedBack true (.peeked t y l)).1 = y := ⟨rfl, rfl, rfl, rfl⟩

/-- C156 fails in a run: the master's `get` completes, the answer is gone from the channel, and the value the caller
awaits is nothing. -/
theorem C156_run_fails :
    let r := run step (init 1 1 : State Nat) [.call .slave (.put 1 5), .call .master (.get 2)]
    r.2.map (fun o => (handedBack false o.2).1) = [none, none] ∧ takesOn .response r.2 = [5] ∧
    stored r.1 .response = [] := by decide

/-- C156, part: in every state the transaction a blocking `get` took out is the oldest one stored on the side it was
called for, and it is the one appended to the list the caller passed.
Missing: the value of the `await` expression (`C156_value_fails`), and `peek`, which appends twice (C104). -/
theorem C156_list_partial (s : State α) (e : Ev α) (t : Nat) (x : α) (f : Fifo)
    (h : (step s e).2 = (some f, .gotten t x)) :
    (handedBack false (step s e).2.2).2 = [x] ∧ stored s f = x :: stored (step s e).1 f := by
  obtain ⟨h1, h2, -⟩ := step_side s e f
  rw [h] at h1 h2
  obtain ⟨h2a, h2b⟩ := h2 h1.symm
  rw [h]
  refine ⟨rfl, ?_⟩
  have hq : ∀ u : State α, stored u f = (side u f).m.queue := by intro u; cases f <;> rfl
  have := (TlmFifo.acc_step (side s f) (fifoEv e)).queue
  rw [← h2b, ← h2a] at this
  rw [hq, hq]
  simpa [TlmFifo.putBy, TlmFifo.takenBy] using this

example : (step (run step (init 1 1 : State Nat) [.call .slave (.put 1 5)]).1 (.call .master (.get 2))).2 =
    (some .response, .gotten 2 5) := by decide

end Verif.ReqRsp
