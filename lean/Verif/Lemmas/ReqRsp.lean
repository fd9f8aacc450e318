import Verif.Spec.ReqRsp
import Verif.Lemmas.TlmFifo
namespace Verif.ReqRsp
open Verif
variable {α : Type}

/-- The state of one side. -/
def side (s : State α) : Fifo → TlmFifo.State α
  | .request => s.request
  | .response => s.response

/-- The events that reach a side, as events of that side's FIFO. -/
def eventsOn (f : Fifo) (es : List (Ev α)) : List (TlmFifo.Ev α) :=
  es.filterMap fun e => if target e = some f then some (fifoEv e) else none

/-- The results of one side. -/
def outsOn (f : Fifo) (os : List (Option Fifo × TlmFifo.Out α)) : List (TlmFifo.Out α) :=
  os.filterMap fun o => if o.1 = some f then some o.2 else none

theorem step_side (s : State α) (e : Ev α) (f : Fifo) :
    (step s e).2.1 = target e ∧
    (target e = some f → side (step s e).1 f = (TlmFifo.step (side s f) (fifoEv e)).1 ∧
      (step s e).2.2 = (TlmFifo.step (side s f) (fifoEv e)).2) ∧
    (target e ≠ some f → side (step s e).1 f = side s f) := by
  unfold step
  cases ht : target e with
  | none => simp
  | some g =>
    refine ⟨rfl, ?_, ?_⟩
    · intro h
      cases h
      cases f <;> exact ⟨rfl, rfl⟩
    · intro h
      cases g <;> cases f <;> first | rfl | exact absurd rfl h

theorem run_side (s : State α) (es : List (Ev α)) (f : Fifo) :
    side (run step s es).1 f = (run TlmFifo.step (side s f) (eventsOn f es)).1 ∧
    outsOn f (run step s es).2 = (run TlmFifo.step (side s f) (eventsOn f es)).2 := by
  induction es generalizing s with
  | nil => exact ⟨rfl, rfl⟩
  | cons e es ih =>
    obtain ⟨h1, h2, h3⟩ := step_side s e f
    obtain ⟨i1, i2⟩ := ih (step s e).1
    by_cases h : target e = some f
    · obtain ⟨h2a, h2b⟩ := h2 h
      have he : eventsOn f (e :: es) = fifoEv e :: eventsOn f es := by simp [eventsOn, h]
      have ho : outsOn f (run step s (e :: es)).2 = (step s e).2.2 :: outsOn f (run step (step s e).1 es).2 := by
        simp [run, outsOn, h1, h]
      rw [he, ho]
      simp only [run, i1, i2, h2a, h2b]
      exact ⟨trivial, trivial⟩
    · have he : eventsOn f (e :: es) = eventsOn f es := by simp [eventsOn, h]
      have ho : outsOn f (run step s (e :: es)).2 = outsOn f (run step (step s e).1 es).2 := by
        simp [run, outsOn, h1, h]
      rw [he, ho]
      simp only [run, i1, i2, h3 h]
      exact ⟨trivial, trivial⟩

theorem flatMap_outsOn {β : Type} (f : Fifo) (g : TlmFifo.Out α → List β) (os : List (Option Fifo × TlmFifo.Out α)) :
    (os.flatMap fun o => if o.1 = some f then g o.2 else []) = (outsOn f os).flatMap g := by
  induction os with
  | nil => rfl
  | cons o os ih =>
    by_cases h : o.1 = some f <;> simp [outsOn, h, List.flatMap_cons] <;>
      simpa [outsOn] using ih

/-- A blocking `put` by an idle coroutine: suspended when there is no room, else stored at the end. -/
theorem fifo_put (s : TlmFifo.State α) (t : Nat) (x : α) (k : Int) (hk : s.m.maxSize = k) (hi : s.m.tasks t = .idle) :
    (0 < k ∧ k ≤ (s.m.queue.length : Int) → (TlmFifo.step s (.callPut t x)).2 = .blocked ∧
      (TlmFifo.step s (.callPut t x)).1.m.queue = s.m.queue) ∧
    (k ≤ 0 ∨ (s.m.queue.length : Int) < k → (TlmFifo.step s (.callPut t x)).2 = .putDone t x ∧
      (TlmFifo.step s (.callPut t x)).1.m.queue = s.m.queue ++ [x]) := by
  subst hk
  constructor
  · intro h
    have hc : Mailbox.canPut s.m = false := by
      have : ¬ s.m.maxSize ≤ 0 := by omega
      simp [Mailbox.canPut, this]; omega
    simp [TlmFifo.step, Mailbox.step, hi, Mailbox.putLoop, hc, TlmFifo.after, Mailbox.waitRead, Mailbox.setTask]
  · intro h
    have hc : Mailbox.canPut s.m = true := by
      unfold Mailbox.canPut; split
      · rfl
      · simp; omega
    simp [TlmFifo.step, Mailbox.step, hi, Mailbox.putLoop, hc, TlmFifo.after, Mailbox.setWrite, Mailbox.setTask]

/-- A blocking `get` by an idle coroutine: suspended when nothing is stored, else it takes the oldest. -/
theorem fifo_get (s : TlmFifo.State α) (t : Nat) (hi : s.m.tasks t = .idle) :
    (s.m.queue = [] → (TlmFifo.step s (.callGet t)).2 = .blocked ∧ (TlmFifo.step s (.callGet t)).1.m.queue = []) ∧
    (∀ x q, s.m.queue = x :: q → (TlmFifo.step s (.callGet t)).2 = .gotten t x ∧
      (TlmFifo.step s (.callGet t)).1.m.queue = q) := by
  constructor
  · intro h
    simp [TlmFifo.step, Mailbox.step, hi, Mailbox.getLoop, Mailbox.canGet, h, TlmFifo.after, Mailbox.waitWrite, Mailbox.setTask]
  · intro x q h
    simp [TlmFifo.step, Mailbox.step, hi, Mailbox.getLoop, Mailbox.canGet, h, TlmFifo.after, Mailbox.setRead, Mailbox.setTask]

end Verif.ReqRsp
