import Verif.Spec.WaitMod
/-! # Properties of waiting for a resource to change, and of default sequences -/
namespace Verif.WaitMod
open Spec
variable {V : Type} [DecidableEq V]

def Inv (s : State V) : Prop := s.modified = true → ∀ t, s.tasks t ≠ .waiting

theorem inv_loop (s : State V) (t : Nat) (h : Inv s) : Inv (loop s t).1 := by
  unfold loop
  split
  · intro h'; cases h'
  · next hm =>
    split
    · intro h'; exact absurd h' hm
    · intro h'; exact absurd h' hm

theorem inv_step (s : State V) (o : Op V) (h : Inv s) : Inv (step s o).1 := by
  cases o with
  | write v =>
    simp only [step]
    split
    · exact h
    · split
      · exact h
      · intro _ t
        show (if s.tasks t = .waiting then Task.ready else s.tasks t) ≠ .waiting
        split
        · simp
        · next hn => exact hn
  | setReadOnly b => exact h
  | wait t => simp only [step]; split; exact inv_loop s t h; exact h
  | resume t => simp only [step]; split; exact inv_loop _ t h; exact h
  | cancel t =>
    intro h' u
    show (if u = t then Task.idle else s.tasks u) ≠ .waiting
    split
    · simp
    · exact h h' u

theorem inv_run (os : List (Op V)) : ∀ s, Inv s → Inv (run s os).1 := by
  induction os with
  | nil => intro s h; exact h
  | cons o os ih => intro s h; exact ih _ (inv_step s o h)

def bit (b : Bool) : Nat := if b then 1 else 0

theorem loop_count (s : State V) (t : Nat) : returns [(loop s t).2] + bit (loop s t).1.modified = bit s.modified ∧ changes [(loop s t).2] = 0 ∧ (loop s t).1.val = s.val := by
  unfold loop
  by_cases hm : s.modified = true
  · simp [hm, returns, changes, bit, put]
  · by_cases hf : s.fired = true <;> simp [hm, hf, returns, changes, bit, put]

theorem step_count (s : State V) (o : Op V) :
    returns [(step s o).2] + bit (step s o).1.modified ≤ bit s.modified + changes [(step s o).2] ∧ (step s o).1.val = last s.val [(step s o).2] := by
  have hl : ∀ (s : State V) t, (loop s t).1.val = last s.val [(loop s t).2] := by
    intro s t
    unfold loop
    by_cases hm : s.modified = true
    · simp [hm, last, put]
    · by_cases hf : s.fired = true <;> simp [hm, hf, last, put]
  cases o with
  | write v =>
    simp only [step]
    split
    · simp [returns, changes, last]
    · split
      · simp [returns, changes, last]
      · simp [returns, changes, last, bit]
  | setReadOnly b => simp [step, returns, changes, last]
  | wait t =>
    simp only [step]; split
    · have := loop_count s t; exact ⟨by omega, hl s t⟩
    · simp [returns, changes, last]
  | resume t =>
    simp only [step]; split
    · have := loop_count { s with fired := false } t; exact ⟨by simp only at this ⊢; omega, hl { s with fired := false } t⟩
    · simp [returns, changes, last]
  | cancel t => simp [step, returns, changes, last, put]

theorem returns_cons (o : Out V) (l : List (Out V)) : returns (o :: l) = returns [o] + returns l := by cases o <;> simp [returns, Nat.add_comm]
theorem changes_cons (o : Out V) (l : List (Out V)) : changes (o :: l) = changes [o] + changes l := by cases o <;> simp [changes, Nat.add_comm]
theorem last_cons (v : V) (o : Out V) (l : List (Out V)) : last v (o :: l) = last (last v [o]) l := by cases o <;> simp [last]

theorem run_count (os : List (Op V)) : ∀ s : State V, returns (run s os).2 + bit (run s os).1.modified ≤ bit s.modified + changes (run s os).2 ∧
    (run s os).1.val = last s.val (run s os).2 := by
  induction os with
  | nil => intro s; simp [run, returns, changes, last]
  | cons o os ih =>
    intro s
    have h1 := step_count s o
    have h2 := ih (step s o).1
    simp only [run]
    rw [returns_cons, changes_cons, last_cons, ← h1.2]
    exact ⟨by omega, h2.2⟩

/-- C226. In every history and schedule of a new resource: a call of `wait_modified` returns only for a change, of which it uses up one: there are never more returns than changes
(so no call returns without a change); and while a change has not been used up, no task that waits is asleep: each is runnable. -/
theorem C226_returns_for_changes (v : V) (os : List (Op V)) :
    let r := run ({ val := v } : State V) os
    returns r.2 ≤ changes r.2 ∧ r.1.val = last v r.2 ∧
    (r.1.modified = true → ∀ t, r.1.tasks t ≠ .waiting) := by
  have h := run_count os ({ val := v } : State V)
  refine ⟨?_, h.2, inv_run os _ (by intro h'; cases h')⟩
  have h1 := h.1
  simp only [bit] at h1
  simp at h1
  omega

theorem loop_ro (s : State V) (t : Nat) : (loop s t).1.readOnly = s.readOnly := by
  unfold loop
  split
  · rfl
  · split <;> rfl

/-- C226. Waiting and writing do not make a resource read-only or writable: it is what it was last made, so a write of another value changes a resource that was not made read-only. -/
theorem C226_writable (os : List (Op V)) : ∀ s : State V, (run s os).1.readOnly = lastReadOnly s.readOnly os ∧
    (lastReadOnly s.readOnly os = false → ∀ w, w ≠ (run s os).1.val → (step (run s os).1 (.write w)).2 = .changed w) := by
  have h : ∀ s : State V, (run s os).1.readOnly = lastReadOnly s.readOnly os := by
    induction os with
    | nil => intro s; rfl
    | cons o os ih =>
      intro s
      simp only [run]
      rw [ih]
      cases o with
      | write v => simp only [step, lastReadOnly]; split; rfl; split <;> rfl
      | setReadOnly b => rfl
      | wait t => simp only [step, lastReadOnly]; split; rw [loop_ro]; rfl
      | resume t => simp only [step, lastReadOnly]; split; rw [loop_ro]; rfl
      | cancel t => rfl
  intro s
  refine ⟨h s, fun hf w hw => ?_⟩
  have hro := (h s).trans hf
  simp [step, hro, Ne.symm hw]

example : lastReadOnly false ([.setReadOnly true, .wait 1, .setReadOnly false, .write 3] : List (Op Nat)) = false := by decide

/-- C226. A change is not lost: whenever the value changes while tasks wait, all of them become runnable and the first of them that runs returns. -/
theorem C226_change_wakes (v w : V) (os : List (Op V)) (t : Nat) (hw : (run ({ val := v } : State V) os).1.tasks t ≠ .idle)
    (hro : (run ({ val := v } : State V) os).1.readOnly = false) (hne : (run ({ val := v } : State V) os).1.val ≠ w) :
    let s := (step (run ({ val := v } : State V) os).1 (.write w)).1
    s.val = w ∧ s.tasks t = .ready ∧ (step s (.resume t)).2 = .returned t := by
  generalize (run ({ val := v } : State V) os).1 = s0 at *
  have e : (step s0 (.write w)).1 = { s0 with val := w, modified := true, fired := true, tasks := fun u => if s0.tasks u = .waiting then .ready else s0.tasks u } := by
    simp [step, hro, hne]
  have ht : (if s0.tasks t = .waiting then Task.ready else s0.tasks t) = .ready := by
    cases h : s0.tasks t <;> simp_all
  simp only [e]
  refine ⟨trivial, ht, ?_⟩
  simp only [step]
  rw [if_pos ht]
  simp [loop]

/-- Two tasks wait; the value changes; one returns. -/
example : (run ({ val := 0 } : State Nat) [.wait 1, .wait 2]).1.tasks 1 ≠ .idle ∧ (run ({ val := 0 } : State Nat) [.wait 1, .wait 2]).1.readOnly = false ∧
    (run ({ val := 0 } : State Nat) [.wait 1, .wait 2]).1.val ≠ 5 := by decide

/-- C227, violated: of two or more tasks that wait when the value changes, the first to run returns and the others wait again, whichever they are. -/
theorem C227_all_released_fails (v w : V) (hne : v ≠ w) (t u : Nat) (htu : t ≠ u) :
    let r := run ({ val := v } : State V) [.wait t, .wait u, .write w, .resume t, .resume u]
    r.2 = [.nothing, .nothing, .changed w, .returned t, .nothing] ∧ r.1.tasks u = .waiting ∧ ∀ os, (∀ o ∈ os, o = .resume t ∨ o = .resume u) → (run r.1 os).1.tasks u = .waiting := by
  have hut : u ≠ t := fun e => htu e.symm
  have e1 : (run ({ val := v } : State V) [.wait t, .wait u, .write w, .resume t, .resume u]).2 = [.nothing, .nothing, .changed w, .returned t, .nothing] := by
    simp [run, step, loop, put, hne, htu, hut]
  have e2 : (run ({ val := v } : State V) [.wait t, .wait u, .write w, .resume t, .resume u]).1.tasks u = .waiting := by
    simp [run, step, loop, put, hne, htu, hut]
  have e3 : (run ({ val := v } : State V) [.wait t, .wait u, .write w, .resume t, .resume u]).1.tasks t = .idle := by
    simp [run, step, loop, put, hne, htu, hut]
  refine ⟨e1, e2, ?_⟩
  generalize (run ({ val := v } : State V) [.wait t, .wait u, .write w, .resume t, .resume u]).1 = s at e2 e3
  intro os
  induction os generalizing s with
  | nil => intro _; exact e2
  | cons o os ih =>
    intro ho
    have hs : (step s o).1 = s := by
      rcases ho o (by simp) with rfl | rfl
      · simp [step, e3]
      · simp [step, e2]
    simp only [run, hs]
    exact ih s e2 e3 (fun o h => ho o (by simp [h]))

/-- C227, what holds, after any history: the only task that is in the call, asleep or not, is released by a change, and then nobody is left waiting. -/
theorem C227_only_task_partial (v w : V) (os : List (Op V)) (t : Nat) (hw : (run ({ val := v } : State V) os).1.tasks t ≠ .idle)
    (hu : ∀ u, u ≠ t → (run ({ val := v } : State V) os).1.tasks u = .idle)
    (hro : (run ({ val := v } : State V) os).1.readOnly = false) (hne : (run ({ val := v } : State V) os).1.val ≠ w) :
    let s := (run ({ val := v } : State V) os).1
    (run s [.write w, .resume t]).2 = [.changed w, .returned t] ∧ ∀ u, (run s [.write w, .resume t]).1.tasks u = .idle := by
  generalize (run ({ val := v } : State V) os).1 = s0 at *
  have e : step s0 (.write w) = ({ s0 with val := w, modified := true, fired := true, tasks := fun u => if s0.tasks u = .waiting then .ready else s0.tasks u }, .changed w) := by
    simp [step, hro, hne]
  have ht : (if s0.tasks t = .waiting then Task.ready else s0.tasks t) = .ready := by
    cases h : s0.tasks t <;> simp_all
  simp only [run, e]
  simp only [step]
  rw [if_pos ht]
  simp only [loop, if_true, put]
  refine ⟨trivial, fun u => ?_⟩
  by_cases hut : u = t
  · simp [hut]
  · simp [hut, hu u hut]

/-- Task 1 waited for a first change, then waits again. -/
example : (run ({ val := 0 } : State Nat) [.wait 1, .write 4, .resume 1, .wait 1]).1.tasks 1 ≠ .idle ∧
    (run ({ val := 0 } : State Nat) [.wait 1, .write 4, .resume 1, .wait 1]).1.readOnly = false ∧
    (run ({ val := 0 } : State Nat) [.wait 1, .write 4, .resume 1, .wait 1]).1.val ≠ 5 := by decide

/-- C227, what holds: a single task that waits is always released by a change. -/
theorem C227_single_partial (v w : V) (hne : v ≠ w) (t : Nat) :
    (run ({ val := v } : State V) [.wait t, .write w, .resume t]).2 = [.nothing, .changed w, .returned t] := by
  simp [run, step, loop, put, hne]

example : (0 : Nat) ≠ 5 ∧ (1 : Nat) ≠ 2 := by decide

end Verif.WaitMod
