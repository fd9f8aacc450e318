import Verif.Lemmas.Event
/-! # C55: events, for every history of calls and every schedule; C69: their waiter count -/
namespace Verif.Event
open Verif
variable {α : Type}

/-- C55. After any history the event is on exactly when, in the log, a trigger that took place came after the last
`reset`; `get_trigger_data` is the data of the last trigger that took place, and `get_trigger_time` its time (0 after a
reset). -/
theorem C55_state (pre : Nat → Option Int) (h : List (Op α)) :
    (runS (step pre) init h).on = onAfter false (log pre init h) ∧
    (runS (step pre) init h).data = lastData none (log pre init h) ∧
    (runS (step pre) init h).time = lastTime 0 (log pre init h) :=
  ⟨on_log pre init h, data_log pre init h, time_log pre init h⟩

/-- C55. `reset` turns the event off, `trigger` without registered callbacks turns it on and stores its data. -/
theorem C55_reset_trigger (pre : Nat → Option Int) (s : State α) (w : Bool) (d : Option α) (n : Nat) :
    (step pre s (.reset w)).1.on = false ∧
    (s.cbs = [] → (step pre s (.trigger d n)).2 = .triggered ∧ (step pre s (.trigger d n)).1.on = true ∧
      (step pre s (.trigger d n)).1.data = d ∧ (step pre s (.trigger d n)).1.time = n) := by
  refine ⟨by cases w <;> rfl, fun h => ?_⟩
  rw [trigger_none h]; exact ⟨rfl, rfl, rfl, rfl⟩

/-- C122 fails once a callback is registered: `trigger` then never triggers the event, whatever the callbacks answer.
Nothing changes. -/
theorem C122_trigger_callback_fails (pre : Nat → Option Int) (s : State α) (h : s.cbs ≠ []) (d : Option α) (n : Nat) :
    (step pre s (.trigger d n)).1 = s ∧ (step pre s (.trigger d n)).2 ≠ .triggered := trigger_some h d n

/-- C55. `wait_on` while the event is on returns at once: whatever else happens before the scheduler resumes the
caller, it then returns (after one more round with `delta`). -/
theorem C55_wait_on_immediate (pre : Nat → Option Int) (s : State α) (t : Nat) (k : List (Op α))
    (ht : s.tasks t = .idle) (hon : s.on = true) (hk : ∀ o ∈ k, leaves t o = true) :
    (step pre (runS (step pre) s (.waitOn t false :: k)) (.resume t)).2 = .returned t none ∧
    ∀ k', (∀ o ∈ k', leaves t o = true) →
      (step pre (runS (step pre) s (.waitOn t true :: k ++ .resume t :: k')) (.resume t)).2 = .returned t none := by
  constructor
  · rw [runS_cons]
    have h1 : (step pre s (.waitOn t false)).1.tasks t = .delay 0 := by simp [step, ht, hon]
    exact resume_delay0 (run_stays pre _ k t _ (Or.inr ⟨0, rfl⟩) h1 hk)
  · intro k' hk'
    rw [runS_append, runS_cons, runS_cons]
    have h1 : (step pre s (.waitOn t true)).1.tasks t = .delay 1 := by simp [step, ht, hon]
    have h2 := run_stays pre _ k t _ (Or.inr ⟨1, rfl⟩) h1 hk
    have h3 : (step pre (runS (step pre) (step pre s (.waitOn t true)).1 k) (.resume t)).1.tasks t = .delay 0 := resume_delay h2
    exact resume_delay0 (run_stays pre _ k' t _ (Or.inr ⟨0, rfl⟩) h3 hk')

/-- C55. `wait_off` while the event is off returns at once. -/
theorem C55_wait_off_immediate (pre : Nat → Option Int) (s : State α) (t : Nat)
    (ht : s.tasks t = .idle) (hon : s.on = false) :
    step pre s (.waitOff t false) = (s, .returned t none) := by simp [step, ht, hon]

/-- C55. `wait_on` called while the event is off: after any further calls during which the caller neither returned nor
was killed, being resumed makes it return exactly when the event is on.  So it never returns while the event is off and
never sleeps on while the event is on, whatever the schedule. -/
theorem C55_wait_on (pre : Nat → Option Int) (h : List (Op α)) (t : Nat) (delta : Bool) (k : List (Op α))
    (ht : (runS (step pre) init h).tasks t = .idle) (hon : (runS (step pre) init h).on = false)
    (hk : .kill t ∉ k)
    (hr : ∀ p ∈ log pre (runS (step pre) init (h ++ [.waitOn t delta])) k, returns t p.2 = false) :
    let s' := runS (step pre) init (h ++ .waitOn t delta :: k)
    (step pre s' (.resume t)).2 = if s'.on = true then .returned t none else .nothing := by
  intro s'
  have hs' : s' = runS (step pre) (step pre (runS (step pre) init h) (.waitOn t delta)).1 k := by
    show runS (step pre) init (h ++ .waitOn t delta :: k) = _
    rw [runS_append]; rfl
  rw [runS_append] at hr
  have h1 : inVal true ((step pre (runS (step pre) init h) (.waitOn t delta)).1.tasks t) := by
    simp only [step, ht, hon, awaitVal]
    simp only [ne_eq, not_true_eq_false, if_false, Bool.false_eq_true, setTask_self]
    cases (runS (step pre) init h).vFired
    · exact Or.inl rfl
    · exact Or.inr rfl
  have h2 := inVal_run pre _ k t true h1 hk hr
  rw [hs']
  exact inVal_resume pre (inv_run pre (inv_step pre _ _ (inv_run pre inv_init h)) k) h2

/-- C55. The same for `wait_off`. -/
theorem C55_wait_off (pre : Nat → Option Int) (h : List (Op α)) (t : Nat) (delta : Bool) (k : List (Op α))
    (ht : (runS (step pre) init h).tasks t = .idle) (hon : (runS (step pre) init h).on = true)
    (hk : .kill t ∉ k)
    (hr : ∀ p ∈ log pre (runS (step pre) init (h ++ [.waitOff t delta])) k, returns t p.2 = false) :
    let s' := runS (step pre) init (h ++ .waitOff t delta :: k)
    (step pre s' (.resume t)).2 = if s'.on = false then .returned t none else .nothing := by
  intro s'
  have hs' : s' = runS (step pre) (step pre (runS (step pre) init h) (.waitOff t delta)).1 k := by
    show runS (step pre) init (h ++ .waitOff t delta :: k) = _
    rw [runS_append]; rfl
  rw [runS_append] at hr
  have h1 : inVal false ((step pre (runS (step pre) init h) (.waitOff t delta)).1.tasks t) := by
    simp only [step, ht, hon, awaitVal]
    simp only [ne_eq, not_true_eq_false, if_false, Bool.true_eq_false, setTask_self]
    cases (runS (step pre) init h).vFired
    · exact Or.inl rfl
    · exact Or.inr rfl
  have h2 := inVal_run pre _ k t false h1 hk hr
  rw [hs']
  exact inVal_resume pre (inv_run pre (inv_step pre _ _ (inv_run pre inv_init h)) k) h2

/-- C122, the part that holds.  If no trigger is pending when `wait_trigger` is called (none took place, or a
`wait_trigger` returned or the event was reset since the last one), then as long as no trigger and no waking reset
follow, the caller does not return, however often the scheduler looks at it.
Missing: with a pending trigger the call returns without a new one (`C122_wait_trigger_fails`). -/
theorem C122_wait_trigger_partial (pre : Nat → Option Int) (h : List (Op α)) (t : Nat) (d : Bool) (k : List (Op α))
    (ht : (runS (step pre) init h).tasks t = .idle) (hp : pending [] false (log pre init h) = false)
    (hk : ∀ o ∈ k, quiet t o = true) :
    (step pre (runS (step pre) init (h ++ .waitTrigger t d :: k)) (.resume t)).2 = .nothing := by
  rw [runS_append, runS_cons]
  have hf : (runS (step pre) init h).fired = false := by rw [armed_run pre armed_init]; exact hp
  have h1 : (step pre (runS (step pre) init h) (.waitTrigger t d)).1.tasks t =
      .trigWait (runS (step pre) init h).gen d := by
    simp [step, ht, awaitTrig, hf]
  exact resume_trigWait (quiet_run pre _ k t _ d h1 hk)

/-- C122 fails: a trigger nobody waited for makes a later `wait_trigger` return without any new trigger. -/
theorem C122_wait_trigger_fails :
    ∃ (h k : List (Op Nat)), (∀ o ∈ k, quiet 1 o = true) ∧
      (step (fun _ => none) (runS (step (fun _ => none)) init (h ++ .waitTrigger 1 true :: k)) (.resume 1)).2 =
        .returned 1 (some (some 7)) :=
  ⟨[.trigger (some 7) 5], [], by simp, by decide⟩

/-- C122. A trigger resumes every process waiting for it: whoever called `wait_trigger` (or suspended in
`wait_ptrigger`) and was not resumed, killed or cut off by a reset before a trigger that takes place, returns when next
resumed; the `_data` variant returns the data of the last trigger that took place by then. -/
theorem C122_trigger_resumes (pre : Nat → Option Int) (h : List (Op α)) (t : Nat) (d : Bool) (x : Option α) (n : Nat)
    (k k' : List (Op α)) (ht : (runS (step pre) init h).tasks t = .idle)
    (hk : ∀ o ∈ k, leaves t o = true ∧ isReset o = false) (hk' : ∀ o ∈ k', leaves t o = true)
    (hc : (runS (step pre) init (h ++ .waitTrigger t d :: k)).cbs = []) :
    let all := h ++ .waitTrigger t d :: k ++ .trigger x n :: k'
    (step pre (runS (step pre) init all) (.resume t)).2 =
      .returned t (if d then some (lastData none (log pre init all)) else none) := by
  intro all
  have hd : (runS (step pre) init all).data = lastData none (log pre init all) := data_log pre init all
  rw [← hd]
  have hall : runS (step pre) init all =
      runS (step pre) (step pre (runS (step pre) init (h ++ .waitTrigger t d :: k)) (.trigger x n)).1 k' := by
    show runS (step pre) init (h ++ .waitTrigger t d :: k ++ .trigger x n :: k') = _
    rw [runS_append _ _ (h ++ .waitTrigger t d :: k)]; rfl
  have h0 : runS (step pre) init (h ++ .waitTrigger t d :: k) =
      runS (step pre) (step pre (runS (step pre) init h) (.waitTrigger t d)).1 k := by rw [runS_append]; rfl
  have h1 : (step pre (runS (step pre) init h) (.waitTrigger t d)).1.tasks t =
        .trigWait (step pre (runS (step pre) init h) (.waitTrigger t d)).1.gen d ∨
      (step pre (runS (step pre) init h) (.waitTrigger t d)).1.tasks t = .trigRun d := by
    cases hf : (runS (step pre) init h).fired <;> simp [step, ht, awaitTrig, hf]
  have h2 := waiting_run pre _ k t d h1 hk
  rw [← h0] at h2
  have h3 : (step pre (runS (step pre) init (h ++ .waitTrigger t d :: k)) (.trigger x n)).1.tasks t = .trigRun d := by
    rw [trigger_tasks, if_pos hc]
    rcases h2 with h2 | h2 <;> rw [h2] <;> simp [wakeTrig, wakeVal]
  have h4 := run_stays pre _ k' t _ (Or.inl ⟨d, rfl⟩) h3 hk'
  rw [← hall] at h4
  exact resume_trigRun h4

/-- C122. `wait_ptrigger` returns at once exactly when a trigger is pending. -/
theorem C122_wait_ptrigger_partial (pre : Nat → Option Int) (h : List (Op α)) (t : Nat)
    (ht : (runS (step pre) init h).tasks t = .idle) :
    (step pre (runS (step pre) init h) (.waitPtrigger t true)).2 =
      if pending [] false (log pre init h) then .returned t (some (lastData none (log pre init h))) else .suspended := by
  rw [← armed_run pre armed_init h]
  have hd : (runS (step pre) init h).data = lastData none (log pre init h) := data_log pre init h
  rw [← hd]
  cases hf : (runS (step pre) init h).fired <;> simp [step, ht, hf, result]

/-- C122 fails for `wait_ptrigger`, which promises to return at once after a trigger of the same time slice: another
process's `wait_trigger` returning in between uses the trigger up and the caller is suspended. -/
theorem C122_wait_ptrigger_fails :
    (run (step (α := Nat) (fun _ => none)) init
      [.waitTrigger 1 false, .trigger none 5, .resume 1, .waitPtrigger 2 false, .resume 2]).2 =
      [.suspended, .triggered, .returned 1 none, .suspended, .nothing] := by decide

/-- C122. A reset without wake-up cuts off the processes suspended in `wait_trigger`: no later trigger resumes them. -/
theorem C122_reset_strands :
    (run (step (α := Nat) (fun _ => none)) init
      [.waitTrigger 1 false, .reset false, .trigger none 5, .resume 1]).2 =
      [.suspended, .done, .triggered, .nothing] := by decide

/-- C55. A reset with wake-up resumes a process suspended in `wait_trigger` since the last reset. -/
theorem C55_reset_wakeup (pre : Nat → Option Int) (s : State α) (t : Nat) (d : Bool) (k k' : List (Op α))
    (ht : s.tasks t = .idle) (hk : ∀ o ∈ k, leaves t o = true ∧ isReset o = false)
    (hk' : ∀ o ∈ k', leaves t o = true) :
    returns t (step pre (runS (step pre) s (.waitTrigger t d :: k ++ .reset true :: k')) (.resume t)).2 = true := by
  rw [runS_append, runS_cons, runS_cons]
  have h1 : (step pre s (.waitTrigger t d)).1.tasks t = .trigWait (step pre s (.waitTrigger t d)).1.gen d ∨
      (step pre s (.waitTrigger t d)).1.tasks t = .trigRun d := by
    cases hf : s.fired <;> simp [step, ht, awaitTrig, hf]
  have h2 := waiting_run pre _ k t d h1 hk
  have h3 : (step pre (runS (step pre) (step pre s (.waitTrigger t d)).1 k) (.reset true)).1.tasks t = .trigRun d := by
    show (reset _ true).tasks t = _
    rw [reset_tasks]
    rcases h2 with h2 | h2 <;> rw [h2] <;> simp [wakeTrig, wakeVal]
  have h4 := run_stays pre _ k' t _ (Or.inl ⟨d, rfl⟩) h3 hk'
  rw [resume_trigRun h4]; simp [returns]

/-- C55. A callback is never registered twice. -/
theorem C55_callbacks_nodup (pre : Nat → Option Int) (h : List (Op α)) : (runS (step pre) init h).cbs.Nodup :=
  (inv_run pre inv_init h).nodup

/-- C55. `add_callback` appends a new callback; with `append=False` it puts it first, unless no callback is registered:
then it is lost. -/
theorem C55_add_callback (pre : Nat → Option Int) (s : State α) (c : Nat) (h : c ∉ s.cbs) :
    (step pre s (.addCb c true)).1.cbs = s.cbs ++ [c] ∧
    (s.cbs ≠ [] → (step pre s (.addCb c false)).1.cbs = c :: s.cbs) ∧
    (s.cbs = [] → (step pre s (.addCb c false)).1.cbs = []) := by
  refine ⟨by simp [step, h], fun hn => ?_, fun hn => by simp [step, hn]⟩
  have : s.cbs.isEmpty = false := by cases hc : s.cbs <;> simp_all
  simp [step, h, this]

/-- C55. `delete_callback` removes exactly the given callback, so that it can no longer block triggers. -/
theorem C55_delete_callback (pre : Nat → Option Int) (h : List (Op α)) (c x : Nat) :
    x ∈ (step pre (runS (step pre) init h) (.delCb c)).1.cbs ↔ x ∈ (runS (step pre) init h).cbs ∧ x ≠ c := by
  have hn := (inv_run pre inv_init h).nodup
  simp only [step]
  split
  · show x ∈ List.erase _ c ↔ _
    rw [hn.mem_erase_iff]; exact And.comm
  · next hc => exact ⟨fun hx => ⟨hx, fun e => hc (e ▸ hx)⟩, fun hx => hx.1⟩

/-- C69 fails: a `wait_trigger` that returns on a pending trigger stays counted although nobody waits, and a trigger
clears the count of a process still suspended in `wait_off`. -/
theorem C69_num_waiters_fails :
    (runS (step (α := Nat) (fun _ => none)) init [.trigger none 1, .waitTrigger 1 false, .resume 1]).numWaiters = 1 ∧
    (runS (step (α := Nat) (fun _ => none)) init [.trigger none 1, .waitTrigger 1 false, .resume 1]).tasks 1 = .idle ∧
    (runS (step (α := Nat) (fun _ => none)) init
      [.trigger none 1, .waitOff 1 false, .resume 1, .trigger none 2, .resume 1]).numWaiters = 0 ∧
    (runS (step (α := Nat) (fun _ => none)) init
      [.trigger none 1, .waitOff 1 false, .resume 1, .trigger none 2, .resume 1]).tasks 1 = .valWait false := by
  decide

/-- C69, the part that holds: in a history of triggers, waking resets, callback registrations and trigger waits by the
coroutines of `L`, none of them a `wait_trigger` made while a trigger is pending, the count is the number of coroutines
suspended.  Missing: the other calls, see `C69_num_waiters_fails`. -/
theorem C69_num_waiters_partial (pre : Nat → Option Int) (L : List Nat) (hL : L.Nodup) (h : List (Op α))
    (hc : calm pre L init h) :
    (runS (step pre) init h).numWaiters = (L.filter (suspendedIn (runS (step pre) init h))).length :=
  (counted_run pre hL h (counted_none rfl (by simp [init])) hc).count

/-- C69. Wherever the count is right, killing a process suspended on a trigger and calling `cancel` for it keeps it
right. -/
theorem C69_cancel (pre : Nat → Option Int) (L : List Nat) (hL : L.Nodup) (s : State α)
    (hc : s.numWaiters = (L.filter (suspendedIn s)).length) (t : Nat) (ht : t ∈ L) (hs : suspendedIn s t = true) :
    (runS (step pre) s [.kill t, .cancel]).numWaiters =
      (L.filter (suspendedIn (runS (step pre) s [.kill t, .cancel]))).length := by
  have h := filter_insert hL ht (p := suspendedIn (setTask s t .idle)) (q := suspendedIn s)
    (by simp [suspendedIn]) hs (by intro u hu; simp [suspendedIn, setTask, hu])
  have e1 : (runS (step pre) s [.kill t, .cancel]).numWaiters = s.numWaiters - 1 := rfl
  have e2 : suspendedIn (runS (step pre) s [.kill t, .cancel]) = suspendedIn (setTask s t .idle) := rfl
  rw [e1, e2, hc, h]; rfl

-- Non-vacuity
example : suspendedIn (runS (step (α := Nat) (fun _ => none)) init [.waitTrigger 1 true, .waitPtrigger 2 false]) 2 = true ∧
    (runS (step (α := Nat) (fun _ => none)) init [.waitTrigger 1 true, .waitPtrigger 2 false]).numWaiters = 2 := by decide
example : calm (fun _ => none) [1, 2] (init : State Nat)
    [.waitTrigger 1 true, .waitPtrigger 2 false, .trigger (some 1) 1, .resume 2, .resume 1, .waitTrigger 2 true] := by
  simp [calm]; decide
example : (runS (step (α := Nat) (fun _ => none)) init [.waitTrigger 1 true, .waitPtrigger 2 false]).numWaiters = 2 := by
  decide
example : (run (step (fun _ => none)) init
    [.waitTrigger 1 true, .waitOn 2 false, .resume 1, .resume 2, .trigger (some 3) 9, .resume 2, .resume 1]).2 =
    [.suspended, .suspended, .nothing, .nothing, .triggered, .returned 2 none, .returned 1 (some (some 3))] := by decide
example : pending [] false (log (fun _ => none) init
    ([.waitTrigger 1 false, .trigger none 5, .resume 1] : List (Op Nat))) = false := by decide
example : pending [] false (log (fun _ => none) init ([.trigger none 5] : List (Op Nat))) = true := by decide
example : (runS (step (α := Nat) (fun _ => some 0)) init [.addCb 4 true]).cbs ≠ [] := by decide
example : ∀ o ∈ ([.reset false, .resume 1, .waitOn 3 true] : List (Op Nat)), quiet 1 o = true := by decide
example : ∀ o ∈ ([.trigger none 1, .resume 2, .waitOn 3 true] : List (Op Nat)), leaves 1 o = true ∧ isReset o = false := by
  decide

end Verif.Event
