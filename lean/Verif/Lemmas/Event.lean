import Verif.Spec.Event
namespace Verif.Event
open Verif
variable {α : Type}

theorem log_nil (pre : Nat → Option Int) (s : State α) : log pre s [] = [] := rfl
theorem log_cons (pre : Nat → Option Int) (s : State α) (o : Op α) (h : List (Op α)) :
    log pre s (o :: h) = (o, (step pre s o).2) :: log pre (step pre s o).1 h := rfl

@[simp] theorem setTask_on (s : State α) (t x) : (setTask s t x).on = s.on := rfl
@[simp] theorem setTask_data (s : State α) (t x) : (setTask s t x).data = s.data := rfl
@[simp] theorem setTask_time (s : State α) (t x) : (setTask s t x).time = s.time := rfl
@[simp] theorem setTask_fired (s : State α) (t x) : (setTask s t x).fired = s.fired := rfl
@[simp] theorem setTask_gen (s : State α) (t x) : (setTask s t x).gen = s.gen := rfl
@[simp] theorem setTask_cbs (s : State α) (t x) : (setTask s t x).cbs = s.cbs := rfl
@[simp] theorem setTask_num (s : State α) (t x) : (setTask s t x).numWaiters = s.numWaiters := rfl
@[simp] theorem setTask_self (s : State α) (t x) : (setTask s t x).tasks t = x := by simp [setTask]
theorem setTask_ne (s : State α) (t x) {u : Nat} (h : u ≠ t) : (setTask s t x).tasks u = s.tasks u := by
  simp [setTask, h]
theorem setTask_tasks (s : State α) (t x) (u : Nat) :
    (setTask s t x).tasks u = if u = t then x else s.tasks u := rfl

/-- What one step does to `on`. -/
theorem step_on (pre : Nat → Option Int) (s : State α) (o : Op α) :
    (step pre s o).1.on = onAfter s.on [(o, (step pre s o).2)] := by
  cases o with
  | trigger d n =>
    simp only [step, trigger]
    cases s.cbs.getLast? with
    | none => rfl
    | some c => cases hp : pre c <;> simp [hp, onAfter]
  | reset w => simp [step, reset, setOn, onAfter]
  | cancel => rfl
  | addCb c a => simp only [step]; split <;> (try split) <;> (try split) <;> rfl
  | delCb c => simp only [step]; split <;> rfl
  | waitOn t d => simp only [step]; split <;> (try split) <;> simp [onAfter, awaitVal]
  | waitOff t d => simp only [step]; split <;> (try split) <;> (try split) <;> simp [onAfter, awaitVal]
  | waitTrigger t d => simp only [step]; split <;> simp [onAfter, awaitTrig]
  | waitPtrigger t d => simp only [step]; split <;> (try split) <;> simp [onAfter, awaitTrig]
  | resume t =>
    simp only [step]
    split <;> (try split) <;> simp [onAfter, awaitVal]
  | kill t => rfl

theorem step_data (pre : Nat → Option Int) (s : State α) (o : Op α) :
    (step pre s o).1.data = lastData s.data [(o, (step pre s o).2)] := by
  cases o with
  | trigger d n =>
    simp only [step, trigger]
    cases s.cbs.getLast? with
    | none => rfl
    | some c => cases hp : pre c <;> simp [hp, lastData]
  | reset w => cases w <;> simp [step, reset, setOn, setEvent, lastData]
  | cancel => rfl
  | addCb c a => simp only [step]; split <;> (try split) <;> (try split) <;> rfl
  | delCb c => simp only [step]; split <;> rfl
  | waitOn t d => simp only [step]; split <;> (try split) <;> simp [lastData, awaitVal]
  | waitOff t d => simp only [step]; split <;> (try split) <;> (try split) <;> simp [lastData, awaitVal]
  | waitTrigger t d => simp only [step]; split <;> simp [lastData, awaitTrig]
  | waitPtrigger t d => simp only [step]; split <;> (try split) <;> simp [lastData, awaitTrig]
  | resume t =>
    simp only [step]
    split <;> (try split) <;> simp [lastData, awaitVal]
  | kill t => rfl

theorem step_time (pre : Nat → Option Int) (s : State α) (o : Op α) :
    (step pre s o).1.time = lastTime s.time [(o, (step pre s o).2)] := by
  cases o with
  | trigger d n =>
    simp only [step, trigger]
    cases s.cbs.getLast? with
    | none => rfl
    | some c => cases hp : pre c <;> simp [hp, lastTime]
  | reset w => cases w <;> simp [step, reset, setOn, setEvent, lastTime]
  | cancel => rfl
  | addCb c a => simp only [step]; split <;> (try split) <;> (try split) <;> rfl
  | delCb c => simp only [step]; split <;> rfl
  | waitOn t d => simp only [step]; split <;> (try split) <;> simp [lastTime, awaitVal]
  | waitOff t d => simp only [step]; split <;> (try split) <;> (try split) <;> simp [lastTime, awaitVal]
  | waitTrigger t d => simp only [step]; split <;> simp [lastTime, awaitTrig]
  | waitPtrigger t d => simp only [step]; split <;> (try split) <;> simp [lastTime, awaitTrig]
  | resume t =>
    simp only [step]
    split <;> (try split) <;> simp [lastTime, awaitVal]
  | kill t => rfl

theorem onAfter_cons (b : Bool) (p : Op α × Out α) (l) : onAfter b (p :: l) = onAfter (onAfter b [p]) l := by
  obtain ⟨o, r⟩ := p; cases o <;> cases r <;> rfl
theorem lastData_cons (b : Option α) (p : Op α × Out α) (l) :
    lastData b (p :: l) = lastData (lastData b [p]) l := by
  obtain ⟨o, r⟩ := p; cases o <;> cases r <;> rfl
theorem lastTime_cons (b : Nat) (p : Op α × Out α) (l) : lastTime b (p :: l) = lastTime (lastTime b [p]) l := by
  obtain ⟨o, r⟩ := p; cases o <;> cases r <;> rfl

theorem on_log (pre : Nat → Option Int) (s : State α) (h : List (Op α)) :
    (runS (step pre) s h).on = onAfter s.on (log pre s h) := by
  induction h generalizing s with
  | nil => rfl
  | cons o h ih => rw [runS_cons, ih, log_cons, onAfter_cons, step_on]

theorem data_log (pre : Nat → Option Int) (s : State α) (h : List (Op α)) :
    (runS (step pre) s h).data = lastData s.data (log pre s h) := by
  induction h generalizing s with
  | nil => rfl
  | cons o h ih => rw [runS_cons, ih, log_cons, lastData_cons, step_data]

theorem time_log (pre : Nat → Option Int) (s : State α) (h : List (Op α)) :
    (runS (step pre) s h).time = lastTime s.time (log pre s h) := by
  induction h generalizing s with
  | nil => rfl
  | cons o h ih => rw [runS_cons, ih, log_cons, lastTime_cons, step_time]

/-- The task table after a step, for a coroutine the step does not concern. -/
theorem reset_tasks (s : State α) (w : Bool) (u : Nat) :
    (reset s w).tasks u = wakeVal (if w then wakeTrig s.gen (s.tasks u) else s.tasks u) := by
  cases w <;> rfl

theorem trigger_none {pre : Nat → Option Int} {s : State α} (h : s.cbs = []) (d : Option α) (n : Nat) :
    step pre s (.trigger d n) =
      ({ setOn { setEvent s with numWaiters := 0 } true with time := n, data := d }, .triggered) := by
  simp [step, trigger, h]

theorem trigger_some {pre : Nat → Option Int} {s : State α} (h : s.cbs ≠ []) (d : Option α) (n : Nat) :
    (step pre s (.trigger d n)).1 = s ∧ (step pre s (.trigger d n)).2 ≠ .triggered := by
  simp only [step, trigger]
  cases hl : s.cbs.getLast? with
  | none => exact absurd (List.getLast?_eq_none_iff.mp hl) h
  | some c => cases hp : pre c <;> simp [hp]

theorem trigger_tasks {pre : Nat → Option Int} (s : State α) (d : Option α) (n : Nat) (u : Nat) :
    (step pre s (.trigger d n)).1.tasks u =
      if s.cbs = [] then wakeVal (wakeTrig s.gen (s.tasks u)) else s.tasks u := by
  by_cases h : s.cbs = []
  · rw [if_pos h, trigger_none h]; rfl
  · rw [if_neg h, (trigger_some h d n).1]

theorem wakes_idle (g : Nat) (x : Task) : wakeVal (wakeTrig g x) = .idle ↔ x = .idle := by
  cases x <;> simp only [wakeTrig] <;> (try split) <;> simp [wakeVal]

theorem resume_delay0 {pre : Nat → Option Int} {s : State α} {t : Nat} (h : s.tasks t = .delay 0) :
    (step pre s (.resume t)).2 = .returned t none := by simp [step, h]
theorem resume_delay {pre : Nat → Option Int} {s : State α} {t n : Nat} (h : s.tasks t = .delay (n + 1)) :
    (step pre s (.resume t)).1.tasks t = .delay n := by simp [step, h]
theorem resume_trigWait {pre : Nat → Option Int} {s : State α} {t g : Nat} {d} (h : s.tasks t = .trigWait g d) :
    (step pre s (.resume t)).2 = .nothing := by simp [step, h]
theorem resume_trigRun {pre : Nat → Option Int} {s : State α} {t : Nat} {d} (h : s.tasks t = .trigRun d) :
    (step pre s (.resume t)).2 = .returned t (if d then some s.data else none) := by simp [step, h, result]

/-- Invariant: nobody suspended until the event is on/off misses it; nobody is suspended on the current event object
while its flag is raised. -/
structure Inv (s : State α) : Prop where
  val : ∀ u w, s.tasks u = .valWait w → s.on ≠ w
  trig : ∀ u d, s.tasks u = .trigWait s.gen d → s.fired = false
  old : ∀ u g d, s.tasks u = .trigWait g d → g ≤ s.gen
  nodup : s.cbs.Nodup

theorem inv_init : Inv (init : State α) := ⟨by simp [init], by simp [init], by simp [init], by simp [init]⟩

theorem wakeVal_not (x : Task) (w : Bool) : wakeVal x ≠ .valWait w := by cases x <;> simp [wakeVal]
theorem wakeVal_trig {x : Task} {g d} (h : wakeVal x = .trigWait g d) : x = .trigWait g d := by
  cases x <;> simp_all [wakeVal]
theorem wakeTrig_trig {x : Task} {g g' d} (h : wakeTrig g x = .trigWait g' d) : x = .trigWait g' d ∧ g' ≠ g := by
  cases x with
  | trigWait a b =>
    simp only [wakeTrig] at h
    by_cases hg : a = g
    · simp [hg] at h
    · rw [if_neg hg] at h; cases h; exact ⟨rfl, hg⟩
  | _ => simp [wakeTrig] at h

theorem inv_setTask {s : State α} {t : Nat} {x : Task} (h : Inv s)
    (h1 : ∀ w, x = .valWait w → s.on ≠ w) (h2 : ∀ g d, x = .trigWait g d → g = s.gen ∧ s.fired = false) :
    Inv (setTask s t x) where
  val u w hu := by
    rw [setTask_tasks] at hu
    by_cases e : u = t
    · rw [if_pos e] at hu; exact h1 w hu
    · rw [if_neg e] at hu; exact h.val u w hu
  trig u d hu := by
    rw [setTask_tasks] at hu
    by_cases e : u = t
    · rw [if_pos e] at hu; exact (h2 _ d hu).2
    · rw [if_neg e] at hu; exact h.trig u d hu
  old u g d hu := by
    rw [setTask_tasks] at hu
    by_cases e : u = t
    · rw [if_pos e] at hu; exact Nat.le_of_eq (h2 g d hu).1
    · rw [if_neg e] at hu; exact h.old u g d hu
  nodup := h.nodup

theorem inv_awaitTrig {s : State α} (h : Inv s) (t : Nat) (d : Bool) : Inv (awaitTrig s t d) := by
  refine inv_setTask (s := { s with numWaiters := s.numWaiters + 1 }) ⟨h.val, h.trig, h.old, h.nodup⟩ ?_ ?_
  · intro w hx; cases hf : s.fired <;> simp [hf] at hx
  · intro g d' hx
    cases hf : s.fired
    · simp [hf] at hx; exact ⟨hx.1.symm, rfl⟩
    · simp [hf] at hx

theorem inv_awaitVal {s : State α} (h : Inv s) (t : Nat) (w : Bool) (hw : s.on ≠ w) : Inv (awaitVal s t w) := by
  refine inv_setTask h ?_ ?_
  · intro w' hx; cases hf : s.vFired <;> simp [hf] at hx; exact hx ▸ hw
  · intro g d' hx; cases hf : s.vFired <;> simp [hf] at hx

theorem inv_reset {s : State α} (h : Inv s) (w : Bool) : Inv (reset s w) where
  val u w' hu := by rw [reset_tasks] at hu; exact absurd hu (wakeVal_not _ _)
  trig u d hu := by cases w <;> rfl
  old u g d hu := by
    rw [reset_tasks] at hu
    have h1 := wakeVal_trig hu
    have h2 : s.tasks u = .trigWait g d := by
      cases w
      · simpa using h1
      · exact (wakeTrig_trig (by simpa using h1)).1
    have : (reset s w).gen = s.gen + 1 := by cases w <;> rfl
    have := h.old u g d h2
    omega
  nodup := by have : (reset s w).cbs = s.cbs := by cases w <;> rfl
              rw [this]; exact h.nodup

theorem inv_step (pre : Nat → Option Int) (s : State α) (o : Op α) (h : Inv s) : Inv (step pre s o).1 := by
  cases o with
  | trigger d n =>
    by_cases hc : s.cbs = []
    · rw [trigger_none hc]
      refine ⟨fun u w hu => absurd hu (wakeVal_not _ _), fun u d' hu => ?_, fun u g d' hu => ?_, h.nodup⟩
      · exact absurd rfl (wakeTrig_trig (wakeVal_trig hu)).2
      · exact h.old u g d' (wakeTrig_trig (wakeVal_trig hu)).1
    · rw [(trigger_some hc d n).1]; exact h
  | reset w => exact inv_reset h w
  | cancel => exact ⟨h.val, h.trig, h.old, h.nodup⟩
  | addCb c a =>
    simp only [step]
    by_cases hc : c ∈ s.cbs
    · rw [if_pos hc]; exact h
    · rw [if_neg hc]
      split
      · exact ⟨h.val, h.trig, h.old, by
          show (s.cbs ++ [c]).Nodup
          rw [List.nodup_append]
          refine ⟨h.nodup, by simp, ?_⟩
          intro a ha b hb e
          rw [List.mem_singleton] at hb
          exact hc (hb ▸ e ▸ ha)⟩
      · split
        · exact h
        · exact ⟨h.val, h.trig, h.old, List.nodup_cons.mpr ⟨hc, h.nodup⟩⟩
  | delCb c =>
    simp only [step]
    split
    · exact ⟨h.val, h.trig, h.old, h.nodup.erase c⟩
    · exact h
  | waitOn t d =>
    simp only [step]
    split
    · exact h
    · split
      · exact inv_setTask h (by intro w hx; cases hx) (by intro g d' hx; cases hx)
      · next hn =>
        exact inv_awaitVal (s := { s with numWaiters := s.numWaiters + 1 }) ⟨h.val, h.trig, h.old, h.nodup⟩ t true hn
  | waitOff t d =>
    simp only [step]
    split
    · exact h
    · split
      · split
        · exact inv_setTask h (by intro w hx; cases hx) (by intro g d' hx; cases hx)
        · exact h
      · next hn =>
        exact inv_awaitVal (s := { s with numWaiters := s.numWaiters + 1 }) ⟨h.val, h.trig, h.old, h.nodup⟩ t false hn
  | waitTrigger t d =>
    simp only [step]
    split
    · exact h
    · exact inv_awaitTrig h t d
  | waitPtrigger t d =>
    simp only [step]
    split
    · exact h
    · split
      · exact h
      · exact inv_awaitTrig h t d
  | resume t =>
    simp only [step]
    split
    · exact inv_setTask (s := { s with fired := false }) ⟨h.val, fun _ _ _ => rfl, h.old, h.nodup⟩
        (by intro w hx; cases hx) (by intro g d' hx; cases hx)
    · split
      · exact inv_setTask (s := { s with vFired := false }) ⟨h.val, h.trig, h.old, h.nodup⟩
          (by intro w hx; cases hx) (by intro g d' hx; cases hx)
      · next hn => exact inv_awaitVal (s := { s with vFired := false }) ⟨h.val, h.trig, h.old, h.nodup⟩ t _ hn
    · exact inv_setTask h (by intro w hx; cases hx) (by intro g d' hx; cases hx)
    · exact inv_setTask h (by intro w hx; cases hx) (by intro g d' hx; cases hx)
    · exact h
  | kill t => exact inv_setTask h (by intro w hx; cases hx) (by intro g d' hx; cases hx)

theorem inv_run (pre : Nat → Option Int) {s : State α} (hs : Inv s) (h : List (Op α)) :
    Inv (runS (step pre) s h) := runS_inv (I := Inv) (fun s o => inv_step pre s o) hs h

/-- Tasks of a coroutine no call in the step concerns. -/
theorem step_tasks_other (pre : Nat → Option Int) (s : State α) (o : Op α) (t : Nat) (hl : leaves t o = true)
    (ht : s.tasks t ≠ .idle) :
    (step pre s o).1.tasks t = s.tasks t ∨
    (∃ d n, o = .trigger d n ∧ s.cbs = [] ∧ (step pre s o).1.tasks t = wakeVal (wakeTrig s.gen (s.tasks t))) ∨
    (∃ w, o = .reset w ∧
      (step pre s o).1.tasks t = wakeVal (if w then wakeTrig s.gen (s.tasks t) else s.tasks t)) := by
  cases o with
  | trigger d n =>
    by_cases hc : s.cbs = []
    · exact Or.inr (Or.inl ⟨d, n, rfl, hc, by rw [trigger_tasks, if_pos hc]⟩)
    · exact Or.inl (by rw [trigger_tasks, if_neg hc])
  | reset w => exact Or.inr (Or.inr ⟨w, rfl, reset_tasks s w t⟩)
  | cancel => exact Or.inl rfl
  | addCb c a => left; simp only [step]; split <;> (try split) <;> (try split) <;> rfl
  | delCb c => left; simp only [step]; split <;> rfl
  | waitOn u d =>
    left; simp only [step]
    by_cases hu : s.tasks u = .idle
    · have : t ≠ u := fun e => ht (e ▸ hu)
      rw [if_neg (not_not_intro hu)]
      split
      · exact setTask_ne _ _ _ this
      · exact setTask_ne _ _ _ this
    · rw [if_pos hu]
  | waitOff u d =>
    left; simp only [step]
    by_cases hu : s.tasks u = .idle
    · have : t ≠ u := fun e => ht (e ▸ hu)
      rw [if_neg (not_not_intro hu)]
      split
      · split
        · exact setTask_ne _ _ _ this
        · rfl
      · exact setTask_ne _ _ _ this
    · rw [if_pos hu]
  | waitTrigger u d =>
    left; simp only [step]
    by_cases hu : s.tasks u = .idle
    · have : t ≠ u := fun e => ht (e ▸ hu)
      rw [if_neg (not_not_intro hu)]
      exact setTask_ne _ _ _ this
    · rw [if_pos hu]
  | waitPtrigger u d =>
    left; simp only [step]
    by_cases hu : s.tasks u = .idle
    · have : t ≠ u := fun e => ht (e ▸ hu)
      rw [if_neg (not_not_intro hu)]
      split
      · rfl
      · exact setTask_ne _ _ _ this
    · rw [if_pos hu]
  | resume u =>
    have hne : t ≠ u := by simp [leaves] at hl; exact fun e => hl e.symm
    left; simp only [step]
    split
    · exact setTask_ne _ _ _ hne
    · split
      · exact setTask_ne _ _ _ hne
      · exact setTask_ne _ _ _ hne
    · exact setTask_ne _ _ _ hne
    · exact setTask_ne _ _ _ hne
    · rfl
  | kill u =>
    have hne : t ≠ u := by simp [leaves] at hl; exact fun e => hl e.symm
    exact Or.inl (setTask_ne _ _ _ hne)

/-- The coroutine is inside `wait_trigger` or `wait_ptrigger`. -/
def inTrig : Task → Bool
  | .trigRun _ => true
  | .trigWait _ _ => true
  | _ => false

/-- The flag `fired` and the coroutines inside `wait_trigger`, read off the log. -/
structure Armed (ws : List Nat) (b : Bool) (s : State α) : Prop where
  fired : s.fired = b
  mem : ∀ t, t ∈ ws ↔ inTrig (s.tasks t) = true

theorem inTrig_wake (g : Nat) (x : Task) : inTrig (wakeVal (wakeTrig g x)) = inTrig x := by
  cases x <;> simp only [wakeTrig] <;> (try split) <;> rfl
theorem inTrig_wakeVal (x : Task) : inTrig (wakeVal x) = inTrig x := by cases x <;> rfl

theorem armed_set {ws : List Nat} {b : Bool} {s s' : State α} {t : Nat} {x : Task} (h : Armed ws b s)
    (hs : s' = setTask s t x ∨ ∃ f n v, s' = setTask { s with fired := f, numWaiters := n, vFired := v } t x) :
    (inTrig x = true → Armed (t :: ws) s'.fired s') ∧
    (inTrig x = false → Armed (ws.filter (· ≠ t)) s'.fired s') ∧
    (inTrig x = inTrig (s.tasks t) → Armed ws s'.fired s') := by
  have ht : ∀ u, s'.tasks u = if u = t then x else s.tasks u := by
    intro u
    rcases hs with hs | ⟨f, n, v, hs⟩ <;> rw [hs] <;> rfl
  refine ⟨fun hx => ⟨rfl, fun u => ?_⟩, fun hx => ⟨rfl, fun u => ?_⟩, fun hx => ⟨rfl, fun u => ?_⟩⟩
  · rw [ht u, List.mem_cons, h.mem]
    by_cases e : u = t
    · simp [e, hx]
    · simp [e]
  · rw [ht u, List.mem_filter, h.mem]
    by_cases e : u = t
    · simp [e, hx]
    · simp [e]
  · rw [ht u, h.mem]
    by_cases e : u = t
    · simp [e, hx]
    · simp [e]

/-- One step of `pending`. -/
def pend1 (ws : List Nat) (b : Bool) : Op α × Out α → List Nat × Bool
  | (.trigger .., .triggered) => (ws, true)
  | (.reset _, _) => (ws, false)
  | (.waitTrigger t _, .suspended) => (t :: ws, b)
  | (.waitPtrigger t _, .suspended) => (t :: ws, b)
  | (.kill t, _) => (ws.filter (· ≠ t), b)
  | (.resume t, .returned ..) => if t ∈ ws then (ws.filter (· ≠ t), false) else (ws, b)
  | _ => (ws, b)

theorem pending_cons (ws : List Nat) (b : Bool) (p : Op α × Out α) (l) :
    pending ws b (p :: l) = pending (pend1 ws b p).1 (pend1 ws b p).2 l := by
  obtain ⟨o, r⟩ := p
  cases o <;> cases r <;> (try rfl)
  simp only [pending, pend1]; split <;> rfl

theorem armed_step (pre : Nat → Option Int) {ws : List Nat} {b : Bool} {s : State α} (h : Armed ws b s) (o : Op α) :
    Armed (pend1 ws b (o, (step pre s o).2)).1 (pend1 ws b (o, (step pre s o).2)).2 (step pre s o).1 := by
  have hf := h.fired
  subst hf
  cases o with
  | trigger d n =>
    by_cases hc : s.cbs = []
    · rw [trigger_none hc]
      exact ⟨rfl, fun t => by show t ∈ ws ↔ inTrig (wakeVal (wakeTrig s.gen (s.tasks t))) = true; rw [inTrig_wake, h.mem]⟩
    · have := trigger_some (pre := pre) hc d n
      rw [this.1]
      cases ho : (step pre s (.trigger d n)).2 <;> first | exact absurd ho this.2 | exact h
  | reset w =>
    refine ⟨by cases w <;> rfl, fun t => ?_⟩
    show t ∈ ws ↔ inTrig ((reset s w).tasks t) = true
    rw [h.mem, reset_tasks, inTrig_wakeVal]
    cases w
    · rfl
    · have := inTrig_wake s.gen (s.tasks t)
      rw [inTrig_wakeVal] at this
      simp [this]
  | cancel => exact ⟨h.fired, h.mem⟩
  | addCb c a =>
    have : ∀ r, pend1 ws s.fired ((.addCb c a : Op α), r) = (ws, s.fired) := by intro r; cases r <;> rfl
    rw [this]
    simp only [step]; split <;> (try split) <;> (try split) <;> exact ⟨h.fired, h.mem⟩
  | delCb c =>
    have : ∀ r, pend1 ws s.fired ((.delCb c : Op α), r) = (ws, s.fired) := by intro r; cases r <;> rfl
    rw [this]
    simp only [step]; split <;> exact ⟨h.fired, h.mem⟩
  | waitOn t d =>
    have : ∀ r, pend1 ws s.fired ((.waitOn t d : Op α), r) = (ws, s.fired) := by intro r; cases r <;> rfl
    rw [this]
    simp only [step]
    by_cases ht : s.tasks t = .idle
    · rw [if_neg (not_not_intro ht)]
      split
      · have := (armed_set (s' := setTask s t (.delay (if d then 1 else 0))) h (Or.inl rfl)).2.2 (by rw [ht]; rfl)
        exact this
      · have := (armed_set (t := t) (x := if s.vFired then .valRun true else .valWait true)
          (s' := setTask { s with numWaiters := s.numWaiters + 1 } t _) h (Or.inr ⟨_, _, _, rfl⟩)).2.2
          (by rw [ht]; cases s.vFired <;> rfl)
        exact this
    · rw [if_pos ht]; exact h
  | waitOff t d =>
    have : ∀ r, pend1 ws s.fired ((.waitOff t d : Op α), r) = (ws, s.fired) := by intro r; cases r <;> rfl
    rw [this]
    simp only [step]
    by_cases ht : s.tasks t = .idle
    · rw [if_neg (not_not_intro ht)]
      split
      · split
        · have := (armed_set (s' := setTask s t (.delay 0)) h (Or.inl rfl)).2.2 (by rw [ht]; rfl)
          exact this
        · exact h
      · have := (armed_set (t := t) (x := if s.vFired then .valRun false else .valWait false)
          (s' := setTask { s with numWaiters := s.numWaiters + 1 } t _) h (Or.inr ⟨_, _, _, rfl⟩)).2.2
          (by rw [ht]; cases s.vFired <;> rfl)
        exact this
    · rw [if_pos ht]; exact h
  | waitTrigger t d =>
    simp only [step]
    by_cases ht : s.tasks t = .idle
    · rw [if_neg (not_not_intro ht)]
      have := (armed_set (t := t) (x := if s.fired then .trigRun d else .trigWait s.gen d)
        (s' := setTask { s with numWaiters := s.numWaiters + 1 } t _) h (Or.inr ⟨_, _, _, rfl⟩)).1
        (by cases s.fired <;> rfl)
      exact this
    · rw [if_pos ht]; exact h
  | waitPtrigger t d =>
    simp only [step]
    by_cases ht : s.tasks t = .idle
    · rw [if_neg (not_not_intro ht)]
      split
      · exact h
      · have := (armed_set (t := t) (x := if s.fired then .trigRun d else .trigWait s.gen d)
          (s' := setTask { s with numWaiters := s.numWaiters + 1 } t _) h (Or.inr ⟨_, _, _, rfl⟩)).1
          (by cases s.fired <;> rfl)
        exact this
    · rw [if_pos ht]; exact h
  | resume t =>
    have hm := h.mem t
    cases ht : s.tasks t with
    | idle => simp only [step, ht]; exact h
    | trigWait g d => simp only [step, ht]; exact h
    | valWait w => simp only [step, ht]; exact h
    | trigRun d =>
      have hin : t ∈ ws := by rw [hm, ht]; rfl
      simp only [step, ht, result, pend1, if_pos hin]
      exact (armed_set (t := t) (x := .idle)
        (s' := setTask { s with fired := false } t _) h (Or.inr ⟨_, _, _, rfl⟩)).2.1 rfl
    | valRun w =>
      have hin : t ∉ ws := by rw [hm, ht]; simp [inTrig]
      by_cases hw : s.on = w
      · simp only [step, ht, if_pos hw, pend1, if_neg hin]
        have := (armed_set (t := t) (x := .idle)
          (s' := setTask { s with vFired := false } t _) h (Or.inr ⟨_, _, _, rfl⟩)).2.2 (by rw [ht]; rfl)
        exact this
      · simp only [step, ht, if_neg hw, pend1]
        have := (armed_set (t := t) (x := .valWait w)
          (s' := setTask { s with vFired := false } t _) h (Or.inr ⟨_, _, _, rfl⟩)).2.2 (by rw [ht]; rfl)
        exact this
    | delay n =>
      have hin : t ∉ ws := by rw [hm, ht]; simp [inTrig]
      cases n with
      | zero =>
        simp only [step, ht, pend1, if_neg hin]
        have := (armed_set (s' := setTask s t .idle) h (Or.inl rfl)).2.2 (by rw [ht]; rfl)
        exact this
      | succ n =>
        simp only [step, ht, pend1]
        have := (armed_set (s' := setTask s t (.delay n)) h (Or.inl rfl)).2.2 (by rw [ht]; rfl)
        exact this
  | kill t =>
    have := (armed_set (s' := setTask s t .idle) h (Or.inl rfl)).2.1 rfl
    exact this

theorem armed_run (pre : Nat → Option Int) {ws : List Nat} {b : Bool} {s : State α} (hs : Armed ws b s)
    (h : List (Op α)) : (runS (step pre) s h).fired = pending ws b (log pre s h) := by
  induction h generalizing s ws b with
  | nil => exact hs.fired
  | cons o h ih => rw [runS_cons, log_cons, pending_cons]; exact ih (armed_step pre hs o)

theorem armed_init : Armed [] false (init : State α) := ⟨rfl, by simp [init, inTrig]⟩

/-- A coroutine inside `wait_on`/`wait_off` stays there until it returns or is killed. -/
def inVal (w : Bool) (x : Task) : Prop := x = .valWait w ∨ x = .valRun w

theorem inVal_step (pre : Nat → Option Int) (s : State α) (o : Op α) (t : Nat) (w : Bool)
    (ht : inVal w (s.tasks t)) (hk : o ≠ .kill t) (hr : returns t (step pre s o).2 = false) :
    inVal w ((step pre s o).1.tasks t) := by
  have hne : s.tasks t ≠ .idle := by rcases ht with h | h <;> simp [h]
  by_cases hl : leaves t o = true
  · rcases step_tasks_other pre s o t hl hne with h | ⟨d, n, rfl, hc, h⟩ | ⟨b, rfl, h⟩ <;> rw [h]
    · exact ht
    · rcases ht with h | h <;> rw [h] <;> exact Or.inr rfl
    · cases b <;> rcases ht with h | h <;> rw [h] <;> exact Or.inr rfl
  · cases o with
    | resume u =>
      have hu : u = t := by simp [leaves] at hl; exact hl
      subst hu
      rcases ht with h | h
      · simp only [step, h]; exact Or.inl rfl
      · by_cases hw : s.on = w
        · simp [step, h, hw, returns] at hr
        · simp only [step, h, if_neg hw, awaitVal, setTask_self]
          exact Or.inl rfl
    | kill u =>
      have hu : u = t := by simp [leaves] at hl; exact hl
      exact absurd (hu ▸ rfl) hk
    | _ => exact absurd rfl hl

theorem inVal_run (pre : Nat → Option Int) (s : State α) (k : List (Op α)) (t : Nat) (w : Bool)
    (ht : inVal w (s.tasks t)) (hk : .kill t ∉ k)
    (hr : ∀ p ∈ log pre s k, returns t p.2 = false) : inVal w ((runS (step pre) s k).tasks t) := by
  induction k generalizing s with
  | nil => exact ht
  | cons o k ih =>
    rw [runS_cons]
    rw [log_cons] at hr
    refine ih _ (inVal_step pre s o t w ht (fun e => hk (e ▸ List.mem_cons_self)) (hr _ List.mem_cons_self))
      (fun e => hk (List.mem_cons_of_mem _ e)) (fun p hp => hr p (List.mem_cons_of_mem _ hp))

theorem inVal_resume (pre : Nat → Option Int) {s : State α} (hi : Inv s) {t : Nat} {w : Bool}
    (ht : inVal w (s.tasks t)) :
    (step pre s (.resume t)).2 = if s.on = w then .returned t none else .nothing := by
  rcases ht with h | h
  · rw [if_neg (hi.val t w h)]; simp [step, h]
  · by_cases hw : s.on = w
    · simp [step, h, hw]
    · simp [step, h, hw]

/-- A coroutine suspended on an event object stays so through quiet calls. -/
theorem quiet_run (pre : Nat → Option Int) (s : State α) (k : List (Op α)) (t g : Nat) (d : Bool)
    (ht : s.tasks t = .trigWait g d) (hq : ∀ o ∈ k, quiet t o = true) :
    (runS (step pre) s k).tasks t = .trigWait g d := by
  induction k generalizing s with
  | nil => exact ht
  | cons o k ih =>
    rw [runS_cons]
    have hq0 := hq o List.mem_cons_self
    refine ih _ ?_ (fun o ho => hq o (List.mem_cons_of_mem _ ho))
    by_cases hl : leaves t o = true
    · rcases step_tasks_other pre s o t hl (by simp [ht]) with h | ⟨d', n, rfl, hc, h⟩ | ⟨b, rfl, h⟩
      · rw [h, ht]
      · cases hq0
      · cases b
        · rw [h, ht]; rfl
        · cases hq0
    · cases o with
      | resume u =>
        have hu : u = t := by simp [leaves] at hl; exact hl
        subst hu
        simp only [step, ht]
      | kill u =>
        have hu : u = t := by simp [leaves] at hl; exact hl
        subst hu
        simp [quiet] at hq0
      | _ => exact absurd rfl hl

/-- A runnable coroutine stays runnable until it is resumed or killed. -/
theorem run_stays (pre : Nat → Option Int) (s : State α) (k : List (Op α)) (t : Nat) (x : Task)
    (hx : (∃ d, x = .trigRun d) ∨ (∃ n, x = .delay n))
    (ht : s.tasks t = x) (hq : ∀ o ∈ k, leaves t o = true) : (runS (step pre) s k).tasks t = x := by
  induction k generalizing s with
  | nil => exact ht
  | cons o k ih =>
    rw [runS_cons]
    refine ih _ ?_ (fun o ho => hq o (List.mem_cons_of_mem _ ho))
    have hne : s.tasks t ≠ .idle := by rw [ht]; rcases hx with ⟨d, rfl⟩ | ⟨n, rfl⟩ <;> simp
    rcases step_tasks_other pre s o t (hq o List.mem_cons_self) hne with h | ⟨d', n, rfl, hc, h⟩ | ⟨b, rfl, h⟩
    · rw [h, ht]
    · rw [h, ht]; rcases hx with ⟨d, rfl⟩ | ⟨n, rfl⟩ <;> rfl
    · rw [h, ht]; cases b <;> rcases hx with ⟨d, rfl⟩ | ⟨n, rfl⟩ <;> rfl

/-- Without reset, a coroutine suspended on the current object is suspended on it or runnable. -/
theorem waiting_run (pre : Nat → Option Int) (s : State α) (k : List (Op α)) (t : Nat) (d : Bool)
    (ht : s.tasks t = .trigWait s.gen d ∨ s.tasks t = .trigRun d)
    (hq : ∀ o ∈ k, leaves t o = true ∧ isReset o = false) :
    (runS (step pre) s k).tasks t = .trigWait (runS (step pre) s k).gen d ∨
    (runS (step pre) s k).tasks t = .trigRun d := by
  induction k generalizing s with
  | nil => exact ht
  | cons o k ih =>
    rw [runS_cons]
    refine ih _ ?_ (fun o ho => hq o (List.mem_cons_of_mem _ ho))
    have hne : s.tasks t ≠ .idle := by rcases ht with h | h <;> simp [h]
    have hg : (step pre s o).1.gen = s.gen := by
      have hr := (hq o List.mem_cons_self).2
      cases o with
      | trigger d' n =>
        by_cases hc : s.cbs = []
        · rw [trigger_none hc]; rfl
        · rw [(trigger_some hc d' n).1]
      | reset w => cases hr
      | cancel => rfl
      | addCb c a => simp only [step]; split <;> (try split) <;> (try split) <;> rfl
      | delCb c => simp only [step]; split <;> rfl
      | waitOn t d => simp only [step]; split <;> (try split) <;> rfl
      | waitOff t d => simp only [step]; split <;> (try split) <;> (try split) <;> rfl
      | waitTrigger t d => simp only [step]; split <;> rfl
      | waitPtrigger t d => simp only [step]; split <;> (try split) <;> rfl
      | resume t => simp only [step]; split <;> (try split) <;> rfl
      | kill t => rfl
    rw [hg]
    rcases step_tasks_other pre s o t (hq o List.mem_cons_self).1 hne with h | ⟨d', n, rfl, hc, h⟩ | ⟨b, rfl, h⟩
    · rw [h]; exact ht
    · rw [h]; rcases ht with h | h <;> rw [h] <;> simp [wakeTrig, wakeVal]
    · have := (hq _ List.mem_cons_self).2; cases this

theorem filter_insert {L : List Nat} (hL : L.Nodup) {p q : Nat → Bool} {t : Nat} (ht : t ∈ L) (hp : p t = false)
    (hq : q t = true) (hs : ∀ u, u ≠ t → q u = p u) : (L.filter q).length = (L.filter p).length + 1 := by
  induction L with
  | nil => cases ht
  | cons a L ih =>
    rw [List.nodup_cons] at hL
    by_cases e : a = t
    · subst e
      have : L.filter q = L.filter p := List.filter_congr (fun u hu => hs u (fun e => hL.1 (e ▸ hu)))
      simp [hp, hq, this]
    · have ht' : t ∈ L := by
        rcases List.mem_cons.mp ht with h | h
        · exact absurd h.symm e
        · exact h
      rw [List.filter_cons, List.filter_cons, hs a e]
      split
      · rw [List.length_cons, List.length_cons, ih hL.2 ht']
      · exact ih hL.2 ht'

structure Counted (L : List Nat) (s : State α) : Prop where
  count : s.numWaiters = (L.filter (suspendedIn s)).length
  cur : ∀ u g d, s.tasks u = .trigWait g d → g = s.gen

theorem suspendedIn_eq {s s' : State α} (h : ∀ u, s'.tasks u = s.tasks u) : suspendedIn s' = suspendedIn s := by
  funext u; simp only [suspendedIn, h u]

theorem counted_none {L : List Nat} {s : State α} (hn : s.numWaiters = 0)
    (h : ∀ u g d, s.tasks u ≠ .trigWait g d) : Counted L s := by
  refine ⟨?_, fun u g d hu => absurd hu (h u g d)⟩
  rw [hn]
  have : L.filter (suspendedIn s) = [] := by
    rw [List.filter_eq_nil_iff]
    intro u _
    simp only [suspendedIn]
    cases hu : s.tasks u <;> simp
    exact absurd hu (h u _ _)
  rw [this]; rfl

theorem counted_await {L : List Nat} (hL : L.Nodup) {s : State α} (h : Counted L s) {t : Nat} (d : Bool) (ht : t ∈ L)
    (hi : s.tasks t = .idle) (hf : s.fired = false) : Counted L (awaitTrig s t d) := by
  refine ⟨?_, ?_⟩
  · rw [filter_insert hL ht (p := suspendedIn s)]
    · exact congrArg (· + 1) h.count
    · simp [suspendedIn, hi]
    · simp [suspendedIn, awaitTrig, hf]
    · intro u hu
      simp [suspendedIn, awaitTrig, setTask, hu]
  · intro u g d' hu
    simp only [awaitTrig, setTask_tasks, hf] at hu
    by_cases e : u = t
    · simp [e] at hu; exact hu.1.symm
    · rw [if_neg e] at hu; exact h.cur u g d' hu

theorem counted_idle {L : List Nat} {s s' : State α} (h : Counted L s) {t : Nat} {x : Task}
    (h1 : ∀ g d, s.tasks t ≠ .trigWait g d) (h2 : ∀ g d, x ≠ .trigWait g d) (hn : s'.numWaiters = s.numWaiters)
    (hg : s'.gen = s.gen) (ht : s'.tasks = (setTask s t x).tasks) : Counted L s' := by
  refine ⟨?_, ?_⟩
  · rw [hn, h.count]
    have : suspendedIn s' = suspendedIn s := by
      funext u
      simp only [suspendedIn, ht, setTask_tasks]
      by_cases e : u = t
      · subst e
        rw [if_pos rfl]
        cases hx : x <;> cases hs : s.tasks u <;> simp <;> first | exact absurd hx (h2 _ _) | exact absurd hs (h1 _ _)
      · rw [if_neg e]
    rw [this]
  · intro u g d hu
    rw [ht, setTask_tasks] at hu
    by_cases e : u = t
    · rw [if_pos e] at hu; exact absurd hu (h2 g d)
    · rw [if_neg e] at hu; rw [hg]; exact h.cur u g d hu

theorem counted_same {L : List Nat} {s s' : State α} (h : Counted L s) (hn : s'.numWaiters = s.numWaiters)
    (hg : s'.gen = s.gen) (ht : s'.tasks = s.tasks) : Counted L s' :=
  ⟨by rw [hn, h.count, suspendedIn_eq (fun u => by rw [ht])], fun u g d hu => by rw [hg]; exact h.cur u g d (ht ▸ hu)⟩

theorem counted_run (pre : Nat → Option Int) {L : List Nat} (hL : L.Nodup) {s : State α} (h : List (Op α))
    (hs : Counted L s) (hc : calm pre L s h) : Counted L (runS (step pre) s h) := by
  induction h generalizing s with
  | nil => exact hs
  | cons o h ih =>
    rw [runS_cons]
    refine ih ?_ hc.1
    have hc := hc.2
    cases o with
    | trigger d n =>
      by_cases hcb : s.cbs = []
      · rw [trigger_none hcb]
        refine counted_none rfl (fun u g d' hu => ?_)
        have := wakeTrig_trig (wakeVal_trig (show wakeVal (wakeTrig s.gen (s.tasks u)) = _ from hu))
        exact this.2 (hs.cur u g d' this.1)
      · rw [(trigger_some hcb d n).1]; exact hs
    | reset w =>
      have hc : w = true := hc
      subst hc
      refine counted_none rfl (fun u g d' hu => ?_)
      have hu : (reset s true).tasks u = _ := hu
      rw [reset_tasks] at hu
      have := wakeTrig_trig (wakeVal_trig (show wakeVal (wakeTrig s.gen (s.tasks u)) = _ from hu))
      exact this.2 (hs.cur u g d' this.1)
    | addCb c a =>
      simp only [step]
      split
      · exact hs
      · split
        · exact counted_same hs rfl rfl rfl
        · split
          · exact hs
          · exact counted_same hs rfl rfl rfl
    | delCb c =>
      simp only [step]
      split
      · exact counted_same hs rfl rfl rfl
      · exact hs
    | waitTrigger t d =>
      simp only [step]
      by_cases hi : s.tasks t = .idle
      · rw [if_neg (not_not_intro hi)]
        exact counted_await hL hs d hc.1 hi hc.2
      · rw [if_pos hi]; exact hs
    | waitPtrigger t d =>
      simp only [step]
      by_cases hi : s.tasks t = .idle
      · rw [if_neg (not_not_intro hi)]
        split
        · exact hs
        · next hf => exact counted_await hL hs d hc hi (by simpa using hf)
      · rw [if_pos hi]; exact hs
    | resume t =>
      cases ht : s.tasks t with
      | idle => simp only [step, ht]; exact hs
      | trigWait g d => simp only [step, ht]; exact hs
      | valWait w => simp only [step, ht]; exact hs
      | trigRun d =>
        simp only [step, ht]
        exact counted_idle hs (t := t) (x := .idle) (by simp [ht]) (by simp) rfl rfl rfl
      | valRun w =>
        simp only [step, ht]
        split
        · exact counted_idle hs (t := t) (x := .idle) (by simp [ht]) (by simp) rfl rfl rfl
        · exact counted_idle hs (t := t) (x := .valWait w) (by simp [ht]) (by simp) rfl rfl rfl
      | delay n =>
        cases n with
        | zero => simp only [step, ht]; exact counted_idle hs (t := t) (x := .idle) (by simp [ht]) (by simp) rfl rfl rfl
        | succ n => simp only [step, ht]; exact counted_idle hs (t := t) (x := .delay n) (by simp [ht]) (by simp) rfl rfl rfl
    | _ => exact hc.elim

end Verif.Event
