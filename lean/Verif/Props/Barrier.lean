import Verif.Spec.Barrier
import Verif.Lemmas.Event
/-!
# C377, C378, C379, C380: barriers
-/
namespace Verif.Barrier
open Verif.Event (Task)

/-- C377 fails. No barrier can be created: a Python set is passed as the name of its event. -/
theorem C377_create_fails (name : String) (threshold : Int) : create name threshold = none := rfl

/-- Events themselves can be created under every name. -/
example (n : String) : newEvent (.str n) = some Event.init := rfl

/-! ## What the steps do to a process -/

theorem awaitTrig_other {s : Event.State Unit} {t u : Nat} (h : u ≠ t) (d : Bool) : (Event.awaitTrig s t d).tasks u = s.tasks u := by
  simp [Event.awaitTrig, Event.setTask, h]

/-- A process suspended in `wait_for` stays so during an ordinary call. -/
theorem ordinary_step {s : State} {t g : Nat} {d : Bool} (ht : s.ev.tasks t = .trigWait g d) {o : Op} (ho : ordinary t o = true) :
    (step s o).1.ev.tasks t = .trigWait g d := by
  cases o with
  | waitFor u =>
    simp only [step]
    split
    · exact ht
    · next hi =>
      have hne : t ≠ u := fun e => hi (by rw [← e, ht]; simp)
      simp only [waitFor]
      split
      · exact ht
      · split
        · split <;> exact ht
        · have hid : s.ev.tasks u = .idle := by simpa using hi
          simp only [evStep, Event.step, hid, ne_eq, not_true_eq_false, if_false]
          rw [awaitTrig_other hne]; exact ht
  | reset w => simp [ordinary] at ho
  | setThreshold n => simp [ordinary] at ho
  | setAutoReset v => exact ht
  | cancel => exact ht
  | resume u =>
    simp only [step, evStep, Event.step]
    by_cases hu : t = u
    · subst hu; rw [ht]; exact ht
    · split <;> first | exact ht | (simp [Event.setTask, hu, ht]; done) |
        (split <;> simp [Event.setTask, Event.awaitVal, hu, ht])
  | kill u =>
    simp only [ordinary, bne_iff_ne, ne_eq] at ho
    have : t ≠ u := fun e => ho e.symm
    simp [step, evStep, Event.step, Event.setTask, this, ht]

/-- C378 fails. A process suspended in `wait_for` is not released by other processes reaching the barrier: whatever processes call `wait_for` after it, and whatever
the threshold is, it is still suspended, until somebody resets the barrier or changes its threshold. -/
theorem C378_release_fails (s : State) (t g : Nat) (d : Bool) (ht : s.ev.tasks t = .trigWait g d) (k : List Op) (hk : ∀ o ∈ k, ordinary t o = true) :
    (step (runS step s k) (.resume t)).2 = .nothing ∧ Waiting (runS step s k) t := by
  have : (runS step s k).ev.tasks t = .trigWait g d := by
    induction k generalizing s with
    | nil => exact ht
    | cons o k ih => exact ih (step s o).1 (ordinary_step ht (hk o List.mem_cons_self)) fun o' ho' => hk o' (List.mem_cons_of_mem _ ho')
  refine ⟨?_, by rw [Waiting, this]; simp⟩
  simp only [step, Event.resume_trigWait this, outOf]

/-- Two processes at a barrier for two: the second passes, the first is never released. -/
example : (run step (made 2) [.waitFor 1, .waitFor 2, .resume 1]).2 = [.blocked 1, .passed 2, .nothing] := by decide
example : (runS step (made 2) [.waitFor 1]).ev.tasks 1 = .trigWait 0 false := by decide

/-! ## Release by reset -/

/-- Nobody waits for anything but the current event of the barrier, and somebody waiting is counted. -/
structure Counted (s : State) : Prop where
  cbs : s.ev.cbs = []
  cur : ∀ t g d, s.ev.tasks t = .trigWait g d → g = s.ev.gen ∧ 0 < s.numWaiters
  only : ∀ t, s.ev.tasks t = .idle ∨ (∃ g d, s.ev.tasks t = .trigWait g d) ∨ ∃ d, s.ev.tasks t = .trigRun d

theorem counted_made (n : Int) : Counted (made n) := ⟨rfl, by simp [made, Event.init], by simp [made, Event.init]⟩

theorem wake_now {s : Event.State Unit} (h : s.cbs = []) (t : Nat) :
    (Event.step noCbs s (.trigger none 0)).1.tasks t = Event.wakeVal (Event.wakeTrig s.gen (s.tasks t)) := by
  rw [Event.trigger_tasks, if_pos h]

theorem trigger_cbs {s : Event.State Unit} (h : s.cbs = []) : (Event.step noCbs s (.trigger none 0)).1.cbs = [] := by
  rw [Event.trigger_none h]; exact h

theorem counted_reset {s : State} (h : Counted s) : Counted (reset s true) ∧ ∀ t g d, (reset s true).ev.tasks t ≠ .trigWait g d := by
  have key : ∀ t g d, (reset s true).ev.tasks t ≠ .trigWait g d := by
    intro t g d ht
    unfold reset at ht
    by_cases hz : s.numWaiters = 0
    · simp [hz] at ht
      have := (h.cur t g d ht).2
      omega
    · simp only [ne_eq, hz, not_false_eq_true, if_true, evStep] at ht
      rw [wake_now h.cbs] at ht
      obtain ⟨h1, h2⟩ := Event.wakeTrig_trig (Event.wakeVal_trig ht)
      exact h2 (h.cur t g d h1).1
  refine ⟨⟨?_, fun t g d ht => absurd ht (key t g d), fun t => ?_⟩, key⟩
  · unfold reset
    dsimp only
    split
    · exact trigger_cbs h.cbs
    · exact h.cbs
  · unfold reset
    dsimp only
    split
    · simp only [evStep, if_true]
      rw [wake_now h.cbs]
      rcases h.only t with e | ⟨g, d, e⟩ | ⟨d, e⟩
      · rw [e]; exact .inl rfl
      · rw [e]; simp only [Event.wakeTrig]; split
        · exact .inr (.inr ⟨d, rfl⟩)
        · exact .inr (.inl ⟨g, d, rfl⟩)
      · rw [e]; exact .inr (.inr ⟨d, rfl⟩)
    · exact h.only t

theorem counted_wait {s : State} (h : Counted s) (t : Nat) (n : Nat) (hn : 0 < n) : Counted { s with ev := Event.awaitTrig s.ev t false, numWaiters := n } := by
  refine ⟨h.cbs, fun u g d hu => ⟨?_, hn⟩, fun u => ?_⟩
  · by_cases hut : u = t
    · subst hut
      simp only [Event.awaitTrig, Event.setTask, if_true] at hu
      split at hu
      · simp at hu
      · simp only [Task.trigWait.injEq] at hu; exact hu.1.symm
    · rw [awaitTrig_other hut] at hu; exact (h.cur u g d hu).1
  · by_cases hut : u = t
    · subst hut
      simp only [Event.awaitTrig, Event.setTask, if_true]
      split
      · exact .inr (.inr ⟨false, rfl⟩)
      · exact .inr (.inl ⟨_, false, rfl⟩)
    · rw [awaitTrig_other hut]; exact h.only u

theorem counted_setTask {s : State} (h : Counted s) (t : Nat) (f : Bool) : Counted { s with ev := Event.setTask { s.ev with fired := f } t .idle } := by
  refine ⟨h.cbs, fun u g d hu => ?_, fun u => ?_⟩ <;> by_cases hut : u = t
  · subst hut; simp [Event.setTask] at hu
  · simp only [Event.setTask, hut, if_false] at hu; exact h.cur u g d hu
  · subst hut; simp [Event.setTask]
  · simp only [Event.setTask, hut, if_false]; exact h.only u

theorem counted_step {s : State} (h : Counted s) {o : Op} (ho : patient o = true) : Counted (step s o).1 := by
  cases o with
  | waitFor t =>
    simp only [step]
    split
    · exact h
    · next hi =>
      have hid : s.ev.tasks t = .idle := by simpa using hi
      simp only [waitFor]
      split
      · exact h
      · have h1 : Counted { s with numWaiters := s.numWaiters + 1 } := ⟨h.cbs, fun u g d hu => ⟨(h.cur u g d hu).1, by show 0 < s.numWaiters + 1; omega⟩, h.only⟩
        split
        · split
          · exact ⟨h1.cbs, h1.cur, h1.only⟩
          · exact h1
        · simp only [evStep, Event.step, hid, ne_eq, not_true_eq_false, if_false]
          exact counted_wait h t (s.numWaiters + 1) (by omega)
  | reset w =>
    cases w with
    | true => exact (counted_reset h).1
    | false => simp [patient] at ho
  | setAutoReset v => exact ⟨h.cbs, h.cur, h.only⟩
  | setThreshold n =>
    simp only [step]
    split
    · exact (counted_reset (s := { s with threshold := n }) ⟨h.cbs, h.cur, h.only⟩).1
    · exact ⟨h.cbs, h.cur, h.only⟩
  | cancel => simp [patient] at ho
  | resume t =>
    simp only [step, evStep, Event.step]
    rcases h.only t with e | ⟨g, d, e⟩ | ⟨d, e⟩ <;> rw [e]
    · exact h
    · exact h
    · exact counted_setTask h t false
  | kill t => exact counted_setTask (s := s) h t s.ev.fired

theorem counted_run {s : State} (h : Counted s) (k : List Op) (hk : ∀ o ∈ k, patient o = true) : Counted (runS step s k) := by
  induction k generalizing s with
  | nil => exact h
  | cons o k ih => exact ih (counted_step h (hk o List.mem_cons_self)) fun o' ho' => hk o' (List.mem_cons_of_mem _ ho')

theorem runnable_step {s : State} {t : Nat} {d : Bool} (ht : s.ev.tasks t = .trigRun d) {o : Op} (ho : leaves t o = true) : (step s o).1.ev.tasks t = .trigRun d := by
  have hr : ∀ (s : State) w, s.ev.tasks t = .trigRun d → (reset s w).ev.tasks t = .trigRun d := by
    intro s w ht
    unfold reset
    dsimp only
    split
    · simp only [evStep]
      cases w with
      | true =>
        simp only [if_true]
        rw [Event.trigger_tasks]
        split
        · rw [ht]; rfl
        · exact ht
      | false =>
        show (Event.reset s.ev false).tasks t = _
        rw [Event.reset_tasks]; simp [ht, Event.wakeVal]
    · exact ht
  cases o with
  | waitFor u =>
    simp only [step]
    split
    · exact ht
    · next hi =>
      have hne : t ≠ u := fun e => hi (by rw [← e, ht]; simp)
      simp only [waitFor]
      split
      · exact ht
      · split
        · split <;> exact ht
        · have hid : s.ev.tasks u = .idle := by simpa using hi
          simp only [evStep, Event.step, hid, ne_eq, not_true_eq_false, if_false]
          rw [awaitTrig_other hne]; exact ht
  | reset w => exact hr s w ht
  | setThreshold n =>
    simp only [step]
    split
    · exact hr _ true ht
    · exact ht
  | setAutoReset v => exact ht
  | cancel => exact ht
  | resume u =>
    simp only [leaves, bne_iff_ne, ne_eq] at ho
    have hu : t ≠ u := fun e => ho e.symm
    simp only [step, evStep, Event.step]
    split <;> first | exact ht | (simp [Event.setTask, hu, ht]; done) |
      (split <;> simp [Event.setTask, Event.awaitVal, hu, ht])
  | kill u =>
    simp only [leaves, bne_iff_ne, ne_eq] at ho
    have : t ≠ u := fun e => ho e.symm
    simp [step, evStep, Event.step, Event.setTask, this, ht]

theorem resume_runnable {s : State} {t : Nat} {d : Bool} (ht : s.ev.tasks t = .trigRun d) : (step s (.resume t)).2 = .passed t := by
  simp only [step, Event.resume_trigRun ht, outOf]

theorem runnable_run {s : State} {t : Nat} {d : Bool} (ht : s.ev.tasks t = .trigRun d) (k : List Op) (hk : ∀ o ∈ k, leaves t o = true) :
    (runS step s k).ev.tasks t = .trigRun d := by
  induction k generalizing s with
  | nil => exact ht
  | cons o k ih => exact ih (runnable_step ht (hk o List.mem_cons_self)) fun o' ho' => hk o' (List.mem_cons_of_mem _ ho')

/-- C378, what holds: `reset` with wake-up, or a threshold set to at most the number of waiting processes, releases every process inside `wait_for`: whatever happens
before it is scheduled, it then passes; after a history without `cancel` and without a `reset` without wake-up. -/
theorem C378_reset_releases_partial (threshold : Int) (h : List Op) (hh : ∀ o ∈ h, patient o = true) (o : Op)
    (ho : o = .reset true ∨ ∃ n : Int, n ≤ (runS step (made threshold) h).numWaiters ∧ o = .setThreshold n) (t : Nat)
    (ht : Waiting (runS step (made threshold) h) t) (k : List Op) (hk : ∀ o ∈ k, leaves t o = true) :
    (step (runS step (made threshold) (h ++ o :: k)) (.resume t)).2 = .passed t := by
  have hC := counted_run (counted_made threshold) h hh
  rw [runS_append, runS_cons]
  generalize runS step (made threshold) h = s at hC ht ho
  have hpat : patient o = true := by rcases ho with rfl | ⟨n, _, rfl⟩ <;> rfl
  have idle : ∀ s : State, Counted s → s.ev.tasks t ≠ .idle → (reset s true).ev.tasks t ≠ .idle := by
    intro s hC h he
    unfold reset at he
    dsimp only at he
    split at he
    · simp only [evStep, if_true] at he
      rw [wake_now hC.cbs] at he
      exact h ((Event.wakes_idle _ _).1 he)
    · exact h he
  have run : ∃ d, (step s o).1.ev.tasks t = .trigRun d := by
    rcases ho with rfl | ⟨n, hn, rfl⟩
    · obtain ⟨h1, h2⟩ := counted_reset hC
      rcases h1.only t with e | ⟨g, d, e⟩ | e
      · exact absurd e (idle s hC ht)
      · exact absurd e (h2 t g d)
      · exact e
    · have hC' : Counted { s with threshold := n } := ⟨hC.cbs, hC.cur, hC.only⟩
      obtain ⟨h1, h2⟩ := counted_reset hC'
      simp only [step, hn, if_true]
      rcases h1.only t with e | ⟨g, d, e⟩ | e
      · exact absurd e (idle _ hC' ht)
      · exact absurd e (h2 t g d)
      · exact e
  obtain ⟨d, hd⟩ := run
  exact resume_runnable (runnable_run hd k hk)

example : (run step (made 3) [.waitFor 1, .waitFor 2, .reset true, .waitFor 3, .resume 1, .resume 2]).2 =
    [.blocked 1, .blocked 2, .nothing, .blocked 3, .passed 1, .passed 2] := by decide
example : (run step (made 3) [.waitFor 1, .waitFor 2, .setThreshold 2, .resume 1, .resume 2]).2 = [.blocked 1, .blocked 2, .nothing, .passed 1, .passed 2] := by decide

/-! ## Arrivals -/

/-- After the arrivals counted by `a`. -/
structure After (threshold : Int) (a : Nat) (s : State) : Prop where
  thr : s.threshold = threshold
  count : s.numWaiters = a ∨ (threshold ≤ s.numWaiters ∧ threshold ≤ a)
  atT : s.atThreshold = true → threshold ≤ s.numWaiters ∧ threshold ≤ a
  fired : s.ev.fired = false
  only : ∀ t, s.ev.tasks t = .idle ∨ ∃ g d, s.ev.tasks t = .trigWait g d

theorem after_made (n : Int) : After n 0 (made n) := ⟨rfl, .inl rfl, by simp [made], rfl, by simp [made, Event.init]⟩

theorem log_cons (s : State) (o : Op) (k : List Op) : log s (o :: k) = (o, (step s o).2) :: log (step s o).1 k := rfl

/-- What `wait_for` does after these arrivals. -/
theorem after_waitFor {threshold : Int} {a : Nat} {s : State} (h : After threshold a s) {t : Nat} (ht : s.ev.tasks t = .idle) :
    After threshold (a + 1) (step s (.waitFor t)).1 ∧ (step s (.waitFor t)).2 = if threshold ≤ (a : Int) + 1 then .passed t else .blocked t := by
  obtain ⟨h1, h2, h3, h4, h5⟩ := h
  simp only [step, ht, ne_eq, not_true_eq_false, if_false, waitFor]
  split
  · next hat =>
    obtain ⟨g1, g2⟩ := h3 hat
    exact ⟨⟨h1, .inr ⟨g1, by push_cast; omega⟩, fun _ => ⟨g1, by push_cast; omega⟩, h4, h5⟩, by rw [if_pos (by omega)]⟩
  · next hat =>
    split
    · next hle =>
      rw [h1] at hle
      have hle' : threshold ≤ (s.numWaiters : Int) + 1 := by exact_mod_cast hle
      have hA : threshold ≤ (a : Int) + 1 := by rcases h2 with e | ⟨_, e⟩ <;> omega
      refine ⟨?_, by rw [if_pos hA]⟩
      split
      · exact ⟨h1, .inr ⟨hle, by push_cast; omega⟩, fun _ => ⟨hle, by push_cast; omega⟩, h4, h5⟩
      · exact ⟨h1, .inr ⟨hle, by push_cast; omega⟩, fun hx => absurd hx hat, h4, h5⟩
    · next hle =>
      rw [h1] at hle
      have hle' : ¬ threshold ≤ (s.numWaiters : Int) + 1 := by exact_mod_cast hle
      have hc : s.numWaiters = a := by rcases h2 with e | ⟨e, _⟩ <;> omega
      refine ⟨⟨h1, .inl (by simp [evStep, hc]), fun hx => absurd hx hat, ?_, fun u => ?_⟩, by rw [if_neg (by omega)]⟩
      · simp only [evStep, Event.step, ht, ne_eq, not_true_eq_false, if_false]; exact h4
      · simp only [evStep, Event.step, ht, ne_eq, not_true_eq_false, if_false]
        by_cases hu : u = t
        · subst hu; simp [Event.awaitTrig, Event.setTask, h4]
        · rw [awaitTrig_other hu]; exact h5 u

theorem after_step {threshold : Int} {a : Nat} {s : State} (h : After threshold a s) {o : Op} (ho : arrival o = true) :
    After threshold (a + arrived [(o, (step s o).2)]) (step s o).1 := by
  cases o with
  | waitFor t =>
    by_cases ht : s.ev.tasks t = .idle
    · obtain ⟨h1, h2⟩ := after_waitFor h ht
      have : arrived [(.waitFor t, (step s (.waitFor t)).2)] = 1 := by rw [h2]; split <;> rfl
      rw [this]; exact h1
    · have e : step s (.waitFor t) = (s, .nothing) := by simp [step, ht]
      rw [e]; exact h
  | setAutoReset v => exact ⟨h.thr, h.count, by simp [step], h.fired, h.only⟩
  | resume t =>
    have e : (step s (.resume t)) = (s, .nothing) := by
      simp only [step, evStep, Event.step]
      rcases h.only t with e | ⟨g, d, e⟩ <;> rw [e] <;> rfl
    rw [e]; exact h
  | _ => simp [arrival] at ho

theorem arrived_cons (p : Op × Out) (l : List (Op × Out)) : arrived (p :: l) = arrived [p] + arrived l := by
  obtain ⟨o, r⟩ := p
  cases o <;> cases r <;> simp [arrived] <;> omega

theorem after_run {threshold : Int} {a : Nat} {s : State} (h : After threshold a s) (k : List Op) (hk : ∀ o ∈ k, arrival o = true) :
    After threshold (a + arrived (log s k)) (runS step s k) := by
  induction k generalizing a s with
  | nil => exact h
  | cons o k ih =>
    rw [log_cons, arrived_cons, ← Nat.add_assoc]
    exact ih (after_step h (hk o List.mem_cons_self)) fun o' ho' => hk o' (List.mem_cons_of_mem _ ho')

/-- C380, what holds: at a barrier that is not reset and whose threshold is not changed, whatever the schedule and the automatic reset, the process that calls
`wait_for` passes at once exactly if it is at least the `threshold`-th to do so, and the others never pass. -/
theorem C380_arrivals_partial (threshold : Int) (h : List Op) (hh : ∀ o ∈ h, arrival o = true) (t : Nat) :
    (¬ Waiting (runS step (made threshold) h) t →
      (step (runS step (made threshold) h) (.waitFor t)).2 = if threshold ≤ (arrived (log (made threshold) h) : Int) + 1 then .passed t else .blocked t) ∧
    (step (runS step (made threshold) h) (.resume t)).2 = .nothing := by
  have hA := after_run (after_made threshold) h hh
  rw [Nat.zero_add] at hA
  refine ⟨fun hw => (after_waitFor hA (by simpa [Waiting] using hw)).2, ?_⟩
  simp only [step, Event.step]
  rcases hA.only t with e | ⟨g, d, e⟩ <;> rw [e] <;> rfl

/-- C380 fails. A process can pass before enough others have arrived: a reset after one process passed leaves the event triggered. -/
theorem C380_early_fails :
    (run step (made 1) [.waitFor 1, .reset true, .setThreshold 3, .waitFor 2, .resume 2]).2 = [.passed 1, .nothing, .nothing, .blocked 2, .passed 2] := by decide

/-- C379 fails. A barrier with automatic reset does not block again: once the threshold is reached every further process passes. -/
theorem C379_rearm_fails (threshold : Int) (h k : List Op) (hh : ∀ o ∈ h ++ k, arrival o = true) (hr : threshold ≤ arrived (log (made threshold) h)) (t : Nat)
    (ht : ¬ Waiting (runS step (made threshold) (h ++ k)) t) : (step (runS step (made threshold) (h ++ k)) (.waitFor t)).2 = .passed t := by
  rw [(C380_arrivals_partial threshold (h ++ k) hh t).1 ht, if_pos]
  have : ∀ (s : State) (h k : List Op), arrived (log s (h ++ k)) = arrived (log s h) + arrived (log (runS step s h) k) := by
    intro s h k
    induction h generalizing s with
    | nil => simp [log, arrived, run]
    | cons o h ih =>
      have e1 := arrived_cons (o, (step s o).2) (log (step s o).1 (h ++ k))
      have e2 := arrived_cons (o, (step s o).2) (log (step s o).1 h)
      have e3 := ih (step s o).1
      rw [List.cons_append, log_cons, log_cons, runS_cons]; omega
  rw [this]; push_cast; omega

example : (run step (made 2) [.waitFor 1, .waitFor 2, .waitFor 3, .waitFor 4]).2 = [.blocked 1, .passed 2, .passed 3, .passed 4] := by decide
example : arrived (log (made 2) [.waitFor 1, .waitFor 2]) = 2 := by decide

/-! ## Without automatic reset -/

/-- The barrier is open exactly if enough processes have arrived. -/
structure Manual (threshold : Int) (a : Nat) (s : State) : Prop where
  after : After threshold a s
  auto : s.autoReset = false
  opened : 0 < a → threshold ≤ a → s.atThreshold = true

theorem manual_step {threshold : Int} {a : Nat} {s : State} (h : Manual threshold a s) {o : Op} (ho : plain o = true) :
    Manual threshold (a + arrived [(o, (step s o).2)]) (step s o).1 := by
  have hA := after_step h.after (o := o) (by cases o <;> simp_all [plain, arrival])
  cases o with
  | waitFor t =>
    by_cases ht : s.ev.tasks t = .idle
    · obtain ⟨h1, h2⟩ := after_waitFor h.after ht
      have e : arrived [(.waitFor t, (step s (.waitFor t)).2)] = 1 := by rw [h2]; split <;> rfl
      rw [e] at hA ⊢
      obtain ⟨⟨g1, g2, g3, g4, g5⟩, hauto, hopen⟩ := h
      refine ⟨hA, ?_, fun _ hle => ?_⟩
      · simp only [step, ht, ne_eq, not_true_eq_false, if_false, waitFor]
        split
        · exact hauto
        · split
          · simp only [hauto, if_true]
          · exact hauto
      · simp only [step, ht, ne_eq, not_true_eq_false, if_false, waitFor]
        split
        · next hat => exact hat
        · next hat =>
          have hle2 : threshold ≤ (a : Int) + 1 := by exact_mod_cast hle
          have : s.threshold ≤ ((s.numWaiters + 1 : Nat) : Int) := by
            rw [g1]; push_cast; rcases g2 with e | ⟨e, _⟩ <;> omega
          simp only [this, hauto, if_true]
    · have e : step s (.waitFor t) = (s, .nothing) := by simp [step, ht]
      rw [e]; exact h
  | resume t =>
    have e : (step s (.resume t)) = (s, .nothing) := by
      simp only [step, evStep, Event.step]
      rcases h.after.only t with e | ⟨g, d, e⟩ <;> rw [e] <;> rfl
    rw [e]; exact h
  | _ => simp [plain] at ho

theorem manual_run {threshold : Int} {a : Nat} {s : State} (h : Manual threshold a s) (k : List Op) (hk : ∀ o ∈ k, plain o = true) :
    Manual threshold (a + arrived (log s k)) (runS step s k) := by
  induction k generalizing a s with
  | nil => exact h
  | cons o k ih =>
    rw [log_cons, arrived_cons, ← Nat.add_assoc]
    exact ih (manual_step h (hk o List.mem_cons_self)) fun o' ho' => hk o' (List.mem_cons_of_mem _ ho')

theorem open_step {s : State} (h : s.atThreshold = true) {o : Op} (ho : keepsOpen o = true) : (step s o).1.atThreshold = true := by
  cases o with
  | waitFor t =>
    simp only [step]
    split
    · exact h
    · simp [waitFor, h]
  | cancel => exact h
  | resume t => exact h
  | kill t => exact h
  | _ => simp [keepsOpen] at ho

/-- C381. Without automatic reset an opened barrier stays open: after the threshold was reached, every process that calls `wait_for` passes, also after calls of
`cancel`, until the barrier is reset or its settings change. -/
theorem C381_stays_open (threshold : Int) (h : List Op) (hh : ∀ o ∈ h, plain o = true)
    (hr : threshold ≤ arrived (log (step (made threshold) (.setAutoReset false)).1 h)) (h0 : 0 < arrived (log (step (made threshold) (.setAutoReset false)).1 h))
    (k : List Op) (hk : ∀ o ∈ k, keepsOpen o = true) (t : Nat) (ht : ¬ Waiting (runS step (made threshold) (.setAutoReset false :: h ++ k)) t) :
    (step (runS step (made threshold) (.setAutoReset false :: h ++ k)) (.waitFor t)).2 = .passed t := by
  have hM : Manual threshold 0 (step (made threshold) (.setAutoReset false)).1 :=
    ⟨after_step (after_made threshold) (o := .setAutoReset false) rfl, rfl, fun h => absurd h (Nat.lt_irrefl 0)⟩
  have hO := manual_run hM h hh
  rw [Nat.zero_add] at hO
  have hat := hO.opened h0 hr
  have : (runS step (made threshold) (.setAutoReset false :: h ++ k)).atThreshold = true := by
    rw [List.cons_append, runS_cons, runS_append]
    generalize runS step (step (made threshold) (.setAutoReset false)).1 h = s at hat
    clear hO ht hr h0
    induction k generalizing s with
    | nil => exact hat
    | cons o k ih => exact ih (fun o' ho' => hk o' (List.mem_cons_of_mem _ ho')) _ (open_step hat (hk o List.mem_cons_self))
  have hi : (runS step (made threshold) (.setAutoReset false :: h ++ k)).ev.tasks t = .idle := by simpa [Waiting] using ht
  clear hM hO hat ht
  generalize runS step (made threshold) (.setAutoReset false :: h ++ k) = s at hi this
  simp only [step, waitFor, hi, this, ne_eq, not_true_eq_false, if_false, if_true]

example : (run step (made 2) [.setAutoReset false, .waitFor 1, .waitFor 2, .cancel, .waitFor 3, .waitFor 4]).2 =
    [.nothing, .blocked 1, .passed 2, .nothing, .passed 3, .passed 4] := by decide

/-- With automatic reset the barrier never stays open. -/
structure Automatic (a : Nat) (s : State) : Prop where
  auto : s.autoReset = true
  shut : s.atThreshold = false
  count : s.numWaiters = a

theorem automatic_step {a : Nat} {s : State} (h : Automatic a s) {o : Op} (ho : plain o = true) : Automatic (a + arrived [(o, (step s o).2)]) (step s o).1 := by
  obtain ⟨h1, h2, h3⟩ := h
  cases o with
  | waitFor t =>
    by_cases ht : s.ev.tasks t = .idle
    · by_cases hl : s.threshold ≤ ((s.numWaiters + 1 : Nat) : Int)
      · have e : step s (.waitFor t) = ({ s with numWaiters := s.numWaiters + 1 }, .passed t) := by
          simp only [step, ht, ne_eq, not_true_eq_false, if_false, waitFor, h1, h2, hl, if_true, Bool.false_eq_true, Bool.true_eq_false]
        rw [e]; exact ⟨h1, h2, by simp [h3, arrived]⟩
      · have e : step s (.waitFor t) = (evStep { s with numWaiters := s.numWaiters + 1 } (.waitTrigger t false), .blocked t) := by
          simp only [step, ht, ne_eq, not_true_eq_false, if_false, waitFor, h2, hl, Bool.false_eq_true]
        rw [e]; exact ⟨h1, h2, by simp [h3, arrived, evStep]⟩
    · have e : step s (.waitFor t) = (s, .nothing) := by simp [step, ht]
      rw [e]; exact ⟨h1, h2, h3⟩
  | resume t => exact ⟨h1, h2, h3⟩
  | _ => simp [plain] at ho

theorem automatic_run {a : Nat} {s : State} (h : Automatic a s) (k : List Op) (hk : ∀ o ∈ k, plain o = true) : Automatic (a + arrived (log s k)) (runS step s k) := by
  induction k generalizing a s with
  | nil => exact h
  | cons o k ih =>
    rw [log_cons, arrived_cons, ← Nat.add_assoc]
    exact ih (automatic_step h (hk o List.mem_cons_self)) fun o' ho' => hk o' (List.mem_cons_of_mem _ ho')

/-- C381. A new barrier resets automatically: whether or not its threshold was reached before, after `set_threshold(n)` to more than the processes that have arrived
and the next one, the next process blocks. -/
theorem C381_automatic (threshold n : Int) (h : List Op) (hh : ∀ o ∈ h, plain o = true) (hn : (arrived (log (made threshold) h) : Int) + 1 < n) (t : Nat)
    (ht : ¬ Waiting (runS step (made threshold) (h ++ [.setThreshold n])) t) :
    (step (runS step (made threshold) (h ++ [.setThreshold n])) (.waitFor t)).2 = .blocked t := by
  obtain ⟨h1, h2, h3⟩ := automatic_run (s := made threshold) (a := 0) ⟨rfl, rfl, rfl⟩ h hh
  rw [Nat.zero_add] at h3
  have hi : (runS step (made threshold) (h ++ [.setThreshold n])).ev.tasks t = .idle := by simpa [Waiting] using ht
  rw [runS_append] at hi ⊢
  generalize runS step (made threshold) h = s at *
  have e : runS step s [.setThreshold n] = { s with threshold := n } := by
    have : ¬ n ≤ (s.numWaiters : Int) := by omega
    simp only [runS_cons, runS_nil, step, this, if_false]
  rw [e] at hi ⊢
  have hi : s.ev.tasks t = .idle := hi
  have hl : ¬ n ≤ ((s.numWaiters + 1 : Nat) : Int) := by push_cast; omega
  simp only [step, hi, ne_eq, not_true_eq_false, if_false, waitFor, h2, hl, Bool.false_eq_true]

example : (run step (made 2) [.waitFor 1, .waitFor 2, .setThreshold 4, .waitFor 3, .waitFor 4]).2 = [.blocked 1, .passed 2, .nothing, .blocked 3, .passed 4] := by decide

/-! ## The number of waiting processes -/

/-- Below the threshold barrier and event count the same. -/
theorem both_count {threshold : Int} {s : State} (hs : s.threshold = threshold) (hat : s.atThreshold = false) (hc : s.ev.numWaiters = s.numWaiters) (ho : ∀ t, s.ev.tasks t = .idle ∨ ∃ g d, s.ev.tasks t = .trigWait g d)
    (hf : s.ev.fired = false) (k : List Op) (hk : ∀ o ∈ k, arrival o = true) (hlt : (s.numWaiters : Int) + arrived (log s k) < threshold) :
    (runS step s k).numWaiters = s.numWaiters + arrived (log s k) ∧ (runS step s k).ev.numWaiters = s.numWaiters + arrived (log s k) := by
  induction k generalizing s with
  | nil => exact ⟨rfl, hc⟩
  | cons o k ih =>
    have e1 := arrived_cons (o, (step s o).2) (log (step s o).1 k)
    rw [log_cons] at hlt ⊢
    rw [runS_cons]
    have hk' : ∀ o' ∈ k, arrival o' = true := fun o' ho' => hk o' (List.mem_cons_of_mem _ ho')
    have hoo := hk o List.mem_cons_self
    cases o with
    | waitFor t =>
      by_cases ht : s.ev.tasks t = .idle
      · have hnl : ¬ s.threshold ≤ ((s.numWaiters + 1 : Nat) : Int) := by
          intro hle
          have : (step s (.waitFor t)).2 = .passed t := by simp only [step, ht, ne_eq, not_true_eq_false, if_false, waitFor, hat, hle, if_true, Bool.false_eq_true]
          rw [this] at e1 hlt
          simp only [arrived] at e1 hlt
          rw [hs] at hle
          push_cast at hle hlt; omega
        have hst : step s (.waitFor t) = (evStep { s with numWaiters := s.numWaiters + 1 } (.waitTrigger t false), .blocked t) := by
          simp only [step, ht, ne_eq, not_true_eq_false, if_false, waitFor, hat, Bool.false_eq_true, hnl]
        rw [hst] at e1 hlt ⊢
        have := ih (s := evStep { s with numWaiters := s.numWaiters + 1 } (.waitTrigger t false)) hs hat
          (by simp only [evStep, Event.step, ht, ne_eq, not_true_eq_false, if_false, Event.awaitTrig, Event.setTask, hc])
          (by
            intro u
            simp only [evStep, Event.step, ht, ne_eq, not_true_eq_false, if_false]
            by_cases hu : u = t
            · subst hu; simp [Event.awaitTrig, Event.setTask, hf]
            · rw [awaitTrig_other hu]; exact ho u)
          (by simp only [evStep, Event.step, ht, ne_eq, not_true_eq_false, if_false]; exact hf) hk'
          (by simp only [arrived] at hlt ⊢; simp only [evStep] at hlt ⊢; push_cast at hlt ⊢; omega)
        simp only [evStep, arrived] at this ⊢
        omega
      · have e : step s (.waitFor t) = (s, .nothing) := by simp [step, ht]
        rw [e] at hlt ⊢
        exact ih hs hat hc ho hf hk' hlt
    | setAutoReset v => exact ih (s := { s with atThreshold := false, autoReset := v }) hs rfl hc ho hf hk' hlt
    | resume t =>
      have e : (step s (.resume t)) = (s, .nothing) := by
        simp only [step, evStep, Event.step]
        rcases ho t with e | ⟨g, d, e⟩ <;> rw [e] <;> rfl
      rw [e] at hlt ⊢
      exact ih hs hat hc ho hf hk' hlt
    | _ => simp [arrival] at hoo

/-- C382, what holds: as long as the threshold is not reached, `get_num_waiters` is the number of processes that have arrived, `cancel` lowers it by one, and
`reset` makes it zero and keeps the threshold. -/
theorem C382_number_partial (threshold : Int) (h : List Op) (hh : ∀ o ∈ h, arrival o = true) (hlt : (arrived (log (made threshold) h) : Int) < threshold) (w : Bool) :
    let s := runS step (made threshold) h
    s.numWaiters = arrived (log (made threshold) h) ∧ (step s .cancel).1.numWaiters = arrived (log (made threshold) h) - 1 ∧
    (step s (.reset w)).1.numWaiters = 0 ∧ (step s (.reset w)).1.threshold = threshold := by
  intro s
  obtain ⟨h1, h2⟩ := both_count (s := made threshold) rfl rfl rfl (by simp [made, Event.init]) rfl h hh (by simpa [made] using hlt)
  rw [show (made threshold).numWaiters = 0 from rfl, Nat.zero_add] at h1 h2
  refine ⟨h1, ?_, ?_, ?_⟩
  · show s.ev.numWaiters - 1 = _
    rw [h2]
  · simp only [step, reset]
  · have hA := (after_run (after_made threshold) h hh).thr
    simp only [step, reset]
    split <;> exact hA

/-- C382 fails. After the threshold was reached the processes that passed are still counted as waiting, and `cancel` takes them all away. -/
theorem C382_number_fails : (runS step (made 2) [.waitFor 1, .waitFor 2]).numWaiters = 2 ∧ (runS step (made 2) [.waitFor 1, .waitFor 2, .waitFor 3, .cancel]).numWaiters = 0 := by
  decide

example : (runS step (made 3) [.waitFor 1, .waitFor 2]).numWaiters = 2 ∧ (runS step (made 3) [.waitFor 1, .waitFor 2, .cancel]).numWaiters = 1 := by decide

end Verif.Barrier
