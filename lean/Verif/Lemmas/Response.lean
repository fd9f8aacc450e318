import Verif.Spec.Response
/-! # Lemmas about the response queue -/
namespace Verif.Response
variable {α : Type} {tid : α → Int}

theorem takeId_some {id : Int} {q : List α} {r : α × List α} (h : takeId tid id q = some r) :
    ∃ a b, q = a ++ r.1 :: b ∧ r.2 = a ++ b ∧ tid r.1 = id ∧ ∀ y ∈ a, tid y ≠ id := by
  induction q generalizing r with
  | nil => simp [takeId] at h
  | cons x q ih =>
    rw [takeId] at h
    by_cases hx : tid x = id
    · rw [if_pos hx] at h
      obtain rfl := Option.some.inj h
      exact ⟨[], q, by simp, by simp, hx, by simp⟩
    · rw [if_neg hx] at h
      cases hq : takeId tid id q with
      | none => simp [hq] at h
      | some r' =>
        simp only [hq, Option.map_some, Option.some.injEq] at h
        subst h
        obtain ⟨a, b, h1, h2, h3, h4⟩ := ih hq
        refine ⟨x :: a, b, by simp [← h1], by simp [h2], h3, ?_⟩
        intro y hy
        rcases List.mem_cons.mp hy with rfl | hy
        · exact hx
        · exact h4 y hy

theorem takeId_none {id : Int} {q : List α} (h : takeId tid id q = none) : ∀ y ∈ q, tid y ≠ id := by
  induction q with
  | nil => simp
  | cons x q ih =>
    rw [takeId] at h
    by_cases hx : tid x = id
    · rw [if_pos hx] at h; cases h
    · rw [if_neg hx] at h
      simp only [Option.map_eq_none_iff] at h
      intro y hy
      rcases List.mem_cons.mp hy with rfl | hy
      · exact hx
      · exact ih h y hy

theorem abs_setTask (s : State α) (t : Nat) (k : Task) :
    abs (setTask s t k) = { abs s with pend := setPend (abs s).pend t (waitingFor k) } := by
  simp only [abs, setTask, A.mk.injEq, true_and]
  funext u
  simp only [setPend]
  split <;> rfl

theorem abs_setEvent (s : State α) : abs (setEvent s) = abs s := by
  simp only [abs, setEvent, A.mk.injEq, true_and]
  funext u
  cases s.tasks u <;> rfl

theorem abs_fired (s : State α) (b : Bool) : abs { s with fired := b } = abs s := rfl

theorem abs_queue (s : State α) (q : List α) : abs { s with queue := q } = { abs s with q := q } := rfl

/-- Outcome of an attempt on a queue that has been found non-empty. -/
theorem attempt_spec (s : State α) (t : Nat) (id : Int) (hq : id = -1 → s.queue ≠ []) :
    (∃ x q', (attempt tid s t id).2 = .got t id x ∧ Obtains tid id s.queue x q' ∧
      abs (attempt tid s t id).1 = { abs s with q := q', pend := setPend (abs s).pend t none }) ∨
    ((attempt tid s t id).2 = .blocked ∧ Nothing tid id s.queue ∧ abs (attempt tid s t id).1 = { abs s with pend := setPend (abs s).pend t (some id) }) := by
  unfold attempt
  by_cases hid : id = -1
  · rw [if_pos hid]
    left
    cases hs : s.queue with
    | nil => exact absurd hs (hq hid)
    | cons x q => exact ⟨x, q, rfl, by simp [Obtains, hid], by rw [abs_setTask, abs_queue]; rfl⟩
  · rw [if_neg hid]
    cases ht : takeId tid id s.queue with
    | none => right; exact ⟨rfl, by simpa [Nothing, hid] using takeId_none ht, by rw [abs_setTask]; rfl⟩
    | some r =>
      left
      refine ⟨r.1, r.2, rfl, ?_, by rw [abs_setTask, abs_setEvent, abs_queue]; rfl⟩
      rw [Obtains, if_neg hid]
      exact takeId_some ht

theorem start_spec (s : State α) (t : Nat) (id : Int) :
    (∃ x q', (start tid s t id).2 = .got t id x ∧ Obtains tid id s.queue x q' ∧
      abs (start tid s t id).1 = { abs s with q := q', pend := setPend (abs s).pend t none }) ∨
    ((start tid s t id).2 = .blocked ∧ Nothing tid id s.queue ∧ abs (start tid s t id).1 = { abs s with pend := setPend (abs s).pend t (some id) }) := by
  unfold start
  by_cases hl : s.queue.length = 0
  · rw [if_pos hl]
    right
    have : s.queue = [] := List.eq_nil_of_length_eq_zero hl
    exact ⟨rfl, by rw [this]; simp [Nothing], by rw [abs_setTask]; rfl⟩
  · rw [if_neg hl]
    exact attempt_spec s t id fun _ h => hl (by simp [h])

/-- Suspended coroutines wait for a real id in the second stage. -/
def MoreOk (s : State α) : Prop := ∀ t id n w, s.tasks t = .more id n w → id ≠ -1

theorem moreOk_wake {s : State α} (h : MoreOk s) (q : List α) : MoreOk (setEvent { s with queue := q }) := by
  intro t id n w ht
  simp only [setEvent] at ht
  cases hs : s.tasks t with
  | idle => simp [hs, wake] at ht
  | first i w' => simp [hs, wake] at ht
  | more i m w' =>
    simp only [hs, wake, Task.more.injEq] at ht
    exact ht.1 ▸ h t i m w' hs

theorem moreOk_setTask {s : State α} (h : MoreOk s) (t : Nat) (k : Task) (hk : ∀ id n w, k = .more id n w → id ≠ -1) :
    MoreOk (setTask s t k) := by
  intro u id n w hu
  simp only [setTask] at hu
  split at hu
  · exact hk _ _ _ hu
  · exact h _ _ _ _ hu

theorem moreOk_attempt {s : State α} (h : MoreOk s) (t : Nat) (id : Int) : MoreOk (attempt tid s t id).1 := by
  unfold attempt
  by_cases hid : id = -1
  · rw [if_pos hid]
    cases s.queue with
    | nil => exact moreOk_setTask h t .idle (by simp)
    | cons x q => exact moreOk_setTask (s := { s with queue := q }) h t .idle (by simp)
  · rw [if_neg hid]
    cases takeId tid id s.queue with
    | none => exact moreOk_setTask h t _ (by simp; intros; omega)
    | some r => exact moreOk_setTask (moreOk_wake h r.2) t .idle (by simp)

theorem moreOk_start {s : State α} (h : MoreOk s) (t : Nat) (id : Int) : MoreOk (start tid s t id).1 := by
  unfold start
  split
  · exact moreOk_setTask h t _ (by simp)
  · exact moreOk_attempt h t id

theorem moreOk_step {s : State α} (h : MoreOk s) (op : Op α) : MoreOk (step tid s op).1 := by
  cases op with
  | put x =>
    simp only [step, put]
    split
    · exact moreOk_wake h _
    · exact h
  | get t id =>
    simp only [step]
    cases s.tasks t with
    | idle => exact moreOk_start h t id
    | first i w => exact h
    | more i n w => exact h
  | resume t =>
    simp only [step]
    cases hs : s.tasks t with
    | idle => exact h
    | first i w =>
      cases w
      · exact h
      · exact moreOk_start (s := { s with fired := false }) h t i
    | more i n w =>
      cases w
      · exact h
      · simp only
        split
        · exact moreOk_attempt (s := { s with fired := false }) h t i
        · refine moreOk_setTask (s := { s with fired := false }) h t _ ?_
          intro id m w hk
          simp only [Task.more.injEq] at hk
          exact hk.1 ▸ h t i n true hs
  | kill t => exact moreOk_setTask h t .idle (by simp)
  | clear => exact moreOk_wake h _
  | setDepth d => exact h
  | setErrDisabled b => exact h

theorem setPend_self (p : Nat → Option Int) (t : Nat) : setPend p t (p t) = p := by
  funext u
  simp only [setPend]
  split
  next h => rw [h]
  · rfl

/-- Every step is allowed. -/
theorem step_rel {s : State α} (h : MoreOk s) (op : Op α) : Rel tid (abs s) op (step tid s op).2 (abs (step tid s op).1) := by
  cases op with
  | put x =>
    simp only [step, put]
    by_cases hc : s.depth = -1 ∨ (s.queue.length : Int) < s.depth
    · rw [if_pos hc]
      simp only [abs_setEvent]
      exact .stored (a := abs s) hc
    · rw [if_neg hc]
      rw [not_or] at hc
      have := Rel.dropped (tid := tid) (a := abs s) (x := x) hc.1 (by have := hc.2; simp only [abs]; omega)
      simpa [abs] using this
  | get t id =>
    simp only [step]
    cases hs : s.tasks t with
    | idle =>
      have hp : (abs s).pend t = none := by simp [abs, hs, waitingFor]
      rcases start_spec (tid := tid) s t id with ⟨x, q', h1, h2, h3⟩ | ⟨h1, h2, h3⟩
      · simp only [h1, h3]
        have := Rel.got (tid := tid) (a := abs s) hp h2
        have e := setPend_self (abs s).pend t
        rw [hp] at e
        rwa [e]
      · simp only [h1, h3]; exact .blocked (a := abs s) hp h2
    | first i w => exact .busy (by simp [abs, hs, waitingFor])
    | more i n w => exact .busy (by simp [abs, hs, waitingFor])
  | resume t =>
    simp only [step]
    cases hs : s.tasks t with
    | idle => exact .spurious
    | first i w =>
      have hp : (abs s).pend t = some i := by simp [abs, hs, waitingFor]
      cases w
      · exact .spurious
      · rcases start_spec (tid := tid) { s with fired := false } t i with ⟨x, q', h1, h2, h3⟩ | ⟨h1, h2, h3⟩
        · simp only [h1, h3]; exact .resumed (a := abs s) hp h2
        · simp only [h1, h3, abs_fired]
          have e := setPend_self (abs s).pend t
          rw [hp] at e
          rw [e]
          exact .again (by simp [hp])
    | more i n w =>
      have hp : (abs s).pend t = some i := by simp [abs, hs, waitingFor]
      have e := setPend_self (abs s).pend t
      rw [hp] at e
      cases w
      · exact .spurious
      · simp only
        split
        · rcases attempt_spec (tid := tid) { s with fired := false } t i (fun hi => absurd hi (h t i n true hs)) with
            ⟨x, q', h1, h2, h3⟩ | ⟨h1, h2, h3⟩
          · simp only [h1, h3]; exact .resumed (a := abs s) hp h2
          · simp only [h1, h3, abs_fired, e]
            exact .again (by simp [hp])
        · simp only [abs_setTask, abs_fired, waitingFor, e]
          exact .again (by simp [hp])
  | kill t => simp only [step, abs_setTask, waitingFor]; exact .kill
  | clear => simp only [step, abs_setEvent, abs_queue]; exact .clear
  | setDepth d => exact .depth
  | setErrDisabled b => exact .off

theorem run_rel {s : State α} (h : MoreOk s) (ops : List (Op α)) :
    Trace (Rel tid) (abs s) ops (run (step tid) s ops).2 (abs (run (step tid) s ops).1) := by
  induction ops generalizing s with
  | nil => exact .nil _
  | cons op ops ih => exact .cons (step_rel h op) (ih (moreOk_step h op))

theorem moreOk_init : MoreOk ({} : State α) := by intro t id n w h; cases h

/-- No coroutine sleeps waiting for a non-empty queue while the queue is non-empty. -/
def FirstOk (s : State α) : Prop := ∀ t id, s.tasks t = .first id false → s.queue = [] ∧ s.fired = false

theorem wake_ne_first (k : Task) (id : Int) : wake k ≠ .first id false := by cases k <;> simp [wake]

theorem firstOk_wake (s : State α) : FirstOk (setEvent s) := by
  intro t id ht
  exact absurd ht (wake_ne_first _ _)

theorem firstOk_setTask {s : State α} (h : FirstOk s) (t : Nat) (k : Task)
    (hk : ∀ id, k = .first id false → s.queue = [] ∧ s.fired = false) : FirstOk (setTask s t k) := by
  intro u id hu
  simp only [setTask] at hu
  split at hu
  · exact hk _ hu
  · exact h _ _ hu

theorem firstOk_clear {s : State α} (h : FirstOk s) : FirstOk { s with fired := false } :=
  fun t id ht => ⟨(h t id ht).1, rfl⟩

theorem firstOk_attempt {s : State α} (h : FirstOk s) (t : Nat) (id : Int) : FirstOk (attempt tid s t id).1 := by
  unfold attempt
  by_cases hid : id = -1
  · rw [if_pos hid]
    cases hq : s.queue with
    | nil => exact firstOk_setTask h t .idle (by simp)
    | cons x q =>
      refine firstOk_setTask (s := { s with queue := q }) ?_ t .idle (by simp)
      intro u i hu
      have := (h u i hu).1
      rw [hq] at this
      cases this
  · rw [if_neg hid]
    cases takeId tid id s.queue with
    | none => exact firstOk_setTask h t _ (by simp)
    | some r => exact firstOk_setTask (firstOk_wake _) t .idle (by simp)

theorem firstOk_start {s : State α} (h : FirstOk s) (t : Nat) (id : Int) : FirstOk (start tid s t id).1 := by
  unfold start
  split
  next hl =>
    refine firstOk_setTask h t _ ?_
    intro i hi
    simp only [Task.first.injEq] at hi
    exact ⟨List.eq_nil_of_length_eq_zero hl, hi.2⟩
  · exact firstOk_attempt h t id

theorem firstOk_step {s : State α} (h : FirstOk s) (op : Op α) : FirstOk (step tid s op).1 := by
  cases op with
  | put x =>
    simp only [step, put]
    split
    · exact firstOk_wake _
    · exact h
  | get t id =>
    simp only [step]
    cases s.tasks t with
    | idle => exact firstOk_start h t id
    | first i w => exact h
    | more i n w => exact h
  | resume t =>
    simp only [step]
    cases s.tasks t with
    | idle => exact h
    | first i w =>
      cases w
      · exact h
      · exact firstOk_start (firstOk_clear h) t i
    | more i n w =>
      cases w
      · exact h
      · simp only
        split
        · exact firstOk_attempt (firstOk_clear h) t i
        · exact firstOk_setTask (firstOk_clear h) t _ (by simp)
  | kill t => exact firstOk_setTask h t .idle (by simp)
  | clear => exact firstOk_wake _
  | setDepth d => exact h
  | setErrDisabled b => exact h

/-- One getter: while it sleeps in the second stage, the queue is as it found it. -/
def OneInv (tid : α → Int) (t : Nat) (s : State α) : Prop :=
  (∀ u, u ≠ t → s.tasks u = .idle) ∧
  ∀ id n w, s.tasks t = .more id n w →
    n ≤ s.queue.length ∧ (∀ y ∈ s.queue.take n, tid y ≠ id) ∧ (w = false → s.queue.length = n)

theorem oneInv_attempt {t : Nat} {s : State α} (h : OneInv tid t s) (id : Int) : OneInv tid t (attempt tid s t id).1 := by
  have hu : ∀ (s' : State α) (k : Task), (∀ u, u ≠ t → s'.tasks u = .idle) → ∀ u, u ≠ t → (setTask s' t k).tasks u = .idle := by
    intro s' k hs u hne
    simp only [setTask, if_neg hne]
    exact hs u hne
  unfold attempt
  by_cases hid : id = -1
  · rw [if_pos hid]
    cases s.queue with
    | nil => exact ⟨hu _ _ h.1, by intro i n w hi; simp [setTask] at hi⟩
    | cons x q => exact ⟨hu _ _ h.1, by intro i n w hi; simp [setTask] at hi⟩
  · rw [if_neg hid]
    cases ht : takeId tid id s.queue with
    | none =>
      refine ⟨hu _ _ h.1, ?_⟩
      intro i n w hi
      simp only [setTask, if_true, Task.more.injEq] at hi
      obtain ⟨rfl, rfl, rfl⟩ := hi
      refine ⟨Nat.le_refl _, ?_, fun _ => rfl⟩
      simpa [setTask] using takeId_none ht
    | some r =>
      refine ⟨hu _ _ ?_, by intro i n w hi; simp [setTask] at hi⟩
      intro u hne
      simp [setEvent, h.1 u hne, wake]

theorem oneInv_fired {t : Nat} {s : State α} (h : OneInv tid t s) (b : Bool) : OneInv tid t { s with fired := b } := h

theorem oneInv_start {t : Nat} {s : State α} (h : OneInv tid t s) (id : Int) : OneInv tid t (start tid s t id).1 := by
  unfold start
  split
  · refine ⟨?_, by intro i n w hi; simp [setTask] at hi⟩
    intro u hne
    simp only [setTask, if_neg hne]
    exact h.1 u hne
  · exact oneInv_attempt h id

theorem oneInv_step {t : Nat} {s : State α} (h : OneInv tid t s) (op : Op α) (hop : OneGetter t [op]) :
    OneInv tid t (step tid s op).1 := by
  cases op with
  | put x =>
    simp only [step, put]
    split
    · refine ⟨fun u hne => by simp [setEvent, h.1 u hne, wake], ?_⟩
      intro id n w hw
      simp only [setEvent] at hw
      cases hs : s.tasks t with
      | idle => simp [hs, wake] at hw
      | first i w' => simp [hs, wake] at hw
      | more i m w' =>
        simp only [hs, wake, Task.more.injEq] at hw
        obtain ⟨rfl, rfl, rfl⟩ := hw
        obtain ⟨h1, h2, h3⟩ := h.2 _ _ _ hs
        refine ⟨by simp [setEvent]; omega, ?_, by simp⟩
        simp only [setEvent, List.take_append_of_le_length h1]
        exact h2
    · exact h
  | get u id =>
    obtain rfl : u = t := hop.1
    simp only [step]
    cases s.tasks u with
    | idle => exact oneInv_start h id
    | first i w => exact h
    | more i n w => exact h
  | resume u =>
    by_cases hne : u = t
    · subst hne
      simp only [step]
      cases hs : s.tasks u with
      | idle => exact h
      | first i w =>
        cases w
        · exact h
        · exact oneInv_start (oneInv_fired h false) i
      | more i n w =>
        cases w
        · exact h
        · simp only
          split
          · exact oneInv_attempt (oneInv_fired h false) i
          next hn =>
            refine ⟨fun v hv => by simp only [setTask, if_neg hv]; exact h.1 v hv, ?_⟩
            intro id m w hm
            simp only [setTask, if_true, Task.more.injEq] at hm
            obtain ⟨rfl, rfl, rfl⟩ := hm
            obtain ⟨h1, h2, -⟩ := h.2 _ _ _ hs
            exact ⟨h1, h2, fun _ => Decidable.not_not.mp hn⟩
    · simp only [step, h.1 u hne]
      exact h
  | kill u =>
    refine ⟨fun v hv => ?_, ?_⟩
    · simp only [step, setTask]
      split
      · rfl
      · exact h.1 v hv
    · intro id n w hw
      simp only [step, setTask] at hw
      split at hw
      · cases hw
      · exact h.2 _ _ _ hw
  | clear => exact absurd hop id
  | setDepth d => exact h
  | setErrDisabled b => exact h

theorem oneGetter_cons {t : Nat} {op : Op α} {ops : List (Op α)} (h : OneGetter t (op :: ops)) :
    OneGetter t [op] ∧ OneGetter t ops := by
  cases op <;> simp_all [OneGetter]

theorem oneInv_run {t : Nat} {s : State α} (h : OneInv tid t s) (ops : List (Op α)) (hops : OneGetter t ops) :
    OneInv tid t (runS (step tid) s ops) := by
  induction ops generalizing s with
  | nil => exact h
  | cons op ops ih =>
    have := oneGetter_cons hops
    exact ih (oneInv_step h op this.1) this.2

end Verif.Response
