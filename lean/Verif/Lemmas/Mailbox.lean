import Verif.Spec.Mailbox
import Verif.Util.Machine
namespace Verif.Mailbox
variable {α : Type}

/-- Accounting of one step. -/
theorem step_account (s : State α) (e : Ev α) :
    s.queue ++ ((accepted (step s e).2).toList) =
      (delivered (step s e).2).toList ++ (step s e).1.queue := by
  have hput : ∀ (s : State α) t x, s.queue ++ (accepted (putLoop s t x).2).toList =
      (delivered (putLoop s t x).2).toList ++ (putLoop s t x).1.queue := by
    intro s t x; simp only [putLoop]; split <;> simp [accepted, delivered, waitRead, setTask, setWrite]
  have hget : ∀ (s : State α) t, s.queue ++ (accepted (getLoop s t).2).toList =
      (delivered (getLoop s t).2).toList ++ (getLoop s t).1.queue := by
    intro s t; simp only [getLoop]
    split
    · simp [accepted, delivered, waitWrite, setTask]
    · cases h : s.queue <;> simp [accepted, delivered, setTask, setRead, h]
  cases e with
  | callPut t x => simp only [step]; split <;> first | exact hput _ _ _ | simp [accepted, delivered]
  | callGet t => simp only [step]; split <;> first | exact hget _ _ | simp [accepted, delivered]
  | callPeek t =>
    simp only [step]; split
    · split <;> simp [accepted, delivered, waitWrite, setTask, peekTail]
    · simp [accepted, delivered]
  | resume t =>
    simp only [step]; split
    · exact hput { s with readFired := false } t _
    · exact hget { s with writeFired := false } t
    · simp [accepted, delivered, setTask, peekTail]
    · simp [accepted, delivered]
  | kill t => simp [step, accepted, delivered, setTask]
  | tryPut x => simp only [step]; split <;> simp [accepted, delivered, setWrite]
  | tryGet =>
    simp only [step]; split
    · cases h : s.queue <;> simp [accepted, delivered, setRead, h]
    · simp [accepted, delivered]
  | tryPeek => simp only [step]; split <;> simp [accepted, delivered]
  | num => simp [step, accepted, delivered]

theorem run_account (s : State α) (es : List (Ev α)) :
    s.queue ++ (run step s es).2.filterMap accepted =
      (run step s es).2.filterMap delivered ++ (run step s es).1.queue := by
  induction es generalizing s with
  | nil => simp [run]
  | cons e es ih =>
    have h := step_account s e
    have ih := ih (step s e).1
    simp only [run]
    have c : ∀ (f : Out α → Option α) (o : Out α) (os : List (Out α)),
        (o :: os).filterMap f = (f o).toList ++ os.filterMap f := by
      intro f o os; simp only [List.filterMap_cons]; cases f o <;> rfl
    rw [c, c, ← List.append_assoc, h, List.append_assoc, ih, List.append_assoc]

/-- The invariant. -/
structure Inv (m : Int) (s : State α) : Prop where
  size : s.maxSize = m
  cap : 0 < m → (s.queue.length : Int) ≤ m
  noLostGet : ∀ t, StuckGet s t ∨ StuckPeek s t → s.queue = []
  noLostPut : ∀ t, StuckPut s t → 0 < m ∧ (s.queue.length : Int) = m

theorem inv_init (m : Int) : Inv m (init m : State α) := by
  constructor
  · rfl
  · intro h; simp [init]; omega
  · intro t h; simp [init]
  · intro t h; simp [StuckPut, init] at h

theorem inv_idle {m : Int} {s : State α} (h : Inv m s) (t : Nat) : Inv m (setTask s t .idle) := by
  refine ⟨h.size, h.cap, ?_, ?_⟩
  · intro u hu
    simp only [StuckGet, StuckPeek, setTask] at hu
    split at hu
    · simp at hu
    · exact h.noLostGet u hu
  · intro u hu
    simp only [StuckPut, setTask] at hu
    split at hu
    · simp at hu
    · exact h.noLostPut u hu

theorem inv_setWrite_push {m : Int} {s : State α} (h : Inv m s) (x : α) (hc : canPut s = true) :
    Inv m (setWrite { s with queue := s.queue ++ [x] }) := by
  have hlt : 0 < m → (s.queue.length : Int) < m := by
    intro hm; simp only [canPut, h.size] at hc; rw [if_neg (by omega)] at hc; simpa using hc
  refine ⟨h.size, ?_, ?_, ?_⟩
  · intro hm; have := hlt hm; simp [setWrite]; omega
  · intro u hu
    simp only [StuckGet, StuckPeek, setWrite] at hu
    cases hk : s.tasks u <;> rw [hk] at hu <;> simp at hu
  · intro u hu
    obtain ⟨y, hy⟩ := hu
    simp only [setWrite] at hy
    have : StuckPut s u := by
      cases hk : s.tasks u <;> rw [hk] at hy <;> simp at hy
      exact ⟨_, hk⟩
    have := h.noLostPut u this
    have := hlt this.1
    omega

theorem inv_setRead_pop {m : Int} {s : State α} (h : Inv m s) {x : α} {q : List α} (hq : s.queue = x :: q) :
    Inv m (setRead { s with queue := q }) := by
  refine ⟨h.size, ?_, ?_, ?_⟩
  · intro hm; have := h.cap hm; rw [hq] at this; simp [setRead] at this ⊢; omega
  · intro u hu
    have : StuckGet s u ∨ StuckPeek s u := by
      simp only [StuckGet, StuckPeek, setRead] at hu ⊢
      cases hk : s.tasks u <;> rw [hk] at hu <;> simp at hu ⊢
    have := h.noLostGet u this
    rw [hq] at this; simp at this
  · intro u hu
    obtain ⟨y, hy⟩ := hu
    simp only [setRead] at hy
    cases hk : s.tasks u <;> rw [hk] at hy <;> simp at hy

theorem inv_waitWrite {m : Int} {s : State α} (h : Inv m s) (t : Nat) (b : Bool) (hc : canGet s = false) :
    Inv m (waitWrite { s with writeFired := false } t b) := by
  have he : s.queue = [] := by
    simp only [canGet] at hc; simpa using hc
  refine ⟨h.size, h.cap, fun u _ => he, ?_⟩
  intro u hu
  obtain ⟨y, hy⟩ := hu
  simp only [waitWrite, setTask] at hy
  split at hy
  · cases b <;> simp at hy
  · exact h.noLostPut u ⟨y, hy⟩

theorem inv_waitRead {m : Int} {s : State α} (h : Inv m s) (t : Nat) (x : α) (hc : canPut s = false) :
    Inv m (waitRead { s with readFired := false } t x) := by
  have hm : 0 < m ∧ (s.queue.length : Int) = m := by
    simp only [canPut, h.size] at hc
    split at hc
    · simp at hc
    · next hm => have := h.cap (by omega); simp at hc; omega
  refine ⟨h.size, h.cap, ?_, fun u _ => hm⟩
  intro u hu
  simp only [StuckGet, StuckPeek, waitRead, setTask] at hu
  split at hu
  · simp at hu
  · exact h.noLostGet u hu

theorem inv_flags {m : Int} {s : State α} (h : Inv m s) (r w : Bool) :
    Inv m { s with readFired := r, writeFired := w } := ⟨h.size, h.cap, h.noLostGet, h.noLostPut⟩

theorem inv_putLoop {m : Int} {s : State α} (h : Inv m s) (t : Nat) (x : α) : Inv m (putLoop s t x).1 := by
  simp only [putLoop]
  split
  · next hc => exact inv_waitRead h t x hc
  · next hc => exact inv_idle (inv_setWrite_push h x (by simpa using hc)) t

theorem inv_getLoop {m : Int} {s : State α} (h : Inv m s) (t : Nat) : Inv m (getLoop s t).1 := by
  simp only [getLoop]
  split
  · next hc => exact inv_waitWrite h t false hc
  · cases hq : s.queue with
    | nil => exact inv_idle h t
    | cons x q => exact inv_idle (inv_setRead_pop h hq) t

theorem inv_step {m : Int} {s : State α} (h : Inv m s) (e : Ev α) : Inv m (step s e).1 := by
  cases e with
  | callPut t x => simp only [step]; split <;> first | exact inv_putLoop h t x | exact h
  | callGet t => simp only [step]; split <;> first | exact inv_getLoop h t | exact h
  | callPeek t =>
    simp only [step]; split
    · split
      · next hc => exact inv_waitWrite h t true hc
      · exact inv_idle h t
    · exact h
  | resume t =>
    simp only [step]; split
    · exact inv_putLoop (s := { s with readFired := false }) (inv_flags h _ _) t _
    · exact inv_getLoop (s := { s with writeFired := false }) (inv_flags h _ _) t
    · exact inv_idle (s := { s with writeFired := false }) (inv_flags h _ _) t
    · exact h
  | kill t => exact inv_idle h t
  | tryPut x => simp only [step]; split <;> first | (next hc => exact inv_setWrite_push h x hc) | exact h
  | tryGet =>
    simp only [step]; split
    · cases hq : s.queue with
      | nil => exact h
      | cons x q => exact inv_setRead_pop h hq
    · exact h
  | tryPeek => simp only [step]; split <;> exact h
  | num => exact h

theorem reach_inv (size : Int) (sched : List (Ev α)) : Inv size (runS step (init size) sched) :=
  runS_inv (I := Inv size) (fun _ e h => inv_step h e) (inv_init size) sched

theorem step_not_raised (s : State α) (e : Ev α) : (step s e).2 ≠ .raised := by
  have hget : ∀ (s : State α) t, (getLoop s t).2 ≠ .raised := by
    intro s t; simp only [getLoop]; split
    · simp
    · next hc => cases hq : s.queue <;> simp [canGet, hq] at hc ⊢
  have hput : ∀ (s : State α) t x, (putLoop s t x).2 ≠ .raised := by
    intro s t x; simp only [putLoop]; split <;> simp
  cases e with
  | callPut t x => simp only [step]; split <;> first | exact hput _ _ _ | simp
  | callGet t => simp only [step]; split <;> first | exact hget _ _ | simp
  | callPeek t => simp only [step]; split <;> first | (split <;> simp [peekTail]) | simp
  | resume t => simp only [step]; split <;> first | exact hput _ _ _ | exact hget _ _ | simp [peekTail]
  | kill t => simp [step]
  | tryPut x => simp only [step]; split <;> simp
  | tryGet =>
    simp only [step]; split
    · next hc => cases hq : s.queue <;> simp [canGet, hq] at hc ⊢
    · simp
  | tryPeek => simp only [step]; split <;> simp
  | num => simp [step]

theorem run_not_raised (s : State α) (es : List (Ev α)) : .raised ∉ (run step s es).2 := by
  induction es generalizing s with
  | nil => simp [run]
  | cons e es ih => simp only [run, List.mem_cons, not_or]; exact ⟨fun h => step_not_raised s e h.symm, ih _⟩

end Verif.Mailbox
