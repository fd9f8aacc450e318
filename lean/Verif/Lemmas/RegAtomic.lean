import Verif.Spec.RegAtomic
import Verif.Lemmas.Mailbox
namespace Verif.RegAtomic

/-- Only `get` is used by more than a moment. -/
structure Inv (s : State) : Prop where
  mb : Mailbox.Inv 1 s.mb
  tasks : ∀ t, s.mb.tasks t = .idle ∨ s.mb.tasks t = .getWait ∨ s.mb.tasks t = .getWoken

theorem inv_init : Inv init :=
  ⟨Mailbox.inv_step (Mailbox.inv_init 1) _, fun t => by simp [init, Mailbox.step, Mailbox.init, Mailbox.canPut, Mailbox.setWrite]⟩

theorem queue_cases {s : State} (h : Inv s) : s.mb.queue = [] ∨ s.mb.queue = [()] := by
  have := h.mb.cap (by omega)
  match hq : s.mb.queue, this with
  | [], _ => exact .inl rfl
  | [()], _ => exact .inr rfl
  | _ :: _ :: _, h => simp only [List.length_cons] at h; omega

/-- A mailbox whose tasks are only idle or in `get`. -/
def OK (m : Mailbox.State Unit) : Prop :=
  Mailbox.Inv 1 m ∧ ∀ t, m.tasks t = .idle ∨ m.tasks t = .getWait ∨ m.tasks t = .getWoken

theorem ok_q {m : Mailbox.State Unit} (h : OK m) : m.queue = [] ∨ m.queue = [()] := by
  have := h.1.cap (by omega)
  match hq : m.queue, this with
  | [], _ => exact .inl rfl
  | [()], _ => exact .inr rfl
  | _ :: _ :: _, h => simp only [List.length_cons] at h; omega

theorem ok_tryGet {m : Mailbox.State Unit} (h : OK m) :
    OK (Mailbox.step m .tryGet).1 ∧ (Mailbox.step m .tryGet).1.queue = [] ∧
    ∀ t, (Mailbox.step m .tryGet).1.tasks t = m.tasks t := by
  refine ⟨⟨Mailbox.inv_step h.1 _, ?_⟩, ?_, ?_⟩
  all_goals rcases ok_q h with hq | hq
  all_goals simp only [Mailbox.step, Mailbox.canGet, hq, Mailbox.setRead]
  · simpa using h.2
  · intro t
    rcases h.2 t with ht | ht | ht <;> simp [ht]
  · simp [hq]
  · simp
  · simp
  · intro t
    rcases h.2 t with ht | ht | ht <;> simp [ht]

theorem setWrite_tasks {m : Mailbox.State Unit} (h : OK m) (u : Nat) :
    (Mailbox.setWrite m).tasks u = if m.tasks u = .idle then .idle else .getWoken := by
  rcases h.2 u with ht | ht | ht <;> simp [Mailbox.setWrite, ht]

/-- Releasing leaves exactly one token and makes every waiting coroutine runnable. -/
theorem release_spec {m : Mailbox.State Unit} (h : OK m) {t : Nat} (ht : m.tasks t = .idle) :
    OK (release m t) ∧ (release m t).queue = [()] ∧
    ∀ u, (release m t).tasks u = if m.tasks u = .idle then .idle else .getWoken := by
  obtain ⟨h1, h2, h3⟩ := ok_tryGet h
  have key : ∀ u, (release m t).tasks u = if m.tasks u = .idle then .idle else .getWoken := by
    intro u
    have hi : (Mailbox.step m .tryGet).1.tasks t = .idle := by rw [h3, ht]
    have hc : Mailbox.canPut (Mailbox.step m .tryGet).1 = true := by
      simp [Mailbox.canPut, h2, h1.1.size]
    simp only [release, Mailbox.step.eq_1, hi, Mailbox.putLoop, hc, Mailbox.setTask]
    rcases h.2 u with hu | hu | hu
    all_goals
      by_cases e : u = t
      · subst e; simp_all
      · simp [e, Mailbox.setWrite, h3, hu]
  refine ⟨⟨Mailbox.inv_step h1.1 _, ?_⟩, ?_, key⟩
  · intro u; rw [key]; split <;> simp
  · have hi : (Mailbox.step m .tryGet).1.tasks t = .idle := by rw [h3, ht]
    have hc : Mailbox.canPut (Mailbox.step m .tryGet).1 = true := by
      simp [Mailbox.canPut, h2, h1.1.size]
    simp [release, Mailbox.step.eq_1, hi, Mailbox.putLoop, hc, Mailbox.setTask, Mailbox.setWrite, h2]

theorem reset_spec {m : Mailbox.State Unit} (h : OK m) :
    OK (Mailbox.step (Mailbox.step m .tryGet).1 (.tryPut ())).1 ∧
    (Mailbox.step (Mailbox.step m .tryGet).1 (.tryPut ())).1.queue = [()] ∧
    ∀ u, (Mailbox.step (Mailbox.step m .tryGet).1 (.tryPut ())).1.tasks u
      = if m.tasks u = .idle then .idle else .getWoken := by
  obtain ⟨h1, h2, h3⟩ := ok_tryGet h
  generalize (Mailbox.step m .tryGet).1 = n at h1 h2 h3
  have hc : Mailbox.canPut n = true := by
    simp [Mailbox.canPut, h2, h1.1.size]
  have key : ∀ u, (Mailbox.step n (.tryPut ())).1.tasks u
      = if m.tasks u = .idle then .idle else .getWoken := by
    intro u
    simp only [Mailbox.step, hc, if_true]
    rcases h.2 u with hu | hu | hu <;> simp [Mailbox.setWrite, h3, hu]
  refine ⟨⟨Mailbox.inv_step h1.1 _, ?_⟩, ?_, key⟩
  · intro u; rw [key]; split <;> simp
  · simp [Mailbox.step, hc, Mailbox.setWrite, h2]

/-- `get` with the token there: it is taken. -/
theorem getLoop_full {m : Mailbox.State Unit} (h : OK m) (hq : m.queue = [()]) (t : Nat) :
    (Mailbox.getLoop m t).2 = .gotten t () ∧ OK (Mailbox.getLoop m t).1 ∧
    (Mailbox.getLoop m t).1.queue = [] ∧
    ∀ u, (Mailbox.getLoop m t).1.tasks u = if u = t then .idle else m.tasks u := by
  have key : ∀ u, (Mailbox.getLoop m t).1.tasks u = if u = t then .idle else m.tasks u := by
    intro u
    simp only [Mailbox.getLoop, Mailbox.canGet, hq, Mailbox.setTask, Mailbox.setRead]
    rcases h.2 u with hu | hu | hu <;> simp [hu]
  refine ⟨?_, ⟨Mailbox.inv_getLoop h.1 t, ?_⟩, ?_, key⟩
  · simp [Mailbox.getLoop, Mailbox.canGet, hq]
  · intro u; rw [key]; split
    · simp
    · exact h.2 u
  · simp [Mailbox.getLoop, Mailbox.canGet, hq, Mailbox.setTask, Mailbox.setRead]

/-- `get` without a token: the coroutine waits. -/
theorem getLoop_empty {m : Mailbox.State Unit} (h : OK m) (hq : m.queue = []) (t : Nat) :
    (Mailbox.getLoop m t).2 = .blocked ∧ OK (Mailbox.getLoop m t).1 ∧
    (Mailbox.getLoop m t).1.queue = [] ∧
    ∀ u, (Mailbox.getLoop m t).1.tasks u = if u = t then .getWait else m.tasks u := by
  have key : ∀ u, (Mailbox.getLoop m t).1.tasks u = if u = t then .getWait else m.tasks u := by
    intro u
    simp [Mailbox.getLoop, Mailbox.canGet, hq, Mailbox.setTask, Mailbox.waitWrite]
  refine ⟨?_, ⟨Mailbox.inv_getLoop h.1 t, ?_⟩, ?_, key⟩
  · simp [Mailbox.getLoop, Mailbox.canGet, hq]
  · intro u; rw [key]; split
    · simp
    · exact h.2 u
  · simp [Mailbox.getLoop, Mailbox.canGet, hq, Mailbox.setTask, Mailbox.waitWrite]

theorem ok_flag {m : Mailbox.State Unit} (h : OK m) (b : Bool) : OK { m with writeFired := b } :=
  ⟨Mailbox.inv_flags h.1 m.readFired b, h.2⟩

theorem ok_kill {m : Mailbox.State Unit} (h : OK m) (t : Nat) : OK (Mailbox.setTask m t .idle) := by
  refine ⟨Mailbox.inv_idle h.1 t, fun u => ?_⟩
  simp only [Mailbox.setTask]
  split
  · simp
  · exact h.2 u

/-- The four possible effects of asking for the token. -/
inductive Got (s : State) (t : Nat) (k : Kind) : State × Out → Prop
  | full (m) (hm : OK m) (hq : s.mb.queue = [()]) (he : m.queue = [])
      (ht : ∀ u, m.tasks u = if u = t then .idle else s.mb.tasks u) (hk : k = .access) :
      Got s t k ({ s with mb := m, inside := fun u => if u = t then s.inside t + 1 else s.inside u }, .entered t)
  | ret (m) (hm : OK m) (hq : s.mb.queue = [()]) (he : m.queue = [])
      (ht : ∀ u, m.tasks u = if u = t then .idle else s.mb.tasks u) (hk : k = .mirrorNoMap) :
      Got s t k ({ s with mb := m }, .returned t)
  | wait (m) (hm : OK m) (hq : s.mb.queue = []) (he : m.queue = [])
      (ht : ∀ u, m.tasks u = if u = t then .getWait else s.mb.tasks u) :
      Got s t k ({ s with mb := m, pend := fun u => if u = t then k else s.pend u }, .waiting t)

theorem got_loop {s : State} {m : Mailbox.State Unit} (h : OK m) (hq : m.queue = s.mb.queue)
    (htk : m.tasks = s.mb.tasks) (t : Nat) (k : Kind) : Got s t k (after s t k (Mailbox.getLoop m t)) := by
  rcases ok_q h with he | he
  · obtain ⟨h1, h2, h3, h4⟩ := getLoop_empty h he t
    simp only [after, h1]
    exact .wait _ h2 (hq ▸ he) h3 (by simpa [htk] using h4)
  · obtain ⟨h1, h2, h3, h4⟩ := getLoop_full h he t
    simp only [after, h1]
    cases k
    · exact .full _ h2 (hq ▸ he) h3 (by simpa [htk] using h4) rfl
    · exact .ret _ h2 (hq ▸ he) h3 (by simpa [htk] using h4) rfl

theorem running_iff {s : State} {t : Nat} : running s t = true ↔ s.mb.tasks t = .idle := by
  unfold running; split <;> simp_all

/-- Everything a step can do. -/
inductive Eff (s : State) : Ev → State × Out → Prop
  | idle (e) (he : (∃ t k, e = .call t k ∧ running s t = false) ∨
      (∃ t, e = .resume t ∧ s.mb.tasks t ≠ .getWoken) ∨
      (∃ t, (e = .finish t ∨ e = .refuse t) ∧ ¬ (running s t = true ∧ 0 < s.inside t))) : Eff s e (s, .nothing)
  | call (t k p) (hr : s.mb.tasks t = .idle) (hg : Got s t k p) : Eff s (.call t k) p
  | resume (t p) (hr : s.mb.tasks t = .getWoken) (hg : Got s t (s.pend t) p) : Eff s (.resume t) p
  | finish (e t m) (he : e = .finish t ∨ e = .refuse t) (hr : s.mb.tasks t = .idle) (hi : 0 < s.inside t)
      (hm : OK m) (hq : m.queue = [()])
      (ht : ∀ u, m.tasks u = if s.mb.tasks u = .idle then .idle else .getWoken) :
      Eff s e ({ s with mb := m, inside := fun u => if u = t then s.inside t - 1 else s.inside u }, .finished t)
  | reset (m) (hm : OK m) (hq : m.queue = [()])
      (ht : ∀ u, m.tasks u = if s.mb.tasks u = .idle then .idle else .getWoken) :
      Eff s .reset ({ s with mb := m }, .reset)
  | kill (t m) (hm : OK m) (hq : m.queue = s.mb.queue)
      (ht : ∀ u, m.tasks u = if u = t then .idle else s.mb.tasks u) :
      Eff s (.kill t) ({ s with mb := m, inside := fun u => if u = t then 0 else s.inside u }, .killed t)

theorem eff {s : State} (h : OK s.mb) (e : Ev) : Eff s e (step s e) := by
  cases e with
  | call t k =>
    simp only [step]
    by_cases hr : running s t = true
    · rw [if_pos hr]
      have hi := running_iff.1 hr
      refine .call t k _ hi ?_
      simp only [Mailbox.step, hi]
      exact got_loop h rfl rfl t k
    · rw [if_neg hr]
      exact .idle _ (.inl ⟨t, k, rfl, by simpa using hr⟩)
  | resume t =>
    simp only [step]
    rcases h.2 t with ht | ht | ht
    · simp only [ht]; exact .idle _ (.inr (.inl ⟨t, rfl, by simp [ht]⟩))
    · simp only [ht]; exact .idle _ (.inr (.inl ⟨t, rfl, by simp [ht]⟩))
    · simp only [ht]
      refine .resume t _ ht ?_
      simp only [Mailbox.step, ht]
      exact got_loop (ok_flag h false) rfl rfl t _
  | finish t =>
    simp only [step]
    by_cases hr : (running s t && decide (0 < s.inside t)) = true
    · rw [if_pos hr]
      simp only [Bool.and_eq_true, decide_eq_true_eq] at hr
      have hi := running_iff.1 hr.1
      obtain ⟨h1, h2, h3⟩ := release_spec h hi
      exact .finish _ t _ (.inl rfl) hi hr.2 h1 h2 h3
    · rw [if_neg hr]
      exact .idle _ (.inr (.inr ⟨t, .inl rfl, by simpa using hr⟩))
  | refuse t =>
    simp only [step]
    by_cases hr : (running s t && decide (0 < s.inside t)) = true
    · rw [if_pos hr]
      simp only [Bool.and_eq_true, decide_eq_true_eq] at hr
      have hi := running_iff.1 hr.1
      obtain ⟨h1, h2, h3⟩ := release_spec h hi
      obtain ⟨h4, h5, h6⟩ := release_spec h1 (t := t) (by rw [h3, if_pos hi])
      refine .finish _ t _ (.inr rfl) hi hr.2 h4 h5 ?_
      intro u; rw [h6, h3]; split <;> simp
    · rw [if_neg hr]
      exact .idle _ (.inr (.inr ⟨t, .inr rfl, by simpa using hr⟩))
  | reset =>
    obtain ⟨h1, h2, h3⟩ := reset_spec h
    exact .reset _ h1 h2 h3
  | kill t =>
    exact .kill t _ (ok_kill h t) rfl (fun u => rfl)

theorem ok_step {s : State} (h : OK s.mb) (e : Ev) : OK (step s e).1.mb := by
  have := eff h e
  generalize step s e = p at this
  cases this with
  | idle => exact h
  | call t k p hr hg => cases hg <;> assumption
  | resume t p hr hg => cases hg <;> assumption
  | finish => assumption
  | reset => assumption
  | kill => assumption

theorem ok_init : OK init.mb := ⟨inv_init.mb, inv_init.tasks⟩

theorem ok_run {s : State} (h : OK s.mb) (es : List Ev) : OK (runS step s es).mb := by
  induction es generalizing s with
  | nil => exact h
  | cons e es ih => exact ih (ok_step h e)

end Verif.RegAtomic
