import Verif.Lemmas.RegAtomicRun
/-!
# C78: accesses to one register do not overlap

`sched` is any list of calls by any coroutines, resumptions, ends of accesses, refusals and cancellations;
a step that is not possible in the state it meets does nothing.
-/
namespace Verif.RegAtomic

/-- C78 (all schedules without `reset`). When an access to the register starts, every access that started earlier
has ended, whoever made it; refused writes (which release the token twice), cancelled coroutines and mirrors
without a map included. -/
theorem C78_exclusive_partial (sched : List Ev) (h : .reset ∉ sched) : Exclusive (run step init sched).2 :=
  exclusive_run x_init h

/-- Two coroutines, one of them refused, one waiting. -/
example : (run step init [.call 0 .access, .call 1 .access, .refuse 0, .resume 1, .call 2 .access, .finish 1]).2 =
    [.entered 0, .waiting 1, .finished 0, .entered 1, .waiting 2, .finished 1] := by decide

/-- C78 (fails in general): `reset` during an access lets a second access start. -/
theorem C78_reset_fails : ∃ sched, ¬ Exclusive (run step init sched).2 := by
  refine ⟨[.call 0 .access, .reset, .call 1 .access], fun h => ?_⟩
  have := h [] [.reset] [] 0 1 (by decide)
  rcases this with h | h <;> simp at h

/-- C78 progress. As long as nobody is cancelled and no mirror is made without a map, whenever no access is in
progress every waiting coroutine starts its access the next time it runs, and so does any new caller. -/
theorem C78_progress_partial (sched : List Ev)
    (h : ∀ e ∈ sched, (∀ t, e ≠ .kill t) ∧ ∀ t, e ≠ .call t .mirrorNoMap)
    (hn : ∀ t, (runS step init sched).inside t = 0) (t : Nat) :
    let s := runS step init sched
    (Waiting s t → (step s (.resume t)).2 = .entered t) ∧
    (¬ Waiting s t → (step s (.call t .access)).2 = .entered t) := by
  have hy := y_run y_init h
  refine free_go hy.ok ?_ hy.pend t
  rcases ok_q hy.ok with hq | hq
  · obtain ⟨u, hu⟩ := hy.out hq
    have := hn u; omega
  · exact hq

example : let s := runS step init [.call 0 .access, .call 1 .access, .finish 0]
    (∀ t, s.inside t = 0) ∧ Waiting s 1 ∧ ¬ Waiting s 0 := by
  refine ⟨fun t => ?_, .inr (by decide), fun h => by rcases h with h | h <;> exact absurd h (by decide)⟩
  show (if t = 0 then _ else if t = 0 then _ else _) = 0
  split <;> rfl

/-- C78 (fails): once a `mirror` without a map has returned, no access to the register ever starts again,
on any schedule, until somebody calls `reset`. -/
theorem C78_lost_mirror_fails (before after : List Ev) (hb : .reset ∉ before) (ha : .reset ∉ after) (t : Nat) (e : Ev)
    (he : (step (runS step init before) e).2 = .returned t) :
    Dead (run step (step (runS step init before) e).1 after).2 := by
  refine lost_run ?_ ha
  have hx : X (runS step init before) := by
    clear he
    suffices ∀ s, X s → X (runS step s before) from this _ x_init
    intro s hs
    induction before generalizing s with
    | nil => exact hs
    | cons a l ih =>
      simp only [List.mem_cons, not_or] at hb
      exact ih hb.2 _ (x_step hs (Ne.symm hb.1))
  generalize runS step init before = s at he hx
  have := eff hx.ok e
  have hok := ok_step hx.ok e
  generalize step s e = p at this he hok
  cases this with
  | idle => simp at he
  | call u k p hr hg =>
    cases hg with
    | full => simp at he
    | ret m hm hq he2 ht hk => exact ⟨hm, he2, hx.free hq⟩
    | wait => simp at he
  | resume u p hr hg =>
    cases hg with
    | full => simp at he
    | ret m hm hq he2 ht hk => exact ⟨hm, he2, hx.free hq⟩
    | wait => simp at he
  | finish => simp at he
  | reset => simp at he
  | kill => simp at he

example : (run step init [.call 0 .mirrorNoMap, .call 1 .access, .call 2 .access, .resume 1]).2 =
    [.returned 0, .waiting 1, .waiting 2, .nothing] := by decide

/-- C78 (fails): a coroutine cancelled in the middle of its access takes the token with it; no access starts
again until `reset`. -/
theorem C78_lost_kill_fails (before after : List Ev) (hb : .reset ∉ before) (ha : .reset ∉ after) (t : Nat)
    (hi : 0 < (runS step init before).inside t) :
    Dead (run step (step (runS step init before) (.kill t)).1 after).2 := by
  have hx : X (runS step init before) := by
    clear hi
    suffices ∀ s, X s → X (runS step s before) from this _ x_init
    intro s hs
    induction before generalizing s with
    | nil => exact hs
    | cons a l ih =>
      simp only [List.mem_cons, not_or] at hb
      exact ih hb.2 _ (x_step hs (Ne.symm hb.1))
  generalize runS step init before = s at hi hx
  refine lost_run ⟨ok_step hx.ok _, ?_, ?_⟩ ha
  · show s.mb.queue = []
    rcases ok_q hx.ok with h | h
    · exact h
    · have := hx.free h t; omega
  · intro u
    show (if u = t then 0 else s.inside u) = 0
    split
    · rfl
    · next e =>
      apply Classical.byContradiction
      intro hc; exact e (hx.one u t (by omega) hi)

/-- C78. `reset` makes the register usable again, in every state. -/
theorem C78_reset_recovers (sched : List Ev) (t : Nat) :
    let s := (step (runS step init sched) .reset).1
    ¬ Waiting s t → (step s (.call t .access)).2 = .entered t := by
  have h0 := ok_run ok_init sched
  generalize runS step init sched = s0 at h0
  intro s hw
  obtain ⟨h1, h2, _⟩ := reset_spec h0
  have hid : s.mb.tasks t = .idle := by
    rcases h1.2 t with h | h | h
    · exact h
    · exact absurd (.inl h) hw
    · exact absurd (.inr h) hw
  have := eff h1 (s := s) (.call t .access)
  generalize step s (.call t .access) = p at this
  have hq : s.mb.queue = [()] := h2
  cases this with
  | idle e he =>
    rcases he with ⟨u, k, h, h2⟩ | ⟨_, h, _⟩ | ⟨_, h | h, _⟩
    · have := (running_iff (s := s) (t := t)).2 hid; simp_all
    · simp_all
    · simp_all
    · simp_all
  | call t k p hr hg => cases hg <;> simp_all
  | finish e t m he => simp_all

/-- C78 (fails): an access made from inside an access to the same register by the same coroutine (say from one of
its callbacks) waits for the token of the outer access: neither it nor any other access ever starts, unless the
coroutine is cancelled or the register is reset. -/
theorem C78_nested_fails (before after : List Ev) (hb : .reset ∉ before) (ha : .reset ∉ after) (t : Nat)
    (hk : .kill t ∉ after) (hi : 0 < (runS step init before).inside t)
    (hr : ¬ Waiting (runS step init before) t) (k : Kind) :
    let p := step (runS step init before) (.call t k)
    p.2 = .waiting t ∧ Dead (run step p.1 after).2 := by
  have hx : X (runS step init before) := by
    clear hi hr
    suffices ∀ s, X s → X (runS step s before) from this _ x_init
    intro s hs
    induction before generalizing s with
    | nil => exact hs
    | cons a l ih =>
      simp only [List.mem_cons, not_or] at hb
      exact ih hb.2 _ (x_step hs (Ne.symm hb.1))
  generalize runS step init before = s at hi hx hr
  have hq : s.mb.queue = [] := by
    rcases ok_q hx.ok with h | h
    · exact h
    · have := hx.free h t; omega
  have hid : s.mb.tasks t = .idle := by
    rcases hx.ok.2 t with h | h | h
    · exact h
    · exact absurd (.inl h) hr
    · exact absurd (.inr h) hr
  have hx1 := x_step hx (e := .call t k) (by simp)
  have h1 := eff hx.ok (.call t k)
  simp only
  generalize step s (.call t k) = p at h1 hx1
  have hp : p.2 = .waiting t ∧ Self t p.1 := by
    cases h1 with
    | idle e he =>
      rcases he with ⟨u, k, h, h2⟩ | ⟨_, h, _⟩ | ⟨_, h | h, _⟩
      · have := (running_iff (s := s) (t := t)).2 hid; simp_all
      · simp_all
      · simp_all
      · simp_all
    | call t k p hr hg =>
      cases hg with
      | full => simp_all
      | ret => simp_all
      | wait m hm hq he ht => exact ⟨rfl, hx1, he, hi, .inl (by simp [ht])⟩
    | finish e t m he => simp_all
  exact ⟨hp.1, self_run hp.2 ha hk⟩

example : 0 < (runS step init [.call 3 .access]).inside 3 ∧ ¬ Waiting (runS step init [.call 3 .access]) 3 :=
  ⟨by decide, fun h => by rcases h with h | h <;> exact absurd h (by decide)⟩

/-- `n` accesses of `a`, one after the other, `b` being resumed after each. -/
def rounds (a b : Nat) : Nat → List Ev
  | 0 => []
  | n + 1 => [.finish a, .call a .access, .resume b] ++ rounds a b n

/-- C78 (fails): the token is not handed out in the order it was asked for. For every `n`, a coroutine that makes
its accesses back to back gets the token `n` more times while another one, asking since the first access
and resumed by the scheduler after every release, gets nothing. -/
theorem C78_fairness_fails (n : Nat) :
    (run step init ([.call 0 .access, .call 1 .access] ++ rounds 0 1 n)).2 =
      [.entered 0, .waiting 1] ++ (List.replicate n [.finished 0, .entered 0, .waiting 1]).flatten := by
  have hr : Round 0 1 (runS step init [.call 0 .access, .call 1 .access]) := by
    refine ⟨?_, by decide, by decide, by decide, by decide⟩
    exact x_step (x_step x_init (e := .call 0 .access) (by simp)) (e := .call 1 .access) (by simp)
  have key : ∀ n s, Round 0 1 s → (run step s (rounds 0 1 n)).2 =
      (List.replicate n [.finished 0, .entered 0, .waiting 1]).flatten := by
    intro n
    induction n with
    | zero => intro s _; rfl
    | succ n ih =>
      intro s hs
      obtain ⟨h1, h2⟩ := round_step (by omega) hs
      have := ih _ h1
      rw [rounds, List.replicate_succ, List.flatten_cons, ← this, ← h2]
      rfl
  have := key n _ hr
  rw [← this]
  rfl

end Verif.RegAtomic
