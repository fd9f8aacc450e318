import Verif.Lemmas.RegAtomic
namespace Verif.RegAtomic

/-- Without `reset`, a token in the mailbox means nobody is inside, and at most one access is open. -/
structure X (s : State) : Prop where
  ok : OK s.mb
  free : s.mb.queue = [()] → ∀ t, s.inside t = 0
  one : ∀ t u, 0 < s.inside t → 0 < s.inside u → t = u
  le : ∀ t, s.inside t ≤ 1

theorem x_init : X init := ⟨ok_init, fun _ _ => rfl, fun t u h => by simp [init] at h, fun _ => by simp [init]⟩

theorem x_got {s : State} (h : X s) {t : Nat} {k : Kind} {p : State × Out} (hg : Got s t k p) : X p.1 := by
  cases hg with
  | full m hm hq he ht hk =>
    have hf := h.free hq
    refine ⟨hm, fun h => by simp_all, ?_, ?_⟩
    · intro a b ha hb
      simp only [hf] at ha hb
      split at ha <;> split at hb <;> first | omega | (simp at ha hb)
    · intro a
      simp only [hf]; split <;> simp
  | ret m hm hq he ht hk => exact ⟨hm, fun h => by simp_all, h.one, h.le⟩
  | wait m hm hq he ht => exact ⟨hm, fun h => by simp_all, h.one, h.le⟩

theorem x_step {s : State} (h : X s) {e : Ev} (he : e ≠ .reset) : X (step s e).1 := by
  have := eff h.ok e
  generalize step s e = p at this
  cases this with
  | idle => exact h
  | call t k p hr hg => exact x_got h hg
  | resume t p hr hg => exact x_got h hg
  | finish e t m he hr hi hm hq ht =>
    have h0 : ∀ u, (if u = t then s.inside t - 1 else s.inside u) = 0 := by
      intro u
      split
      · have := h.le t; omega
      · next e =>
        apply Classical.byContradiction
        intro hc; exact e (h.one t u hi (by omega)).symm
    refine ⟨hm, fun _ => h0, ?_, ?_⟩
    · intro a b ha hb; simp only [h0] at ha; omega
    · intro a; simp only [h0]; omega
  | reset => exact absurd rfl he
  | kill t m hm hq ht =>
    refine ⟨hm, ?_, ?_, ?_⟩
    · intro hq2 u
      simp only
      split
      · rfl
      · exact h.free (hq ▸ hq2) u
    · intro a b ha hb
      simp only at ha hb
      split at ha
      · omega
      · split at hb
        · omega
        · exact h.one a b ha hb
    · intro a; simp only; split
      · omega
      · exact h.le a

/-- While `t` is inside and the token is out, only `t` ending its access changes that. -/
theorem hold_step {s : State} (h : X s) {t : Nat} (hi : 0 < s.inside t) (hq : s.mb.queue = [])
    {e : Ev} (he : e ≠ .reset) :
    ((step s e).2 = .finished t ∨ (step s e).2 = .killed t) ∨
    ((∀ u, (step s e).2 ≠ .entered u) ∧ 0 < (step s e).1.inside t ∧ (step s e).1.mb.queue = []) := by
  have := eff h.ok e
  generalize step s e = p at this
  cases this with
  | idle => exact .inr ⟨by simp, hi, hq⟩
  | call u k p hr hg => cases hg <;> first | simp_all | exact .inr ⟨by simp, hi, by assumption⟩
  | resume u p hr hg => cases hg <;> first | simp_all | exact .inr ⟨by simp, hi, by assumption⟩
  | finish e u m he hr hi2 hm hq ht =>
    have := h.one u t hi2 hi
    exact .inl (.inl (by simp [this]))
  | reset => exact absurd rfl he
  | kill u m hm hq2 ht =>
    by_cases hu : t = u
    · exact .inl (.inr (by simp [hu]))
    · refine .inr ⟨by simp, by simp [hu, hi], hq2.trans hq⟩

theorem run_cons_eq (s : State) (e : Ev) (es : List Ev) :
    (run step s (e :: es)).2 = (step s e).2 :: (run step (step s e).1 es).2 := rfl

theorem hold_run {s : State} (h : X s) {t : Nat} (hi : 0 < s.inside t) (hq : s.mb.queue = [])
    {es : List Ev} (he : .reset ∉ es) {b c : List Out} {u : Nat}
    (ho : (run step s es).2 = b ++ .entered u :: c) : Ends t b := by
  induction es generalizing s b with
  | nil => simp [run] at ho
  | cons e es ih =>
    simp only [List.mem_cons, not_or] at he
    rw [run_cons_eq] at ho
    rcases hold_step h hi hq (Ne.symm he.1) with h1 | ⟨h1, h2, h3⟩
    · cases b with
      | nil =>
        simp only [List.nil_append, List.cons.injEq] at ho
        rw [ho.1] at h1; simp at h1
      | cons o b =>
        simp only [List.cons_append, List.cons.injEq] at ho
        rw [ho.1] at h1
        rcases h1 with h1 | h1
        · exact .inl (by simp [h1])
        · exact .inr (by simp [h1])
    · cases b with
      | nil =>
        simp only [List.nil_append, List.cons.injEq] at ho
        exact absurd ho.1 (h1 u)
      | cons o b =>
        simp only [List.cons_append, List.cons.injEq] at ho
        rcases ih (x_step h (Ne.symm he.1)) h2 h3 he.2 ho.2 with hh | hh
        · exact .inl (List.mem_cons_of_mem _ hh)
        · exact .inr (List.mem_cons_of_mem _ hh)

/-- A step that lets `t` in leaves `t` inside and the token out. -/
theorem entered_step {s : State} (h : OK s.mb) {e : Ev} {t : Nat} (ho : (step s e).2 = .entered t) :
    0 < (step s e).1.inside t ∧ (step s e).1.mb.queue = [] := by
  have := eff h e
  generalize step s e = p at this ho
  cases this with
  | idle => simp at ho
  | call u k p hr hg => cases hg <;> simp_all
  | resume u p hr hg => cases hg <;> simp_all
  | finish => simp at ho
  | reset => simp at ho
  | kill => simp at ho

theorem exclusive_run {s : State} (h : X s) {es : List Ev} (he : .reset ∉ es) :
    Exclusive (run step s es).2 := by
  intro a b c t u ho
  induction es generalizing s a with
  | nil => simp [run] at ho
  | cons e es ih =>
    simp only [List.mem_cons, not_or] at he
    rw [run_cons_eq] at ho
    cases a with
    | nil =>
      simp only [List.nil_append, List.cons.injEq] at ho
      obtain ⟨h1, h2⟩ := entered_step h.ok ho.1
      exact hold_run (x_step h (Ne.symm he.1)) h1 h2 he.2 ho.2
    | cons o a =>
      simp only [List.cons_append, List.cons.injEq] at ho
      exact ih (x_step h (Ne.symm he.1)) he.2 a ho.2

/-- The token is gone and nobody has it. -/
def Lost (s : State) : Prop := OK s.mb ∧ s.mb.queue = [] ∧ ∀ t, s.inside t = 0

theorem lost_step {s : State} (h : Lost s) {e : Ev} (he : e ≠ .reset) :
    Lost (step s e).1 ∧ ∀ t, (step s e).2 ≠ .entered t := by
  obtain ⟨hok, hq, hi⟩ := h
  have := eff hok e
  generalize step s e = p at this
  cases this with
  | idle => exact ⟨⟨hok, hq, hi⟩, by simp⟩
  | call u k p hr hg => cases hg <;> first | exact ⟨⟨by assumption, by assumption, hi⟩, by simp⟩ | simp_all
  | resume u p hr hg => cases hg <;> first | exact ⟨⟨by assumption, by assumption, hi⟩, by simp⟩ | simp_all
  | finish e t m he hr hi2 => have := hi t; omega
  | reset => exact absurd rfl he
  | kill u m hm hq2 ht => exact ⟨⟨hm, hq2.trans hq, by simp [hi]⟩, by simp⟩

theorem lost_run {s : State} (h : Lost s) {es : List Ev} (he : .reset ∉ es) : Dead (run step s es).2 := by
  induction es generalizing s with
  | nil => intro t; simp [run]
  | cons e es ih =>
    simp only [List.mem_cons, not_or] at he
    obtain ⟨h1, h2⟩ := lost_step h (Ne.symm he.1)
    intro t
    rw [run_cons_eq, List.mem_cons]
    rintro (h3 | h3)
    · exact h2 t h3.symm
    · exact ih h1 he.2 t h3

/-- `t` waits for the token it has itself. -/
def Self (t : Nat) (s : State) : Prop :=
  X s ∧ s.mb.queue = [] ∧ 0 < s.inside t ∧ Waiting s t

theorem self_step {t : Nat} {s : State} (h : Self t s) {e : Ev} (he : e ≠ .reset) (hk : e ≠ .kill t) :
    Self t (step s e).1 ∧ ∀ u, (step s e).2 ≠ .entered u := by
  obtain ⟨hx, hq, hi, hw⟩ := h
  have hx' := x_step hx he
  have hne : s.mb.tasks t ≠ .idle := by rcases hw with hw | hw <;> simp [hw]
  have := eff hx.ok e
  generalize step s e = p at this hx'
  cases this with
  | idle => exact ⟨⟨hx, hq, hi, hw⟩, by simp⟩
  | call u k p hr hg =>
    cases hg with
    | full => simp_all
    | ret => simp_all
    | wait m hm hq he ht =>
      refine ⟨⟨hx', he, hi, ?_⟩, by simp⟩
      have hut : t ≠ u := fun e => hne (e ▸ hr)
      simpa [Waiting, ht, hut] using hw
  | resume u p hr hg =>
    cases hg with
    | full => simp_all
    | ret => simp_all
    | wait m hm hq he ht =>
      refine ⟨⟨hx', he, hi, ?_⟩, by simp⟩
      by_cases hut : t = u
      · exact .inl (by simp [ht, hut])
      · simpa [Waiting, ht, hut] using hw
  | finish e u m he hr hi2 hm hq ht =>
    exact absurd (hx.one u t hi2 hi ▸ hr) hne
  | reset => exact absurd rfl he
  | kill u m hm hq2 ht =>
    have hut : t ≠ u := fun e => hk (e ▸ rfl)
    refine ⟨⟨hx', hq2.trans hq, by simp [hut, hi], ?_⟩, by simp⟩
    simpa [Waiting, ht, hut] using hw

theorem self_run {t : Nat} {s : State} (h : Self t s) {es : List Ev} (he : .reset ∉ es) (hk : .kill t ∉ es) :
    Dead (run step s es).2 := by
  induction es generalizing s with
  | nil => intro t; simp [run]
  | cons e es ih =>
    simp only [List.mem_cons, not_or] at he hk
    obtain ⟨h1, h2⟩ := self_step h (Ne.symm he.1) (Ne.symm hk.1)
    intro t
    rw [run_cons_eq, List.mem_cons]
    rintro (h3 | h3)
    · exact h2 t h3.symm
    · exact ih h1 he.2 hk.2 t h3

/-- No way to lose the token was used. -/
def Safe (e : Ev) : Prop := (∀ t, e ≠ .kill t) ∧ ∀ t, e ≠ .call t .mirrorNoMap

structure Y (s : State) : Prop where
  ok : OK s.mb
  out : s.mb.queue = [] → ∃ t, 0 < s.inside t
  pend : ∀ t, s.pend t = .access

theorem y_got {s : State} (h : Y s) {t : Nat} {p : State × Out} (hg : Got s t .access p) : Y p.1 := by
  cases hg with
  | full m hm hq he ht hk => exact ⟨hm, fun _ => ⟨t, by simp⟩, h.pend⟩
  | ret m hm hq he ht hk => simp at hk
  | wait m hm hq he ht => exact ⟨hm, fun _ => h.out hq, fun u => by simp [h.pend]⟩

theorem y_step {s : State} (h : Y s) {e : Ev} (he : Safe e) : Y (step s e).1 := by
  have := eff h.ok e
  generalize step s e = p at this
  cases this with
  | idle => exact h
  | call t k p hr hg =>
    cases k
    · exact y_got h hg
    · exact absurd rfl (he.2 t)
  | resume t p hr hg => rw [h.pend] at hg; exact y_got h hg
  | finish e t m he hr hi hm hq ht => exact ⟨hm, fun h => by simp_all, h.pend⟩
  | reset m hm hq ht => exact ⟨hm, fun h => by simp_all, h.pend⟩
  | kill t => exact absurd rfl (he.1 t)

theorem y_run {s : State} (h : Y s) {es : List Ev} (he : ∀ e ∈ es, Safe e) : Y (runS step s es) := by
  induction es generalizing s with
  | nil => exact h
  | cons e es ih =>
    exact ih (y_step h (he e (List.mem_cons_self ..))) (fun e h => he e (List.mem_cons_of_mem _ h))

theorem y_init : Y init := ⟨ok_init, by intro h; simp [init, Mailbox.step, Mailbox.init, Mailbox.canPut, Mailbox.setWrite] at h, fun _ => rfl⟩

/-- Who may go on when the token is there. -/
theorem free_go {s : State} (h : OK s.mb) (hq : s.mb.queue = [()]) (hp : ∀ t, s.pend t = .access) (t : Nat) :
    (Waiting s t → (step s (.resume t)).2 = .entered t) ∧
    (¬ Waiting s t → (step s (.call t .access)).2 = .entered t) := by
  constructor
  · intro hw
    have hwk : s.mb.tasks t = .getWoken := by
      rcases hw with hw | hw
      · have := h.1.noLostGet t (.inl hw); simp_all
      · exact hw
    have := eff h (.resume t)
    generalize step s (.resume t) = p at this
    cases this with
    | idle e he => rcases he with ⟨_, _, h, _⟩ | ⟨u, h, h2⟩ | ⟨_, h | h, _⟩ <;> simp_all
    | resume t p hr hg => cases hg <;> simp_all
    | finish e t m he => simp_all
  · intro hw
    have hid : s.mb.tasks t = .idle := by
      rcases h.2 t with h | h | h
      · exact h
      · exact absurd (.inl h) hw
      · exact absurd (.inr h) hw
    have := eff h (.call t .access)
    generalize step s (.call t .access) = p at this
    cases this with
    | idle e he =>
      rcases he with ⟨u, k, h, h2⟩ | ⟨_, h, _⟩ | ⟨_, h | h, _⟩
      · have := (running_iff (s := s) (t := t)).2 hid; simp_all
      · simp_all
      · simp_all
      · simp_all
    | call t k p hr hg => cases hg <;> simp_all
    | finish e t m he => simp_all

/-- `a` is inside, `b` waits. -/
def Round (a b : Nat) (s : State) : Prop :=
  X s ∧ s.mb.queue = [] ∧ s.mb.tasks a = .idle ∧ 0 < s.inside a ∧ s.mb.tasks b = .getWait

theorem round_step {a b : Nat} (hab : a ≠ b) {s : State} (h : Round a b s) :
    Round a b (runS step s [.finish a, .call a .access, .resume b]) ∧
    (run step s [.finish a, .call a .access, .resume b]).2 = [.finished a, .entered a, .waiting b] := by
  obtain ⟨hx, hq, hta, hia, htb⟩ := h
  -- finish
  have h1 := eff hx.ok (.finish a)
  have hx1 := x_step hx (e := .finish a) (by simp)
  have hr : running s a = true := running_iff.2 hta
  simp only [runS, run]
  generalize step s (.finish a) = p1 at h1 hx1
  have hp1 : p1.2 = .finished a ∧ p1.1.mb.queue = [()] ∧ p1.1.mb.tasks a = .idle ∧ p1.1.mb.tasks b = .getWoken := by
    cases h1 with
    | idle e he => rcases he with ⟨_, _, h, _⟩ | ⟨u, h, h2⟩ | ⟨u, h | h, h2⟩ <;> simp_all
    | finish e t m he hr hi hm hq ht =>
      have : t = a := by rcases he with he | he <;> simp_all
      subst this
      exact ⟨rfl, hq, by simp [ht, hta], by simp [ht, htb]⟩
  obtain ⟨s1, o1⟩ := p1
  obtain ⟨rfl, hq1, hta1, htb1⟩ := hp1
  simp only at *
  have h2 := eff hx1.ok (.call a .access)
  have hx2 := x_step hx1 (e := .call a .access) (by simp)
  have hr1 : running s1 a = true := running_iff.2 hta1
  generalize step s1 (.call a .access) = p2 at h2 hx2
  have hp2 : p2.2 = .entered a ∧ p2.1.mb.queue = [] ∧ p2.1.mb.tasks a = .idle ∧ p2.1.mb.tasks b = .getWoken ∧
      0 < p2.1.inside a := by
    cases h2 with
    | idle e he => rcases he with ⟨_, _, h, _⟩ | ⟨u, h, h2⟩ | ⟨u, h | h, h2⟩ <;> simp_all
    | call t k p hr hg =>
      cases hg with
      | full m hm hq he ht hk => exact ⟨rfl, he, by simp [ht], by simp [ht, Ne.symm hab, htb1], by simp⟩
      | ret => simp_all
      | wait => simp_all
    | finish e t m he => simp_all
  obtain ⟨s2, o2⟩ := p2
  obtain ⟨rfl, hq2, hta2, htb2, hi2⟩ := hp2
  simp only at *
  have h3 := eff hx2.ok (.resume b)
  have hx3 := x_step hx2 (e := .resume b) (by simp)
  generalize step s2 (.resume b) = p3 at h3 hx3
  cases h3 with
  | idle e he => rcases he with ⟨_, _, h, _⟩ | ⟨u, h, h2⟩ | ⟨u, h | h, h2⟩ <;> simp_all
  | resume t p hr hg =>
    cases hg with
    | full => simp_all
    | ret => simp_all
    | wait m hm hq he ht =>
      exact ⟨⟨hx3, he, by simp [ht, hab, hta2], hi2, by simp [ht]⟩, rfl⟩
  | finish e t m he => simp_all

end Verif.RegAtomic
