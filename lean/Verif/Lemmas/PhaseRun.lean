import Verif.Spec.PhaseRun
/-! # Lemmas on the execution of phases: what a step of a task changes, and the invariant of all schedules -/
namespace Verif.PhaseRun

@[simp] theorem upd_same {α : Type} (f : Nat → α) (i : Nat) (v : α) : upd f i v i = v := by simp [upd]
theorem upd_other {α : Type} (f : Nat → α) {i j : Nat} (v : α) (h : j ≠ i) : upd f i v j = f j := by simp [upd, h]

/-- The states a task may be in at a position. -/
def pcst (k : Kind) (root : Bool) : Pc → St → Bool
  | .idle, .dormant => true
  | .idle, .scheduled => !root
  | .waitPreds, .dormant => root
  | .waitPreds, .scheduled => !root
  | .syncing, .syncing => true
  | .started, .started => true
  | .fexec, .executing => k == .func
  | .oexec, .executing => k == .other
  | .predWait _ _, .executing => k == .func
  | .crit, .executing => k == .task
  | .ownFirst _, .executing => k == .task
  | .startW false, .executing => k == .task
  | .startW true, .readyToEnd => k == .task
  | .ownDrop _ _, .executing => k == .task
  | .sib false _ _ _, .executing => k == .task
  | .sib true _ _ _, .executing => k == .task
  | .sib true _ _ _, .readyToEnd => k == .task
  | .sibDrop _ _ _, .executing => k == .task
  | .beforeRte, .executing => k == .task
  | .ended, .ended => k != .other
  | .cleanup, .cleanup => k != .other
  | .sched _, .done => true
  | .over, .done => true
  | .crashed, .executing => k != .other
  | .crashed, .cleanup => k != .other
  | _, _ => false

/-- The task has seen all its predecessors done. -/
def past : Pc → Bool
  | .idle => false
  | .waitPreds => false
  | _ => true

theorem pcst_wakeSt (k : Kind) (r : Bool) (p : Nat) (c : Pc) (x : St) : pcst k r (wakeSt p c) x = pcst k r c x := by
  unfold wakeSt; split <;> (first | rfl | (cases x <;> first | rfl | (rename_i s _ _ _ _; cases s <;> rfl)))

theorem pcst_wakeDrop (k : Kind) (r : Bool) (p y : Nat) (c : Pc) (x : St) : pcst k r (wakeDrop p y c) x = pcst k r c x := by
  unfold wakeDrop; split <;> (first | rfl | (cases x <;> first | rfl | (rename_i s _; cases s <;> rfl)))

theorem past_wakeSt (p : Nat) (c : Pc) : past (wakeSt p c) = past c := by unfold wakeSt; split <;> rfl
theorem past_wakeDrop (p y : Nat) (c : Pc) : past (wakeDrop p y c) = past c := by unfold wakeDrop; split <;> rfl

/-- Same position up to being woken. -/
def Same (c d : Pc) : Prop := (∀ k r x, pcst k r c x = pcst k r d x) ∧ past c = past d ∧ (c = .idle ↔ d = .idle) ∧ (c = .over ↔ d = .over) ∧
  (∀ l, c = .sched l ↔ d = .sched l)

theorem Same.refl (c : Pc) : Same c c := ⟨fun _ _ _ => rfl, rfl, Iff.rfl, Iff.rfl, fun _ => Iff.rfl⟩
theorem Same.trans {a b c : Pc} (h : Same a b) (g : Same b c) : Same a c :=
  ⟨fun k r x => (h.1 k r x).trans (g.1 k r x), h.2.1.trans g.2.1, h.2.2.1.trans g.2.2.1, h.2.2.2.1.trans g.2.2.2.1,
    fun l => (h.2.2.2.2 l).trans (g.2.2.2.2 l)⟩

theorem same_wakeSt (p : Nat) (c : Pc) : Same (wakeSt p c) c :=
  ⟨fun k r x => pcst_wakeSt k r p c x, past_wakeSt p c, by unfold wakeSt; split <;> simp, by unfold wakeSt; split <;> simp,
    fun l => by unfold wakeSt; split <;> simp⟩

theorem same_wakeDrop (p y : Nat) (c : Pc) : Same (wakeDrop p y c) c :=
  ⟨fun k r x => pcst_wakeDrop k r p y c x, past_wakeDrop p y c, by unfold wakeDrop; split <;> simp, by unfold wakeDrop; split <;> simp,
    fun l => by unfold wakeDrop; split <;> simp⟩

/-- What a step of the task of `p` does, as far as the order of phases is concerned. -/
inductive Eff (G : Graph) (s : State) (p : Nat) : State → Prop
  /-- nothing but the position of the task -/
  | quiet (s') : s'.st = s.st → s'.doneEv = s.doneEv → s'.hopper = s.hopper → s'.dup = s.dup → s'.log = s.log → s'.allDone = s.allDone →
      (∀ r, r ≠ p → s'.pc r = s.pc r) → pcst (G.kind p) (p == 0) (s'.pc p) (s.st p) = true → past (s.pc p) = true → past (s'.pc p) = true →
      (s'.pc p = .over → s.pc p = .sched []) → (∀ l, s'.pc p ≠ .sched l) → Eff G s p s'
  /-- a change of state -/
  | set (s') (x : St) : s'.st = upd s.st p x → s'.doneEv = (if x = .done then upd s.doneEv p true else s.doneEv) → s'.hopper = s.hopper →
      s'.dup = s.dup → s'.log = (p, x) :: s.log → (s'.allDone = true → s.allDone = true ∨ (x = .done ∧ G.succs p = [])) →
      (s.allDone = true ∨ (x = .done ∧ G.succs p = []) → s'.allDone = true) →
      (∀ r, r ≠ p → Same (s'.pc r) (s.pc r)) → pcst (G.kind p) (p == 0) (s'.pc p) x = true → past (s'.pc p) = true →
      nextOk (G.kind p) (p == 0) (s.st p) x = true → x ≠ .scheduled → x ≠ .dormant → (past (s.pc p) = true ∨ (G.preds p).all s.doneEv = true) →
      (s'.pc p = .over → G.succs p = []) → (∀ l, s'.pc p = .sched l → l = G.succs p) → Eff G s p s'
  /-- one successor is scheduled, or has been already -/
  | sched (q : Nat) (l : List Nat) (s') : s.pc p = .sched (q :: l) →
      s' = setPc (if (s.st q).code < St.scheduled.code then { setSt s q .scheduled with hopper := s.hopper ++ [q] } else s) p (.sched l) →
      Eff G s p s'

theorem eff_setPc_setSt {G : Graph} {s t : State} {p : Nat} {x : St} {c : Pc}
    (ht1 : t.st = s.st) (ht2 : t.doneEv = s.doneEv) (ht3 : t.hopper = s.hopper) (ht4 : t.dup = s.dup) (ht5 : t.log = s.log)
    (ht6 : t.allDone = s.allDone) (ht7 : ∀ r, r ≠ p → Same (t.pc r) (s.pc r))
    (hx : x ≠ .done) (hc : pcst (G.kind p) (p == 0) c x = true) (hp : past c = true) (hn : nextOk (G.kind p) (p == 0) (s.st p) x = true)
    (h1 : x ≠ .scheduled) (h2 : x ≠ .dormant) (h3 : past (s.pc p) = true ∨ (G.preds p).all s.doneEv = true)
    (h4 : c ≠ .over) (h5 : ∀ l, c ≠ .sched l) : Eff G s p (setPc (setSt t p x) p c) := by
  refine .set _ x (by simp [setPc, setSt, ht1]) (by simp [setPc, setSt, hx, ht2]) (by simp [setPc, setSt, ht3]) (by simp [setPc, setSt, ht4])
    (by simp [setPc, setSt, ht5]) (by simp [setPc, setSt, ht6]; exact .inl) (by simp [setPc, setSt, ht6, hx]) ?_ (by simpa [setPc] using hc)
    (by simpa [setPc] using hp) hn h1 h2 h3 (by simpa [setPc] using fun e => absurd e h4) (by simpa [setPc] using fun l e => absurd e (h5 l))
  intro r hr
  simp only [setPc, upd_other _ _ hr, setSt]
  exact (same_wakeSt p _).trans (ht7 r hr)

theorem eff_setPc {G : Graph} {s t : State} {p : Nat} {c : Pc} (ht1 : t.st = s.st) (ht2 : t.doneEv = s.doneEv) (ht3 : t.hopper = s.hopper)
    (ht4 : t.dup = s.dup) (ht5 : t.log = s.log) (ht6 : t.allDone = s.allDone) (ht7 : t.pc = s.pc)
    (hc : pcst (G.kind p) (p == 0) c (s.st p) = true) (hp : past (s.pc p) = true) (hp' : past c = true)
    (h4 : c = .over → s.pc p = .sched []) (h5 : ∀ l, c ≠ .sched l) : Eff G s p (setPc t p c) :=
  .quiet _ (by simp [setPc, ht1]) (by simp [setPc, ht2]) (by simp [setPc, ht3]) (by simp [setPc, ht4]) (by simp [setPc, ht5])
    (by simp [setPc, ht6]) (fun r hr => by simp [setPc, upd_other _ _ hr, ht7]) (by simpa [setPc] using hc) hp (by simpa [setPc] using hp')
    (by simpa [setPc] using h4) (by simpa [setPc] using h5)

/-- The places inside `wait_for_self_and_siblings_to_drop`. -/
def InW (c : Pc) (sec : Bool) : Prop :=
  c = .startW sec ∨ (∃ w, c = .ownDrop sec w) ∨ (∃ n l w, c = .sib sec n l w) ∨ (∃ l w, c = .sibDrop sec l w)

theorem inW_past {c sec} (h : InW c sec) : past c = true := by
  rcases h with rfl | ⟨_, rfl⟩ | ⟨_, _, _, rfl⟩ | ⟨_, _, rfl⟩ <;> rfl

theorem inW_st {k : Kind} {r : Bool} {c : Pc} {sec : Bool} {x : St} (h : InW c sec) (hp : pcst k r c x = true) :
    k = .task ∧ (x = .executing ∨ (x = .readyToEnd ∧ sec = true)) := by
  rcases h with rfl | ⟨_, rfl⟩ | ⟨_, _, _, rfl⟩ | ⟨_, _, rfl⟩ <;> cases sec <;> cases x <;> simp_all [pcst]

theorem eff_exitW {G : Graph} {s t : State} {p : Nat} {sec : Bool} (ht1 : t.st = s.st) (ht2 : t.doneEv = s.doneEv) (ht3 : t.hopper = s.hopper)
    (ht4 : t.dup = s.dup) (ht5 : t.log = s.log) (ht6 : t.allDone = s.allDone) (ht7 : t.pc = s.pc) (hW : InW (s.pc p) sec)
    (hp : pcst (G.kind p) (p == 0) (s.pc p) (s.st p) = true) : Eff G s p (exitW t p sec) := by
  have hpast := inW_past hW
  obtain ⟨hk, hst⟩ := inW_st hW hp
  unfold exitW
  split
  · rename_i hsec
    have : s.st p = .executing := by rcases hst with h | h; exact h; simp [hsec] at h
    exact eff_setPc ht1 ht2 ht3 ht4 ht5 ht6 ht7 (by rw [this, hk]; rfl) hpast rfl nofun nofun
  · split
    · rename_i h
      rw [ht1] at h
      exact eff_setPc ht1 ht2 ht3 ht4 ht5 ht6 ht7 (by rw [h.1, hk]; rfl) hpast rfl nofun nofun
    · exact eff_setPc_setSt ht1 ht2 ht3 ht4 ht5 ht6 (fun r _ => by rw [ht7]; exact .refl _) nofun (by rw [hk]; rfl) rfl
        (by rcases hst with h | h <;> simp [h, hk, nextOk]) nofun nofun (.inl hpast) nofun nofun

theorem eff_sib {G : Graph} {s t : State} {p : Nat} {sec : Bool} (ht1 : t.st = s.st) (ht2 : t.doneEv = s.doneEv) (ht3 : t.hopper = s.hopper)
    (ht4 : t.dup = s.dup) (ht5 : t.log = s.log) (ht6 : t.allDone = s.allDone) (ht7 : t.pc = s.pc) (hW : InW (s.pc p) sec)
    (hp : pcst (G.kind p) (p == 0) (s.pc p) (s.st p) = true) (n : Bool) (l : List Nat) (w : Bool) : Eff G s p (setPc t p (.sib sec n l w)) := by
  obtain ⟨hk, hst⟩ := inW_st hW hp
  refine eff_setPc ht1 ht2 ht3 ht4 ht5 ht6 ht7 ?_ (inW_past hW) rfl nofun nofun
  rcases hst with h | ⟨h, hs⟩
  · rw [h, hk]; cases sec <;> rfl
  · rw [h, hk, hs]; rfl

theorem eff_exec {G : Graph} {s t : State} {p : Nat} {sec : Bool} (ht1 : t.st = s.st) (ht2 : t.doneEv = s.doneEv) (ht3 : t.hopper = s.hopper)
    (ht4 : t.dup = s.dup) (ht5 : t.log = s.log) (ht6 : t.allDone = s.allDone) (ht7 : t.pc = s.pc) (hW : InW (s.pc p) sec)
    (hp : pcst (G.kind p) (p == 0) (s.pc p) (s.st p) = true) (c : Pc) (hc : (∃ w, c = .ownDrop sec w) ∨ ∃ l w, c = .sibDrop sec l w) :
    Eff G s p (setPc (setSt t p .executing) p c) := by
  obtain ⟨hk, hst⟩ := inW_st hW hp
  refine eff_setPc_setSt ht1 ht2 ht3 ht4 ht5 ht6 (fun r _ => by rw [ht7]; exact .refl _) nofun ?_ ?_ ?_ nofun nofun (.inl (inW_past hW)) ?_ ?_
  · rcases hc with ⟨_, rfl⟩ | ⟨_, _, rfl⟩ <;> rw [hk] <;> rfl
  · rcases hc with ⟨_, rfl⟩ | ⟨_, _, rfl⟩ <;> rfl
  · rcases hst with h | h <;> simp [h, hk, nextOk]
  · rcases hc with ⟨_, rfl⟩ | ⟨_, _, rfl⟩ <;> nofun
  · rcases hc with ⟨_, rfl⟩ | ⟨_, _, rfl⟩ <;> nofun

theorem eff_topW {G : Graph} {s t : State} {p : Nat} {sec : Bool} (ht1 : t.st = s.st) (ht2 : t.doneEv = s.doneEv) (ht3 : t.hopper = s.hopper)
    (ht4 : t.dup = s.dup) (ht5 : t.log = s.log) (ht6 : t.allDone = s.allDone) (ht7 : t.pc = s.pc) (hW : InW (s.pc p) sec)
    (hp : pcst (G.kind p) (p == 0) (s.pc p) (s.st p) = true) (l : List Nat) : Eff G s p (topW t p sec l) := by
  unfold topW
  split
  · exact eff_exec ht1 ht2 ht3 ht4 ht5 ht6 ht7 hW hp _ (.inl ⟨_, rfl⟩)
  · split
    · exact eff_exitW ht1 ht2 ht3 ht4 ht5 ht6 ht7 hW hp
    · exact eff_sib ht1 ht2 ht3 ht4 ht5 ht6 ht7 hW hp _ _ _

theorem eff_nextSib {G : Graph} {s t : State} {p : Nat} {sec : Bool} (ht1 : t.st = s.st) (ht2 : t.doneEv = s.doneEv) (ht3 : t.hopper = s.hopper)
    (ht4 : t.dup = s.dup) (ht5 : t.log = s.log) (ht6 : t.allDone = s.allDone) (ht7 : t.pc = s.pc) (hW : InW (s.pc p) sec)
    (hp : pcst (G.kind p) (p == 0) (s.pc p) (s.st p) = true) (n : Bool) (all l : List Nat) : Eff G s p (nextSib t p sec n all l) := by
  unfold nextSib
  split
  · exact eff_sib ht1 ht2 ht3 ht4 ht5 ht6 ht7 hW hp _ _ _
  · split
    · exact eff_topW ht1 ht2 ht3 ht4 ht5 ht6 ht7 hW hp _
    · exact eff_exitW ht1 ht2 ht3 ht4 ht5 ht6 ht7 hW hp

theorem eff_finish {G : Graph} {s t : State} {p : Nat} (ht1 : t.st = s.st) (ht2 : t.doneEv = s.doneEv) (ht3 : t.hopper = s.hopper)
    (ht4 : t.dup = s.dup) (ht5 : t.log = s.log) (ht6 : t.allDone = s.allDone) (ht7 : ∀ r, r ≠ p → Same (t.pc r) (s.pc r))
    (hp : past (s.pc p) = true) (hn : nextOk (G.kind p) (p == 0) (s.st p) .done = true) : Eff G s p (finish G t p) := by
  have hsame : ∀ r, r ≠ p → Same (wakeSt p (t.pc r)) (s.pc r) := fun r hr => (same_wakeSt p _).trans (ht7 r hr)
  unfold finish
  cases hl : G.succs p with
  | nil =>
    refine .set _ .done (by simp [setPc, setSt, ht1]) (by simp [setPc, setSt, ht2]) (by simp [setPc, setSt, ht3]) (by simp [setPc, setSt, ht4])
      (by simp [setPc, setSt, ht5]) (by simp [hl]) (by simp [setPc]) ?_ (by simp [setPc, pcst])
      (by simp [setPc, past]) hn nofun nofun (.inl hp) (fun _ => hl) (by simp [setPc])
    intro r hr; simp only [setPc, upd_other _ _ hr, setSt]; exact hsame r hr
  | cons a l =>
    refine .set _ .done (by simp [setPc, setSt, ht1]) (by simp [setPc, setSt, ht2]) (by simp [setPc, setSt, ht3]) (by simp [setPc, setSt, ht4])
      (by simp [setPc, setSt, ht5]) (by simp [setPc, setSt, ht6]; exact .inl) (by simp [setPc, setSt, ht6, hl]) ?_ (by simp [setPc, pcst])
      (by simp [setPc, past]) hn nofun nofun (.inl hp) (by simp [setPc]) (by simp [setPc, hl])
    intro r hr; simp only [setPc, upd_other _ _ hr, setSt]; exact hsame r hr

theorem pcst_wait {k r x} (h : pcst k r .waitPreds x = true) : nextOk k r x .syncing = true := by cases x <;> simp_all [pcst, nextOk]
theorem pcst_syncing {k r x} (h : pcst k r .syncing x = true) : x = .syncing := by cases x <;> simp_all [pcst]
theorem pcst_started {k r x} (h : pcst k r .started x = true) : x = .started := by cases x <;> simp_all [pcst]
theorem pcst_oexec {k r x} (h : pcst k r .oexec x = true) : nextOk k r x .done = true := by cases x <;> simp_all [pcst, nextOk]
theorem pcst_fexec {k r x} (h : pcst k r .fexec x = true) : x = .executing ∧ k = .func := by cases x <;> simp_all [pcst]
theorem pcst_predWait {k r x l w} (h : pcst k r (.predWait l w) x = true) : x = .executing ∧ k = .func := by cases x <;> simp_all [pcst]
theorem pcst_crit {k r x} (h : pcst k r .crit x = true) : x = .executing ∧ k = .task := by cases x <;> simp_all [pcst]
theorem pcst_ownFirst {k r x w} (h : pcst k r (.ownFirst w) x = true) : x = .executing ∧ k = .task := by cases x <;> simp_all [pcst]
theorem pcst_beforeRte {k r x} (h : pcst k r .beforeRte x = true) : x = .executing ∧ k = .task := by cases x <;> simp_all [pcst]
theorem pcst_ended {k r x} (h : pcst k r .ended x = true) : x = .ended ∧ (k != .other) = true := by cases x <;> simp_all [pcst]
theorem pcst_cleanup {k r x} (h : pcst k r .cleanup x = true) : x = .cleanup := by cases x <;> simp_all [pcst]
theorem pcst_sched {k r x l} (h : pcst k r (.sched l) x = true) : x = .done := by cases x <;> simp_all [pcst]
theorem pcst_over {k r x} (h : pcst k r .over x = true) : x = .done := by cases x <;> simp_all [pcst]

theorem adv_eff (G : Graph) {s s' : State} {p : Nat} (hp : pcst (G.kind p) (p == 0) (s.pc p) (s.st p) = true) (h : adv G s p = some s') :
    Eff G s p s' := by
  have e := h
  unfold adv at h
  split at h
  · simp at h
  · rename_i hpc
    split at h
    · rename_i ha
      split at h
      · rename_i hd; rw [hpc, hd] at hp; simp [pcst] at hp
      · cases h
        exact eff_setPc_setSt rfl rfl rfl rfl rfl rfl (fun _ _ => .refl _) nofun rfl rfl (pcst_wait (hpc ▸ hp)) nofun nofun (.inr ha) nofun nofun
    · simp at h
  · rename_i hpc
    cases h
    have : s.st p = .syncing := pcst_syncing (hpc ▸ hp)
    exact eff_setPc_setSt rfl rfl rfl rfl rfl rfl (fun _ _ => .refl _) nofun rfl rfl (by rw [this]; rfl) nofun nofun
      (.inl (by rw [hpc]; rfl)) nofun nofun
  · rename_i hpc
    cases h
    have : s.st p = .started := pcst_started (hpc ▸ hp)
    refine eff_setPc_setSt rfl rfl rfl rfl rfl rfl (fun _ _ => .refl _) nofun ?_ ?_ (by rw [this]; rfl) nofun nofun
      (.inl (by rw [hpc]; rfl)) ?_ ?_ <;> cases G.kind p <;> simp [pcst, past]
  · rename_i hpc
    cases h
    exact eff_finish rfl rfl rfl rfl rfl rfl (fun _ _ => .refl _) (by rw [hpc]; rfl) (pcst_oexec (hpc ▸ hp))
  · rename_i hpc
    have hst : s.st p = .executing ∧ G.kind p = .func := pcst_fexec (hpc ▸ hp)
    split at h
    · cases h
      exact eff_setPc rfl rfl rfl rfl rfl rfl rfl (by rw [hst.1, hst.2]; rfl) (by rw [hpc]; rfl) rfl nofun nofun
    · cases h
      unfold nextPred
      split <;> exact eff_setPc rfl rfl rfl rfl rfl rfl rfl (by rw [hst.1, hst.2]; rfl) (by rw [hpc]; rfl) rfl nofun nofun
  · rename_i hpc
    have hst : s.st p = .executing ∧ G.kind p = .func := pcst_predWait (hpc ▸ hp)
    cases h
    exact eff_setPc_setSt rfl rfl rfl rfl rfl rfl (fun _ _ => .refl _) nofun (by rw [hst.2]; rfl) rfl (by rw [hst.1, hst.2]; rfl) nofun nofun
      (.inl (by rw [hpc]; rfl)) nofun nofun
  · rename_i q l w hpc
    have hst : s.st p = .executing ∧ G.kind p = .func := pcst_predWait (hpc ▸ hp)
    split at h
    · dsimp only at h
      split at h
      · cases h
        unfold nextPred
        split <;> exact eff_setPc rfl rfl rfl rfl rfl rfl rfl (by rw [hst.1, hst.2]; rfl) (by rw [hpc]; rfl) rfl nofun nofun
      · cases h
        exact eff_setPc rfl rfl rfl rfl rfl rfl rfl (by rw [hst.1, hst.2]; rfl) (by rw [hpc]; rfl) rfl nofun nofun
    · simp at h
  · rename_i hpc
    have hst : s.st p = .executing ∧ G.kind p = .task := pcst_crit (hpc ▸ hp)
    split at h
    · cases h
      exact eff_setPc rfl rfl rfl rfl rfl rfl rfl (by rw [hst.1, hst.2]; rfl) (by rw [hpc]; rfl) rfl nofun nofun
    · split at h <;> cases h <;>
        exact eff_setPc rfl rfl rfl rfl rfl rfl rfl (by rw [hst.1, hst.2]; rfl) (by rw [hpc]; rfl) rfl nofun nofun
  · rename_i hpc
    have hst : s.st p = .executing ∧ G.kind p = .task := pcst_ownFirst (hpc ▸ hp)
    split at h
    · split at h <;> cases h <;>
        exact eff_setPc rfl rfl rfl rfl rfl rfl rfl (by rw [hst.1, hst.2]; rfl) (by rw [hpc]; rfl) rfl nofun nofun
    · simp at h
  · rename_i sec hpc
    cases h
    exact eff_topW rfl rfl rfl rfl rfl rfl rfl (.inl hpc) hp _
  · rename_i sec w hpc
    split at h
    · cases h
      exact eff_nextSib rfl rfl rfl rfl rfl rfl rfl (.inr (.inl ⟨_, hpc⟩)) hp _ _ _
    · simp at h
  · rename_i sec need w hpc
    cases h
    exact eff_nextSib rfl rfl rfl rfl rfl rfl rfl (.inr (.inr (.inl ⟨_, _, _, hpc⟩))) hp _ _ _
  · rename_i sec need q l w hpc
    have hW : InW (s.pc p) sec := .inr (.inr (.inl ⟨_, _, _, hpc⟩))
    split at h
    · dsimp only at h
      split at h
      · split at h
        · cases h
          exact eff_exec (s := s) (t := { s with ev := upd s.ev q false }) rfl rfl rfl rfl rfl rfl rfl hW hp _ (.inr ⟨_, _, rfl⟩)
        · cases h
          exact eff_nextSib (s := s) (t := { s with ev := upd s.ev q false }) rfl rfl rfl rfl rfl rfl rfl hW hp _ _ _
      · cases h
        exact eff_sib (s := s) (t := { s with ev := upd s.ev q false }) rfl rfl rfl rfl rfl rfl rfl hW hp _ _ _
    · simp at h
  · rename_i sec l w hpc
    split at h
    · cases h
      exact eff_nextSib rfl rfl rfl rfl rfl rfl rfl (.inr (.inr (.inr ⟨_, _, hpc⟩))) hp _ _ _
    · simp at h
  · rename_i hpc
    have hst : s.st p = .executing ∧ G.kind p = .task := pcst_beforeRte (hpc ▸ hp)
    cases h
    exact eff_setPc_setSt rfl rfl rfl rfl rfl rfl (fun _ _ => .refl _) nofun (by rw [hst.2]; rfl) rfl (by rw [hst.1, hst.2]; rfl) nofun nofun
      (.inl (by rw [hpc]; rfl)) nofun nofun
  · rename_i hpc
    have hst : s.st p = .ended ∧ (G.kind p != .other) = true := pcst_ended (hpc ▸ hp)
    cases h
    exact eff_setPc_setSt rfl rfl rfl rfl rfl rfl (fun _ _ => .refl _) nofun hst.2 rfl (by rw [hst.1]; rfl) nofun nofun
      (.inl (by rw [hpc]; rfl)) nofun nofun
  · rename_i hpc
    have hst : s.st p = .cleanup := pcst_cleanup (hpc ▸ hp)
    cases h
    exact eff_finish rfl rfl rfl rfl rfl rfl (fun r _ => same_wakeDrop _ _ _) (by rw [hpc]; rfl) (by rw [hst]; rfl)
  · rename_i hpc
    have hst : s.st p = .done := pcst_sched (hpc ▸ hp)
    cases h
    exact eff_setPc rfl rfl rfl rfl rfl rfl rfl (by rw [hst]; rfl) (by rw [hpc]; rfl) rfl (fun _ => hpc) nofun
  · rename_i q l hpc
    cases h
    exact .sched q l _ hpc rfl
  · simp at h
  · simp at h

/-! ## The invariant of all schedules -/

theorem nextOk_done {k r x} : nextOk k r .done x = false := by cases x <;> rfl

theorem life_snoc (k : Kind) (r : Bool) (x : St) : ∀ (a : St) (l : List St), Life k r a l → nextOk k r (l.getLastD a) x = true →
    Life k r a (l ++ [x])
  | a, [], _, h => ⟨h, trivial⟩
  | a, b :: l, h, hx => ⟨h.1, life_snoc k r x b l h.2 (by rw [List.getLastD_cons] at hx; exact hx)⟩

structure Inv (G : Graph) (s : State) : Prop where
  pcs : ∀ p, pcst (G.kind p) (p == 0) (s.pc p) (s.st p) = true
  doneEv : ∀ p, s.doneEv p = true ↔ s.st p = .done
  hop : ∀ q, q ∈ s.hopper → s.pc q = .idle ∧ (q ≠ 0 → s.st q = .scheduled)
  nodup : s.hopper.Nodup
  idle : ∀ q, s.pc q = .idle → q ∈ s.hopper ∨ (q ≠ 0 ∧ s.st q = .dormant)
  nodupTask : s.dup = false
  past : ∀ p, past (s.pc p) = true → ∀ q ∈ G.preds p, s.st q = .done
  logDone : ∀ q, s.st q = .done → (q, .done) ∈ s.log
  order : ∀ newer older p x, s.log = newer ++ (p, x) :: older → x ≠ .scheduled → ∀ q ∈ G.preds p, (q, .done) ∈ older
  life : ∀ p, Life (G.kind p) (p == 0) .dormant (history s p) ∧ (history s p).getLastD .dormant = s.st p
  allDone : s.allDone = true ↔ ∃ p, G.succs p = [] ∧ s.st p = .done
  over : ∀ p, s.pc p = .over → ∀ q ∈ G.succs p, s.st q ≠ .dormant
  sched : ∀ p l, s.pc p = .sched l → (∀ q ∈ l, q ∈ G.succs p) ∧ ∀ q ∈ G.succs p, q ∈ l ∨ s.st q ≠ .dormant

theorem inv_init (G : Graph) : Inv G {} where
  pcs p := by simp [pcst]
  doneEv p := by simp
  hop q h := by simp at h; simp [h]
  nodup := by simp
  idle q _ := by by_cases h : q = 0 <;> simp [h]
  nodupTask := rfl
  past p h := by simp [Verif.PhaseRun.past] at h
  logDone q h := by simp at h
  order n o p x h := by simp at h
  life p := by simp [history, Life]
  allDone := by simp
  over p h := by simp at h
  sched p l h := by simp at h

theorem history_cons_same (s s' : State) (p : Nat) (x : St) (h : s'.log = (p, x) :: s.log) : history s' p = history s p ++ [x] := by
  simp [history, h]
theorem history_cons_other (s s' : State) {p q : Nat} (x : St) (h : s'.log = (p, x) :: s.log) (hq : q ≠ p) : history s' q = history s q := by
  have : (p == q) = false := by simp; exact fun e => hq e.symm
  simp [history, h, this]

theorem order_cons {G : Graph} {s s' : State} {p : Nat} {x : St} (hl : s'.log = (p, x) :: s.log)
    (h : ∀ newer older p x, s.log = newer ++ (p, x) :: older → x ≠ .scheduled → ∀ q ∈ G.preds p, (q, .done) ∈ older)
    (hx : x ≠ .scheduled → ∀ q ∈ G.preds p, (q, .done) ∈ s.log) :
    ∀ newer older p x, s'.log = newer ++ (p, x) :: older → x ≠ .scheduled → ∀ q ∈ G.preds p, (q, .done) ∈ older := by
  intro newer older p' x' he hx' q hq
  rw [hl] at he
  cases newer with
  | nil => simp at he; obtain ⟨⟨rfl, rfl⟩, rfl⟩ := he; exact hx hx' q hq
  | cons a newer => simp at he; exact h newer older p' x' he.2 hx' q hq

theorem life_cons {G : Graph} {s s' : State} {p : Nat} {x : St} (hl : s'.log = (p, x) :: s.log) (hst : s'.st = upd s.st p x)
    (h : ∀ p, Life (G.kind p) (p == 0) .dormant (history s p) ∧ (history s p).getLastD .dormant = s.st p)
    (hn : nextOk (G.kind p) (p == 0) (s.st p) x = true) :
    ∀ p, Life (G.kind p) (p == 0) .dormant (history s' p) ∧ (history s' p).getLastD .dormant = s'.st p := by
  intro q
  by_cases hq : q = p
  · subst hq
    obtain ⟨h1, h2⟩ := h q
    have e := history_cons_same s s' q x hl
    refine ⟨by rw [e]; exact life_snoc _ _ _ _ _ h1 (by rw [h2]; exact hn), ?_⟩
    simp only [e, hst, upd_same]
    simp
  · have e := history_cons_other s s' x hl hq
    simp only [e, hst, upd_other _ _ hq]
    exact h q

theorem inv_adv {G : Graph} (hG : Wf G) {s s' : State} {p : Nat} (hi : Inv G s) (h : adv G s p = some s') : Inv G s' := by
  have root : ∀ q, 0 ∉ G.succs q := by
    intro q hq
    have := (hG.agree 0 q).2 hq
    rw [hG.root] at this; simp at this
  cases adv_eff G (hi.pcs p) h with
  | quiet _ e1 e2 e3 e4 e5 e6 e7 e8 e9 e10 e11 e12 =>
    have pcp : s'.pc p ≠ .idle := by intro e; rw [e] at e10; simp [past] at e10
    have pcp' : s.pc p ≠ .idle := by intro e; rw [e] at e9; simp [past] at e9
    refine ⟨?_, ?_, ?_, ?_, ?_, ?_, ?_, ?_, ?_, ?_, ?_, ?_, ?_⟩
    · intro r
      by_cases hr : r = p
      · subst hr; rw [e1]; exact e8
      · rw [e1, e7 r hr]; exact hi.pcs r
    · rw [e1, e2]; exact hi.doneEv
    · intro q hq
      rw [e3] at hq
      have := hi.hop q hq
      have hqp : q ≠ p := fun e => pcp' (e ▸ this.1)
      rw [e1, e7 q hqp]; exact this
    · rw [e3]; exact hi.nodup
    · intro q hq
      have hqp : q ≠ p := fun e => pcp (e ▸ hq)
      rw [e7 q hqp] at hq
      rw [e1, e3]; exact hi.idle q hq
    · rw [e4]; exact hi.nodupTask
    · intro r hr
      by_cases hrp : r = p
      · subst hrp; rw [e1]; exact hi.past r e9
      · rw [e7 r hrp] at hr; rw [e1]; exact hi.past r hr
    · rw [e1, e5]; exact hi.logDone
    · rw [e5]; exact hi.order
    · intro r; have := hi.life r; simp only [history, e5, e1]; simpa [history] using this
    · rw [e6, e1]; exact hi.allDone
    · intro r hr
      by_cases hrp : r = p
      · subst hrp
        have := e11 hr
        intro q hq
        rw [e1]
        rcases (hi.sched r [] this).2 q hq with h | h
        · simp at h
        · exact h
      · rw [e7 r hrp] at hr; rw [e1]; exact hi.over r hr
    · intro r l hr
      by_cases hrp : r = p
      · subst hrp; exact absurd hr (e12 l)
      · rw [e7 r hrp] at hr; rw [e1]; exact hi.sched r l hr
  | set _ x e1 e2 e3 e4 e5 e6 e6' e7 e8 e9 e10 e11 e12 e13 e14 e15 =>
    have pcp : s'.pc p ≠ .idle := by intro e; rw [e] at e9; simp [past] at e9
    have preds : ∀ q ∈ G.preds p, s.st q = .done := by
      rcases e13 with h | h
      · exact hi.past p h
      · intro q hq; exact (hi.doneEv q).1 (List.all_eq_true.1 h q hq)
    have notDone : s.st p ≠ .done := by intro e; rw [e, nextOk_done] at e10; simp at e10
    have keep : ∀ q, s.st q = .done → s'.st q = .done := by
      intro q hq
      have : q ≠ p := fun e => notDone (e ▸ hq)
      rw [e1, upd_other _ _ this]; exact hq
    have keep' : ∀ q, s.st q ≠ .dormant → s'.st q ≠ .dormant := by
      intro q hq
      rw [e1]
      by_cases hqp : q = p
      · subst hqp; rw [upd_same]; exact e12
      · rw [upd_other _ _ hqp]; exact hq
    refine ⟨?_, ?_, ?_, ?_, ?_, ?_, ?_, ?_, ?_, ?_, ?_, ?_, ?_⟩
    · intro r
      by_cases hr : r = p
      · subst hr; rw [e1, upd_same]; exact e8
      · rw [e1, upd_other _ _ hr, (e7 r hr).1]; exact hi.pcs r
    · intro q
      by_cases hq : q = p
      · subst hq
        rw [e1, e2, upd_same]
        by_cases hx : x = .done
        · simp [hx]
        · simp only [hx, if_false, iff_false]; exact fun e => notDone ((hi.doneEv q).1 e)
      · rw [e1, e2, upd_other _ _ hq]
        split
        · rw [upd_other _ _ hq]; exact hi.doneEv q
        · exact hi.doneEv q
    · intro q hq
      rw [e3] at hq
      have hh := hi.hop q hq
      have hqp : q ≠ p := by
        rintro rfl
        -- the task of `q` has not been started, so it cannot move
        unfold adv at h; rw [hh.1] at h; simp at h
      rw [e1, upd_other _ _ hqp]
      exact ⟨(e7 q hqp).2.2.1.2 hh.1, hh.2⟩
    · rw [e3]; exact hi.nodup
    · intro q hq
      have hqp : q ≠ p := fun e => pcp (e ▸ hq)
      have := hi.idle q ((e7 q hqp).2.2.1.1 hq)
      rw [e1, e3, upd_other _ _ hqp]; exact this
    · rw [e4]; exact hi.nodupTask
    · intro r hr q hq
      by_cases hrp : r = p
      · subst hrp; exact keep q (preds q hq)
      · rw [(e7 r hrp).2.1] at hr; exact keep q (hi.past r hr q hq)
    · intro q hq
      rw [e5]
      by_cases hqp : q = p
      · subst hqp; rw [e1, upd_same] at hq; simp [hq]
      · rw [e1, upd_other _ _ hqp] at hq; exact List.mem_cons_of_mem _ (hi.logDone q hq)
    · exact order_cons e5 hi.order fun _ q hq => hi.logDone q (preds q hq)
    · exact life_cons e5 e1 hi.life e10
    · constructor
      · intro ha
        rcases e6 ha with h | ⟨h, h'⟩
        · obtain ⟨r, hr, hr'⟩ := hi.allDone.1 h
          exact ⟨r, hr, keep r hr'⟩
        · exact ⟨p, h', by rw [e1, upd_same]; exact h⟩
      · rintro ⟨r, hr, hr'⟩
        apply e6'
        by_cases hrp : r = p
        · subst hrp; rw [e1, upd_same] at hr'; exact .inr ⟨hr', hr⟩
        · rw [e1, upd_other _ _ hrp] at hr'; exact .inl (hi.allDone.2 ⟨r, hr, hr'⟩)
    · intro r hr q hq
      by_cases hrp : r = p
      · subst hrp; rw [e14 hr] at hq; simp at hq
      · exact keep' q (hi.over r ((e7 r hrp).2.2.2.1.1 hr) q hq)
    · intro r l hr
      by_cases hrp : r = p
      · subst hrp
        have := e15 l hr
        subst this
        exact ⟨fun _ h => h, fun q hq => .inl hq⟩
      · have := hi.sched r l ((e7 r hrp).2.2.2.2 l |>.1 hr)
        exact ⟨this.1, fun q hq => (this.2 q hq).imp id (keep' q)⟩
  | sched q l _ hpc hs' =>
    have hstp : s.st p = .done := pcst_sched (hpc ▸ hi.pcs p)
    subst hs'
    by_cases hc : (s.st q).code < St.scheduled.code
    · have hqd : s.st q = .dormant := by cases hq : s.st q <;> simp_all [St.code]
      rw [if_pos hc]
      have hqp : q ≠ p := by rintro rfl; rw [hqd] at hstp; simp at hstp
      have hsc := hi.sched p (q :: l) hpc
      have hq0 : q ≠ 0 := fun e => root p (e ▸ hsc.1 q (by simp))
      have hqi : s.pc q = .idle := by
        have := hi.pcs q
        rw [hqd] at this
        cases hpq : s.pc q <;> rw [hpq] at this <;> simp_all [pcst]
      have hqh : q ∉ s.hopper := by
        intro hm
        have := (hi.hop q hm).2 hq0
        rw [hqd] at this; simp at this
      -- the new state, field by field
      generalize ht : setPc { setSt s q .scheduled with hopper := s.hopper ++ [q] } p (.sched l) = t
      have e1 : t.st = upd s.st q .scheduled := by subst ht; rfl
      have e2 : t.doneEv = s.doneEv := by subst ht; rfl
      have e3 : t.hopper = s.hopper ++ [q] := by subst ht; rfl
      have e4 : t.dup = s.dup := by subst ht; rfl
      have e5 : t.log = (q, .scheduled) :: s.log := by subst ht; rfl
      have e6 : t.allDone = s.allDone := by subst ht; rfl
      have e7 : ∀ r, r ≠ p → Same (t.pc r) (s.pc r) := by
        intro r hr; subst ht; simp only [setPc, upd_other _ _ hr, setSt]; exact same_wakeSt q _
      have e8 : t.pc p = .sched l := by subst ht; simp [setPc]
      have keep : ∀ r, s.st r = .done → t.st r = .done := by
        intro r hr
        have : r ≠ q := by rintro rfl; rw [hqd] at hr; simp at hr
        rw [e1, upd_other _ _ this]; exact hr
      have keep' : ∀ r, s.st r ≠ .dormant → t.st r ≠ .dormant := by
        intro r hr
        have : r ≠ q := by rintro rfl; exact hr hqd
        rw [e1, upd_other _ _ this]; exact hr
      refine ⟨?_, ?_, ?_, ?_, ?_, ?_, ?_, ?_, ?_, ?_, ?_, ?_, ?_⟩
      · intro r
        by_cases hr : r = p
        · subst hr; rw [e8, keep r hstp]; rfl
        · rw [(e7 r hr).1, e1]
          by_cases hrq : r = q
          · subst hrq; rw [upd_same, hqi]; simp [pcst, hq0]
          · rw [upd_other _ _ hrq]; exact hi.pcs r
      · intro r
        rw [e2, e1]
        by_cases hrq : r = q
        · subst hrq; rw [upd_same, hi.doneEv r, hqd]; simp
        · rw [upd_other _ _ hrq]; exact hi.doneEv r
      · intro r hr
        rw [e3] at hr
        rcases List.mem_append.1 hr with hr | hr
        · have hh := hi.hop r hr
          have hrp : r ≠ p := by rintro rfl; rw [hpc] at hh; simp at hh
          have hrq : r ≠ q := fun e => hqh (e ▸ hr)
          rw [e1, upd_other _ _ hrq]
          exact ⟨(e7 r hrp).2.2.1.2 hh.1, hh.2⟩
        · simp at hr; subst hr
          exact ⟨(e7 r hqp).2.2.1.2 hqi, fun _ => by rw [e1, upd_same]⟩
      · rw [e3, List.nodup_append]
        exact ⟨hi.nodup, by simp, by intro a ha b hb e; simp at hb; exact hqh (hb ▸ e ▸ ha)⟩
      · intro r hr
        have hrp : r ≠ p := by rintro rfl; rw [e8] at hr; simp at hr
        rw [e3, e1]
        by_cases hrq : r = q
        · subst hrq; left; simp
        · rw [upd_other _ _ hrq]
          rcases hi.idle r ((e7 r hrp).2.2.1.1 hr) with h | h
          · left; simp [h]
          · exact .inr h
      · rw [e4]; exact hi.nodupTask
      · intro r hr x hx
        by_cases hrp : r = p
        · subst hrp; exact keep x (hi.past r (by rw [hpc]; rfl) x hx)
        · rw [(e7 r hrp).2.1] at hr; exact keep x (hi.past r hr x hx)
      · intro r hr
        rw [e5]
        by_cases hrq : r = q
        · subst hrq; rw [e1, upd_same] at hr; simp at hr
        · rw [e1, upd_other _ _ hrq] at hr; exact List.mem_cons_of_mem _ (hi.logDone r hr)
      · exact order_cons e5 hi.order fun hx => absurd rfl hx
      · refine life_cons e5 e1 hi.life ?_
        rw [hqd]; simp [nextOk, hq0]
      · rw [e6]
        constructor
        · intro h
          obtain ⟨r, hr, hr'⟩ := hi.allDone.1 h
          exact ⟨r, hr, keep r hr'⟩
        · rintro ⟨r, hr, hr'⟩
          have : r ≠ q := by rintro rfl; rw [e1, upd_same] at hr'; simp at hr'
          rw [e1, upd_other _ _ this] at hr'
          exact hi.allDone.2 ⟨r, hr, hr'⟩
      · intro r hr x hx
        have hrp : r ≠ p := by rintro rfl; rw [e8] at hr; simp at hr
        exact keep' x (hi.over r ((e7 r hrp).2.2.2.1.1 hr) x hx)
      · intro r m hr
        by_cases hrp : r = p
        · subst hrp
          rw [e8] at hr; simp at hr; subst hr
          refine ⟨fun x hx => hsc.1 x (by simp [hx]), fun x hx => ?_⟩
          rcases hsc.2 x hx with h | h
          · rcases List.mem_cons.1 h with rfl | h
            · right; rw [e1, upd_same]; simp
            · exact .inl h
          · exact .inr (keep' x h)
        · have := hi.sched r m ((e7 r hrp).2.2.2.2 m |>.1 hr)
          exact ⟨this.1, fun x hx => (this.2 x hx).imp id (keep' x)⟩
    · rw [if_neg hc]
      have hqd : s.st q ≠ .dormant := by intro e; rw [e] at hc; simp [St.code] at hc
      have hsc := hi.sched p (q :: l) hpc
      have e7 : ∀ r, r ≠ p → (setPc s p (.sched l)).pc r = s.pc r := fun r hr => by simp [setPc, upd_other _ _ hr]
      have e8 : (setPc s p (.sched l)).pc p = .sched l := by simp [setPc]
      refine ⟨?_, hi.doneEv, ?_, hi.nodup, ?_, hi.nodupTask, ?_, hi.logDone, hi.order, hi.life, hi.allDone, ?_, ?_⟩
      · intro r
        by_cases hr : r = p
        · subst hr; rw [e8]; show pcst _ _ _ (s.st r) = true; rw [hstp]; rfl
        · rw [e7 r hr]; exact hi.pcs r
      · intro r hr
        have hh := hi.hop r hr
        have hrp : r ≠ p := by rintro rfl; rw [hpc] at hh; simp at hh
        rw [e7 r hrp]; exact hh
      · intro r hr
        have hrp : r ≠ p := by rintro rfl; rw [e8] at hr; simp at hr
        rw [e7 r hrp] at hr; exact hi.idle r hr
      · intro r hr
        by_cases hrp : r = p
        · subst hrp; exact hi.past r (by rw [hpc]; rfl)
        · rw [e7 r hrp] at hr; exact hi.past r hr
      · intro r hr
        have hrp : r ≠ p := by rintro rfl; rw [e8] at hr; simp at hr
        rw [e7 r hrp] at hr; exact hi.over r hr
      · intro r m hr
        by_cases hrp : r = p
        · subst hrp
          rw [e8] at hr; simp at hr; subst hr
          refine ⟨fun x hx => hsc.1 x (by simp [hx]), fun x hx => ?_⟩
          rcases hsc.2 x hx with h | h
          · rcases List.mem_cons.1 h with rfl | h
            · exact .inr hqd
            · exact .inl h
          · exact .inr h
        · rw [e7 r hrp] at hr; exact hi.sched r m hr

theorem inv_spawn {G : Graph} {s s' : State} (hi : Inv G s) (h : spawn s = some s') : Inv G s' := by
  unfold spawn at h
  split at h
  · simp at h
  · rename_i q t hh
    have hq := hi.hop q (by simp [hh])
    have hnd := hi.nodup
    rw [hh] at hnd
    rw [if_pos hq.1] at h
    cases h
    have hqt : q ∉ t := (List.nodup_cons.1 hnd).1
    have e7 : ∀ r, r ≠ q → ({ setPc s q .waitPreds with hopper := t } : State).pc r = s.pc r := fun r hr => by simp [setPc, upd_other _ _ hr]
    have e8 : ({ setPc s q .waitPreds with hopper := t } : State).pc q = .waitPreds := by simp [setPc]
    refine ⟨?_, hi.doneEv, ?_, (List.nodup_cons.1 hnd).2, ?_, hi.nodupTask, ?_, hi.logDone, hi.order, hi.life, hi.allDone, ?_, ?_⟩
    · intro r
      by_cases hr : r = q
      · subst hr; rw [e8]
        have := hi.pcs r
        rw [hq.1] at this
        show pcst _ _ _ (s.st r) = true
        by_cases h0 : r = 0
        · subst h0; cases hs : s.st 0 <;> simp_all [pcst]
        · rw [hq.2 h0]; simp [pcst, h0]
      · rw [e7 r hr]; exact hi.pcs r
    · intro r hr
      have hr : r ∈ t := hr
      have hrq : r ≠ q := fun e => hqt (e ▸ hr)
      rw [e7 r hrq]
      exact hi.hop r (by simp [hh, hr])
    · intro r hr
      have hrq : r ≠ q := by rintro rfl; rw [e8] at hr; simp at hr
      rw [e7 r hrq] at hr
      rcases hi.idle r hr with h | h
      · rw [hh] at h
        rcases List.mem_cons.1 h with h | h
        · exact absurd h hrq
        · exact .inl h
      · exact .inr h
    · intro r hr
      have hrq : r ≠ q := by rintro rfl; rw [e8] at hr; simp [past] at hr
      rw [e7 r hrq] at hr; exact hi.past r hr
    · intro r hr
      have hrq : r ≠ q := by rintro rfl; rw [e8] at hr; simp at hr
      rw [e7 r hrq] at hr; exact hi.over r hr
    · intro r m hr
      have hrq : r ≠ q := by rintro rfl; rw [e8] at hr; simp at hr
      rw [e7 r hrq] at hr; exact hi.sched r m hr

/-- Steps that only wake tasks and change objections. -/
theorem inv_same {G : Graph} {s s' : State} (hi : Inv G s) (e1 : s'.st = s.st) (e2 : s'.doneEv = s.doneEv) (e3 : s'.hopper = s.hopper)
    (e4 : s'.dup = s.dup) (e5 : s'.log = s.log) (e6 : s'.allDone = s.allDone) (e7 : ∀ r, Same (s'.pc r) (s.pc r)) : Inv G s' := by
  refine ⟨fun r => by rw [e1, (e7 r).1]; exact hi.pcs r, by rw [e1, e2]; exact hi.doneEv,
    fun q hq => by rw [e3] at hq; rw [e1]; exact ⟨(e7 q).2.2.1.2 (hi.hop q hq).1, (hi.hop q hq).2⟩, by rw [e3]; exact hi.nodup,
    fun q hq => by rw [e1, e3]; exact hi.idle q ((e7 q).2.2.1.1 hq), by rw [e4]; exact hi.nodupTask,
    fun r hr => by rw [(e7 r).2.1] at hr; rw [e1]; exact hi.past r hr, by rw [e1, e5]; exact hi.logDone, by rw [e5]; exact hi.order,
    fun r => by have := hi.life r; simp only [history, e5, e1]; simpa only [history] using this, by rw [e6, e1]; exact hi.allDone,
    fun r hr => by rw [e1]; exact hi.over r ((e7 r).2.2.2.1.1 hr), fun r l hr => by rw [e1]; exact hi.sched r l ((e7 r).2.2.2.2 l |>.1 hr)⟩

theorem inv_step {G : Graph} (hG : Wf G) {s : State} (hi : Inv G s) (o : Op) : Inv G (step G s o) := by
  cases o with
  | adv p =>
    simp only [step]
    cases h : adv G s p with
    | none => exact hi
    | some s' => exact inv_adv hG hi h
  | spawn =>
    simp only [step]
    cases h : spawn s with
    | none => exact hi
    | some s' => exact inv_spawn hi h
  | raise p =>
    simp only [step]
    split
    · exact inv_same hi rfl rfl rfl rfl rfl rfl fun _ => .refl _
    · exact hi
  | drop p =>
    simp only [step]
    split
    · exact hi
    · split
      · exact inv_same hi rfl rfl rfl rfl rfl rfl fun _ => same_wakeDrop _ _ _
      · exact inv_same hi rfl rfl rfl rfl rfl rfl fun _ => .refl _

theorem inv_run {G : Graph} (hG : Wf G) (ops : List Op) : Inv G (run G {} ops) := by
  have : ∀ (ops : List Op) (s : State), Inv G s → Inv G (run G s ops) := by
    intro ops
    induction ops with
    | nil => intro s h; exact h
    | cons o ops ih => intro s h; exact ih _ (inv_step hG h o)
  exact this ops _ (inv_init G)

end Verif.PhaseRun
