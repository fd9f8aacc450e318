import Verif.Lemmas.PhaseRunLive
/-!
# C84: phases run in the order of the schedule, and the schedule runs to its end
-/
namespace Verif.PhaseRun

theorem ofEdges_agree (n : Nat) (e : List (Nat × Nat)) (k : Nat → Kind) (f : Nat → Bool) (p q : Nat) :
    q ∈ (ofEdges n e k f).preds p ↔ p ∈ (ofEdges n e k f).succs q := by
  simp [ofEdges]

/-- The common schedule of UVM: 0 the common domain; 1-4 build to start_of_simulation; 5 run; 6, 7 the uvm domain and its schedule; 8-19
pre_reset to post_shutdown; 20, 21 their ends; 22-25 extract to final; 26 the end. -/
def std : Graph := ofEdges 27
  [(0, 1), (1, 2), (2, 3), (3, 4), (4, 5), (4, 6), (6, 7), (7, 8), (8, 9), (9, 10), (10, 11), (11, 12), (12, 13), (13, 14), (14, 15), (15, 16),
   (16, 17), (17, 18), (18, 19), (19, 20), (20, 21), (5, 22), (21, 22), (22, 23), (23, 24), (24, 25), (25, 26)]
  (fun p => if p ∈ [1, 2, 3, 4, 22, 23, 24, 25] then .func else if p = 5 ∨ (8 ≤ p ∧ p ≤ 19) then .task else .other) (fun p => p == 25)

/-- Two task phases in parallel, a function phase after them and the final phase. -/
def two : Graph := ofEdges 6 [(0, 1), (0, 2), (1, 3), (2, 3), (3, 4), (4, 5)]
  (fun p => if p = 1 ∨ p = 2 then .task else if p = 3 ∨ p = 4 then .func else .other) (fun p => p == 4)

/-- Three task phases in parallel. -/
def three : Graph := ofEdges 7 [(0, 1), (0, 2), (0, 3), (1, 4), (2, 4), (3, 4), (4, 5), (5, 6)]
  (fun p => if p = 1 ∨ p = 2 ∨ p = 3 then .task else if p = 4 ∨ p = 5 then .func else .other) (fun p => p == 5)

theorem wf_std : Wf std := ⟨ofEdges_agree _ _ _ _, by decide⟩
theorem wf_two : Wf two := ⟨ofEdges_agree _ _ _ _, by decide⟩
theorem wf_three : Wf three := ⟨ofEdges_agree _ _ _ _, by decide⟩

theorem succs_inside (n : Nat) (e : List (Nat × Nat)) (k : Nat → Kind) (f : Nat → Bool) (h : ∀ x ∈ e, x.2 < n) :
    ∀ p, ∀ q ∈ (ofEdges n e k f).succs p, q < (ofEdges n e k f).n := by
  intro p q hq
  simp only [ofEdges, List.mem_map, List.mem_filter] at hq
  obtain ⟨x, ⟨hx, _⟩, rfl⟩ := hq
  exact h x hx

/-! ## Order -/

/-- C84: in every execution, whatever happens to a phase other than being scheduled happens after all its predecessors were done. -/
theorem C84_order (G : Graph) (hG : Wf G) (ops : List Op) (newer older : List (Nat × St)) (p : Nat) (x : St)
    (h : (run G {} ops).log = newer ++ (p, x) :: older) (hx : x ≠ .scheduled) : ∀ q ∈ G.preds p, (q, St.done) ∈ older :=
  (inv_run hG ops).order newer older p x h hx

/-- C84: every phase goes through its states in the documented order. -/
theorem C84_states (G : Graph) (hG : Wf G) (ops : List Op) (p : Nat) :
    Life (G.kind p) (p == 0) .dormant (history (run G {} ops) p) ∧ (history (run G {} ops) p).getLastD .dormant = (run G {} ops).st p :=
  (inv_run hG ops).life p

/-- The place of a state in the life of a phase: it never goes down once the phase has executed. -/
theorem life_started {k r} : ∀ (l : List St) (a : St), Life k r a l → (St.started.code ≤ a.code → l.count .started = 0) ∧ l.count .started ≤ 1
  | [], _, _ => by simp
  | b :: l, a, h => by
    have ih := life_started l b h.2
    have h1 := h.1
    have key : (b = .started → a = .syncing) ∧ (b ≠ .started → St.started.code ≤ a.code → St.started.code ≤ b.code) := by
      revert h1; cases a <;> cases b <;> simp [nextOk, St.code]
    by_cases hb : b = .started
    · have ha := key.1 hb
      subst hb ha
      have := ih.1 (by decide)
      simp [this, St.code]
    · have hb' : (b == St.started) = false := by simpa using hb
      simp only [List.count_cons, hb', Bool.false_eq_true, if_false, Nat.add_zero]
      exact ⟨fun ha => ih.1 (key.2 hb ha), ih.2⟩

/-- C84: no phase is started twice, and no phase gets a second task. -/
theorem C84_once (G : Graph) (hG : Wf G) (ops : List Op) :
    (∀ p, (history (run G {} ops) p).count .started ≤ 1) ∧ (run G {} ops).dup = false :=
  ⟨fun p => (life_started _ _ ((inv_run hG ops).life p).1).2, (inv_run hG ops).nodupTask⟩

/-- C84: when the end of all phases is announced, a last phase is done and with it everything that comes before it. -/
theorem C84_all_done (G : Graph) (hG : Wf G) (ops : List Op) (h : (run G {} ops).allDone = true) :
    ∃ e, G.succs e = [] ∧ ∀ p, Before G p e → (run G {} ops).st p = .done := by
  have hi := inv_run hG ops
  obtain ⟨e, he, hd⟩ := hi.allDone.1 h
  refine ⟨e, he, fun p hb => ?_⟩
  clear he
  induction hb with
  | refl => exact hd
  | @step b c _ hbc ih =>
    apply ih
    refine hi.past c ?_ b hbc
    have := hi.pcs c
    rw [hd] at this
    revert this
    cases (run G {} ops).pc c <;> simp [pcst, past]

/-! ## Objections -/

theorem topW_objected {s : State} {p : Nat} (ho : s.obj p ≠ 0) (b : Bool) (l : List Nat) : (topW s p b l).st p = .executing := by
  simp [topW, ho, setPc, setSt]

theorem alone_no_end {G : Graph} {s s' : State} {p : Nat} (hk : G.kind p = .task) (hs : sibs G p = some []) (hi : Inv G s) (hsh : AllShp G s)
    (ho : s.obj p ≠ 0) (h' : s.st p ≠ .ended) (h : adv G s p = some s') : s'.st p ≠ .ended := by
  have hpcs := hi.pcs p
  have hp := hsh p
  rw [hk] at hpcs
  unfold adv at h
  split at h
  · simp at h
  · split at h
    · split at h
      · cases h; exact h'
      · cases h; simp [setPc, setSt]
    · simp at h
  · cases h; simp [setPc, setSt]
  · cases h; simp [setPc, setSt]
  · cases h; unfold finish; dsimp only; split <;> simp [setPc, setSt]
  · split at h
    · cases h; exact h'
    · cases h; unfold nextPred; split <;> exact h'
  · rename_i hpc
    rw [hpc] at hpcs; have := (pcst_predWait hpcs).2; simp at this
  · rename_i hpc
    rw [hpc] at hpcs; have := (pcst_predWait hpcs).2; simp at this
  · split at h
    · cases h; exact h'
    · rename_i hh; exact absurd ho hh
  · split at h
    · split at h <;> cases h <;> exact h'
    · simp at h
  · cases h; rw [topW_objected ho]; nofun
  · split at h
    · cases h
      rw [hs]
      simp only [Option.getD_some, nextSib, if_true]
      rw [topW_objected ho]; nofun
    · simp at h
  · rename_i hpc
    rw [hpc] at hp; exact absurd rfl hp.1
  · rename_i hpc
    rw [hpc] at hp; obtain ⟨_, pre, e⟩ := hp; rw [hs] at e; simp at e
  · rename_i hpc
    rw [hpc] at hp; obtain ⟨⟨q, t, rfl, _⟩, pre, e⟩ := hp; rw [hs] at e; simp at e
  · cases h; simp [setPc, setSt]
  · cases h; simp [setPc, setSt]
  · cases h; unfold finish; dsimp only; split <;> simp [setPc, setSt]
  · cases h; exact h'
  · rename_i hpc
    rw [hpc] at hpcs
    have hd := pcst_sched hpcs
    cases h
    rename_i q l
    split
    · rename_i hc
      have : q ≠ p := by rintro rfl; rw [hd] at hc; simp [St.code] at hc
      simp [setPc, setSt, upd, Ne.symm this, hd]
    · exact h'
  · simp at h
  · simp at h

/-- C114: a task phase without siblings ends only at a moment when nobody objects. -/
theorem C114_objection_partial (G : Graph) (hG : Wf G) (ops : List Op) (p : Nat) (hk : G.kind p = .task) (hs : sibs G p = some []) (o : Op)
    (h : (step G (run G {} ops) o).st p = .ended) (h' : (run G {} ops).st p ≠ .ended) : (run G {} ops).obj p = 0 := by
  have hi := inv_run hG ops
  have hsh := shp_reach G ops
  generalize run G {} ops = s at *
  apply Classical.byContradiction
  intro ho
  cases o with
  | spawn =>
    apply h'
    rw [← h]
    show s.st p = ((spawn s).getD s).st p
    unfold spawn
    cases s.hopper with
    | nil => rfl
    | cons a l => dsimp only; split <;> rfl
  | raise x => apply h'; rw [← h]; unfold step; dsimp only; split <;> rfl
  | drop x =>
    apply h'; rw [← h]; unfold step; dsimp only
    split
    · rfl
    · split <;> rfl
  | adv r =>
    cases hadv : adv G s r with
    | none => simp only [step, hadv, Option.getD_none] at h; exact h' h
    | some s' =>
      simp only [step, hadv, Option.getD_some] at h
      by_cases hr : p = r
      · subst hr; exact alone_no_end hk hs hi hsh ho h' hadv h
      · cases adv_eff G (hi.pcs r) hadv with
        | quiet _ e1 => rw [e1] at h; exact h' h
        | set _ x e1 => rw [e1, upd_other _ _ hr] at h; exact h' h
        | sched q l _ hpc hs' =>
          subst hs'
          by_cases hc : (s.st q).code < St.scheduled.code
          · rw [if_pos hc] at h
            by_cases hq : p = q
            · subst hq; simp [setPc, setSt] at h
            · simp [setPc, setSt, upd, hq] at h; exact h' h
          · rw [if_neg hc] at h; exact h' h

/-- C114: a phase with a sibling can end while somebody objects: the objection was raised while it waited for the sibling. -/
theorem C114_objection_fails : ∃ ops, (run two {} ops).st 2 = .ended ∧ (run two {} ops).obj 2 ≠ 0 :=
  ⟨[.spawn, .adv 0, .adv 0, .adv 0, .adv 0, .adv 0, .adv 0, .spawn, .adv 1, .spawn, .adv 1, .adv 2, .adv 0, .adv 2, .adv 1, .adv 2, .adv 2,
    .adv 2, .adv 1, .adv 2, .adv 2, .adv 2, .raise 2, .adv 1, .adv 1, .adv 2], by decide⟩

/-! ## The end of the schedule -/

/-- C115: if at most two task phases run in parallel and late objections are not raised, the schedule only stops when all phases are done or
somebody objects. -/
theorem C115_progress_partial (G : Graph) (hG : Wf G) (rk : Nat → Nat) (hP : Paired G rk) (ops : List Op) (hc : Calm G {} ops)
    (hst : Stuck G (run G {} ops)) (ho : ¬ Objected (run G {} ops)) : ∀ p, p < G.n → (run G {} ops).st p = .done := by
  intro p hp
  refine stuck_done hG hP (inv_run hG ops) (shp_reach G ops) ?_ hst ho (rk p + 1) p hp (by omega)
  intro p q h2
  exact live_run hG h2 ops {} (inv_init G) (fun _ => trivial) hc (vi_init p q)

/-- … and then the end is announced. -/
theorem C115_end_partial (G : Graph) (hG : Wf G) (rk : Nat → Nat) (hP : Paired G rk) (ops : List Op) (hc : Calm G {} ops)
    (hst : Stuck G (run G {} ops)) (ho : ¬ Objected (run G {} ops)) (e : Nat) (he : e < G.n) (hs : G.succs e = []) :
    (run G {} ops).allDone = true :=
  (inv_run hG ops).allDone.2 ⟨e, hs, C115_progress_partial G hG rk hP ops hc hst ho e he⟩

/-- C115: three task phases in parallel can wait for each other for ever although nobody objects: a wake-up is lost when another waiter clears
the event first. -/
theorem C115_parallel_fails : ∃ ops, (∀ p, .raise p ∉ ops) ∧ Stuck three (run three {} ops) ∧ (run three {} ops).st 1 = .executing ∧
    (run three {} ops).allDone = false :=
  ⟨[.spawn, .adv 0, .adv 0, .adv 0, .adv 0, .adv 0, .spawn, .adv 1, .adv 0, .adv 1, .adv 1, .adv 0, .spawn, .adv 1, .spawn, .adv 0, .adv 3,
    .adv 2, .adv 3, .adv 3, .adv 3, .adv 3, .adv 2, .adv 3, .adv 2, .adv 3, .adv 1, .adv 2, .adv 3, .adv 3, .adv 2],
    by intro p; simp, stuck_of wf_three (by decide) (succs_inside _ _ _ _ (by decide)) _ (by decide) (by decide), by decide, by decide⟩

/-- C115: two task phases in parallel can wait for each other for ever after an objection was raised and dropped late. -/
theorem C115_late_objection_fails : ∃ ops, Stuck two (run two {} ops) ∧ (∀ p, p < two.n → (run two {} ops).obj p = 0) ∧
    (run two {} ops).allDone = false :=
  ⟨[.spawn, .adv 0, .adv 0, .adv 0, .adv 0, .adv 0, .spawn, .adv 0, .spawn, .adv 1, .adv 1, .adv 0, .adv 2, .adv 1, .adv 1, .adv 2, .raise 1,
    .adv 2, .adv 1, .adv 2, .adv 2, .adv 2, .drop 1, .adv 2, .adv 1, .adv 1],
    stuck_of wf_two (by decide) (succs_inside _ _ _ _ (by decide)) _ (by decide) (by decide), by decide, by decide⟩

/-- C115: a last phase that is not called "final" raises KeyError, whatever the schedule: it never ends. -/
theorem C115_last_phase_fails (G : Graph) (p : Nat) (h : G.succs p = []) (hf : G.final p = false) (s : State) :
    (s.pc p = .fexec → adv G s p = some (setPc s p .crashed)) ∧ (s.pc p = .crit → s.obj p = 0 → adv G s p = some (setPc s p .crashed)) ∧
    (s.pc p = .crashed → adv G s p = none) := by
  have hs : sibs G p = none := by
    have : ∀ nx n, expand G nx n [] = some [] := by intro nx n; cases n <;> rfl
    simp [sibs, h, this, hf]
  refine ⟨fun e => ?_, fun e ho => ?_, fun e => ?_⟩
  · simp [adv, e, hs]
  · simp [adv, e, hs, ho]
  · simp [adv, e]

/-! ## The hypotheses are met -/

theorem paired_std : Paired std (fun p => if p = 5 then 19 else p) where
  out := by
    intro p hp
    have hp : 27 ≤ p := hp
    have h1 : p ∉ [1, 2, 3, 4, 22, 23, 24, 25] := by simp; omega
    have h2 : ¬ (p = 5 ∨ (8 ≤ p ∧ p ≤ 19)) := by omega
    simp only [std, ofEdges, h1, h2, if_false]
  conn := by decide
  inside := by decide
  rank := by decide
  func := by decide
  task := by
    intro p hp hk
    have : ∀ p, p < 27 → (std.kind p = .task ∧ p ≠ 5 ∧ p ≠ 19) → sibs std p = some [] := by decide
    by_cases h5 : p = 5
    · subst h5; exact .inr ⟨19, by decide⟩
    · by_cases h19 : p = 19
      · subst h19; exact .inr ⟨5, by decide⟩
      · exact .inl (this p hp ⟨hk, h5, h19⟩)

def early : Pc → Bool
  | .idle => true
  | .waitPreds => true
  | .syncing => true
  | .started => true
  | .crit => true
  | .ownFirst w => !w
  | _ => false

def calmB (G : Graph) : State → List Op → Bool
  | _, [] => true
  | s, o :: ops => (match o with | .raise p => decide (sibs G p = some []) || early (s.pc p) | _ => true) &&
      (List.range G.n).all (fun p => decide ((step G s o).rte p < 20)) && calmB G (step G s o) ops

theorem calmB_calm (G : Graph) : ∀ (ops : List Op) (s : State), calmB G s ops = true → Calm G s ops
  | [], _, _ => trivial
  | o :: ops, s, h => by
    simp only [calmB, Bool.and_eq_true, List.all_eq_true, List.mem_range, decide_eq_true_eq] at h
    refine ⟨?_, h.1.2, calmB_calm G ops _ h.2⟩
    rintro p rfl
    have := h.1.1
    simp only [Bool.or_eq_true, decide_eq_true_eq] at this
    refine this.imp id fun e => ?_
    unfold Early
    revert e
    cases s.pc p <;> simp [early]

/-- Round after round, all tasks of `two` in turn; the first objects to its end for a while. -/
def rounds : List Op :=
  [.spawn, .adv 0, .adv 0, .adv 0, .adv 0, .adv 0, .adv 0, .spawn, .spawn, .adv 1, .adv 1, .adv 1, .raise 1, .adv 2, .adv 2, .adv 2, .adv 1,
   .adv 2, .adv 2, .drop 1] ++
  (List.replicate 12 [Op.adv 1, .adv 2]).flatten ++ [.spawn] ++ List.replicate 9 (.adv 3) ++ [.spawn] ++ List.replicate 9 (.adv 4) ++
  [.spawn] ++ List.replicate 5 (.adv 5) ++ [.adv 0]

/-- The rounds bring all phases to their end, so C115_progress_partial is about executions that exist. -/
example : Paired std (fun p => if p = 5 then 19 else p) ∧ Wf std := ⟨paired_std, wf_std⟩

theorem paired_two : Paired two id where
  out := by
    intro p hp
    have hp : 6 ≤ p := hp
    have h1 : ¬ (p = 1 ∨ p = 2) := by omega
    have h2 : ¬ (p = 3 ∨ p = 4) := by omega
    simp only [two, ofEdges, h1, h2, if_false]
  conn := by decide
  inside := by decide
  rank := by decide
  func := by decide
  task := by
    intro p hp hk
    have : ∀ p, p < 6 → two.kind p = .task → p = 1 ∨ p = 2 := by decide
    rcases this p hp hk with rfl | rfl
    · exact .inr ⟨2, by decide⟩
    · exact .inr ⟨1, by decide⟩

set_option maxRecDepth 20000 in
example : ∃ ops, Op.raise 1 ∈ ops ∧ Calm two {} ops ∧ Stuck two (run two {} ops) ∧ (run two {} ops).st 5 = .done ∧ (run two {} ops).allDone = true :=
  ⟨rounds, by decide, calmB_calm _ _ _ (by decide), stuck_of wf_two (by decide) (succs_inside _ _ _ _ (by decide)) _ (by decide) (by decide),
    by decide, by decide⟩

/-- C114_objection_partial: the phase ends after its objection was dropped. -/
def single : Graph := ofEdges 3 [(0, 1), (1, 2)] (fun p => if p = 1 then .task else if p = 2 then .func else .other) (fun p => p == 2)

example : sibs single 1 = some [] ∧ ∃ ops, Op.raise 1 ∈ ops ∧ (run single {} ops).st 1 ≠ .ended ∧ (step single (run single {} ops) (.adv 1)).st 1 = .ended :=
  ⟨by decide, [.spawn, .adv 0, .adv 0, .adv 0, .adv 0, .adv 0, .adv 0, .spawn, .adv 1, .adv 1, .adv 1, .raise 1, .adv 1, .drop 1, .adv 1, .adv 1, .adv 1],
    by decide, by decide, by decide⟩

end Verif.PhaseRun
