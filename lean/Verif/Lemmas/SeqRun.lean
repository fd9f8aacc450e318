import Verif.Spec.SeqRun
import Verif.Lemmas.SequencerAcct
/-! # Lemmas about sequences that send items while phases run -/
namespace Verif.SeqRun
open Verif.Arbiter (Mode)
open Verif.Sequencer (Out Task Item Eff Core Reach Ids Frame DrvEff)

/-- An item that is not done is in the FIFO, its sequence waits for it, and nothing tells the sequence that it is done. -/
def Owed (i : Nat) (x : Item) (s : Sequencer.State) : Prop :=
  s.fifo = [x] ∧ (∃ w, s.tasks i = .done x.seqId w) ∧ s.waitSeq ≠ x.seqId

structure Inv (outs : List Out) (s : Sequencer.State) : Prop where
  sent : ∀ pre i x a post, outs = pre ++ .sent i x a :: post → .done x ∈ post ∨ Owed i x s
  fifo : s.fifo = [] ∨ ∃ i x, Owed i x s ∧ 0 < x.seqId

theorem sent_mem {r : List Out} (h : ∀ i x a, Out.sent i x a ∉ r) : Sequencer.sentOf r = [] := by
  induction r with
  | nil => rfl
  | cons e r ih =>
    have ih := ih fun i x a hm => h i x a (List.mem_cons_of_mem _ hm)
    cases e with
    | sent i x a => exact absurd List.mem_cons_self (h i x a)
    | _ => exact ih

theorem done_mem {r : List Out} {x : Item} (h : x ∈ Sequencer.doneOf r) : Out.done x ∈ r := by
  induction r with
  | nil => exact absurd h (by simp [Sequencer.doneOf])
  | cons e r ih =>
    cases e with
    | done y =>
      rcases List.mem_cons.mp h with h | h
      · rw [h]; exact List.mem_cons_self
      · exact List.mem_cons_of_mem _ (ih h)
    | _ => exact List.mem_cons_of_mem _ (ih h)

theorem mark_quiet {r : List Out} (h : Sequencer.doneOf r = []) (m : Int) : r.foldl Sequencer.mark m = m ∨ r.foldl Sequencer.mark m = -1 := by
  induction r generalizing m with
  | nil => exact .inl rfl
  | cons e r ih =>
    cases e with
    | done y => exact nomatch h
    | waiting t => exact .inr ((ih (by exact h) (-1)).elim id id)
    | _ => exact ih (by exact h) m

/-- A split of a list that grows. -/
theorem split_snoc {outs r pre post : List Out} {e : Out} (h : outs ++ r = pre ++ e :: post) :
    (∃ p, post = p ++ r ∧ outs = pre ++ e :: p) ∨ e ∈ r := by
  rcases List.append_eq_append_iff.mp h with ⟨a, h1, h2⟩ | ⟨a, h1, h2⟩
  · right; rw [h2]; simp
  · cases a with
    | nil => right; simp at h2; rw [← h2]; simp
    | cons b a =>
      simp only [List.cons_append, List.cons.injEq] at h2
      left; exact ⟨a, h2.2, by rw [h1, h2.1]⟩

theorem owed_quiet {r : List Out} {s s' : Sequencer.State} {i : Nat} {x : Item} (h : Owed i x s) (hp : 0 < x.seqId)
    (hf : s.fifo ++ Sequencer.sentOf r = Sequencer.doneOf r ++ s'.fifo)
    (hns : ∀ i x a, Out.sent i x a ∉ r) (hm : s'.waitSeq = r.foldl Sequencer.mark s.waitSeq)
    (ht : ∀ i id w, s.tasks i = .done id w → s.waitSeq ≠ id → ∃ w', s'.tasks i = .done id w') : (.done x ∈ r ∧ s'.fifo = []) ∨ Owed i x s' := by
  obtain ⟨h3, ⟨w, h4⟩, h5⟩ := h
  rw [sent_mem hns, List.append_nil, h3] at hf
  cases hd : Sequencer.doneOf r with
  | cons y ys =>
    rw [hd] at hf
    simp only [List.cons_append, List.cons.injEq] at hf
    left
    exact ⟨done_mem (by rw [hd, hf.1]; exact List.mem_cons_self), (List.append_eq_nil_iff.mp hf.2.symm).2⟩
  | nil =>
    right
    rw [hd] at hf
    refine ⟨hf.symm, ht i _ w h4 h5, ?_⟩
    rcases mark_quiet hd s.waitSeq with e | e <;> rw [hm, e]
    · exact h5
    · omega

/-- Steps that send nothing, keep the coroutines in `wait_for_item_done` where they are (unless their item is done). -/
theorem inv_quiet {outs r : List Out} {s s' : Sequencer.State} (h : Inv outs s) (hI : Ids outs s) (hf : s.fifo ++ Sequencer.sentOf r = Sequencer.doneOf r ++ s'.fifo)
    (hns : ∀ i x a, Out.sent i x a ∉ r) (hm : s'.waitSeq = r.foldl Sequencer.mark s.waitSeq)
    (ht : ∀ i id w, s.tasks i = .done id w → s.waitSeq ≠ id → ∃ w', s'.tasks i = .done id w') : Inv (outs ++ r) s' := by
  refine ⟨?_, ?_⟩
  · intro pre i x a post he
    rcases split_snoc he with ⟨p, h1, h2⟩ | hx
    · rcases h.sent pre i x a p h2 with hd | ho
      · left; rw [h1]; exact List.mem_append_left _ hd
      · rcases owed_quiet ho (hI.sent i x a (by rw [h2]; simp)).1 hf hns hm ht with ⟨hd, _⟩ | ho
        · left; rw [h1]; exact List.mem_append_right _ hd
        · exact .inr ho
    · exact absurd hx (hns i x a)
  · rcases h.fifo with h0 | ⟨i, x, ho, hp⟩
    · rw [sent_mem hns, h0] at hf
      exact .inl (List.append_eq_nil_iff.mp hf.symm).2
    · rcases owed_quiet ho hp hf hns hm ht with ⟨_, hd⟩ | ho
      · exact .inl hd
      · exact .inr ⟨i, x, ho, hp⟩

theorem frame_done {s s' : Sequencer.State} (h : Frame s s') {i : Nat} {id : Int} {w : Bool} (ht : s.tasks i = .done id w) : ∃ w', s'.tasks i = .done id w' := by
  rcases h.tasks i with e | e
  · exact ⟨w, by rw [e, ht]⟩
  · exact ⟨true, by rw [e, ht]; rfl⟩

theorem grantLoop_other (s : Sequencer.State) (t : Nat) (q : Arbiter.Seq) (r u : Nat) (h : u ≠ t) : (Sequencer.grantLoop s t q r).1.tasks u = s.tasks u := by
  unfold Sequencer.grantLoop
  split <;> simp only [Sequencer.upd, if_neg h]

theorem register_tasks (s : Sequencer.State) (i : Nat) : (Sequencer.register s i).tasks = s.tasks := by
  unfold Sequencer.register; split <;> rfl

theorem pushReqs_tasks (s : Sequencer.State) (q : Arbiter.Seq) (p : Int) (l : Bool) : (Sequencer.pushReqs s q p l).tasks = s.tasks := by
  unfold Sequencer.pushReqs; split <;> rfl

theorem waitForGrant_other (s : Sequencer.State) (t : Nat) (q : Arbiter.Seq) (p : Int) (l : Bool) (u : Nat) (h : u ≠ t) :
    (Sequencer.waitForGrant s t q p l).1.tasks u = Sequencer.wakeTask (s.tasks u) := by
  unfold Sequencer.waitForGrant
  rw [grantLoop_other _ _ _ _ _ h]
  show Sequencer.wakeTask ((Sequencer.pushReqs (Sequencer.register s q.inst) q p l).tasks u) = _
  rw [pushReqs_tasks, register_tasks]

theorem waitForGrant_nosent (s : Sequencer.State) (t : Nat) (q : Arbiter.Seq) (p : Int) (l : Bool) (i : Nat) (x : Item) (a : Bool) :
    Out.sent i x a ∉ (Sequencer.waitForGrant s t q p l).2 := by
  unfold Sequencer.waitForGrant
  exact Sequencer.grantLoop_nosent _ _ _ _ i x a

variable {mode : Mode} {rel : Arbiter.Seq → Bool} {rnd : Nat → Nat}

theorem waitDone_ne (s : Sequencer.State) (t : Nat) (id : Int) (h : id ≠ -1) :
    Sequencer.waitDone s t id = ({ s with waitSeq := -1, waitTr := -1, tasks := Sequencer.upd s.tasks t (.done id s.fired) }, [.waiting t]) := if_neg h

/-- `finish_item` of a sequence in its own coroutine. -/
theorem inv_finish {outs : List Out} {s : Sequencer.State} (h : Inv outs s) (hI : Ids outs s) (q : Arbiter.Seq) (y : Nat) (tr : Int)
    (hc : Sequencer.Clean (Sequencer.step mode rel rnd s (.finishItem q.inst q y tr)).2) :
    Inv (outs ++ (Sequencer.step mode rel rnd s (.finishItem q.inst q y tr)).2) (Sequencer.step mode rel rnd s (.finishItem q.inst q y tr)).1 := by
  simp only [Sequencer.step] at hc ⊢
  split
  next ht =>
    rw [ht] at hc
    simp only at hc
    rcases Sequencer.sendRequest_cases s q.inst y tr with ⟨_, e⟩ | ⟨_, _, e⟩ | ⟨h1, h2, r, b, e, hr⟩
    · rw [e] at hc; exact absurd (by simp) hc.1
    · rw [e] at hc; exact absurd (by simp) hc.1
    · rcases hr with ⟨hb, hr⟩ | ⟨hb, hr⟩
      · subst hb; subst hr
        rw [e]
        have hid : 0 < s.ids q.inst := hI.sem _ h1
        have hne : s.ids q.inst ≠ -1 := by omega
        simp only [if_true]
        rw [waitDone_ne _ _ _ (by exact hne)]
        have hnew : Owed q.inst (Sequencer.mkItem s q.inst y tr)
            { Sequencer.prepare s q.inst y tr with
              fifo := [Sequencer.mkItem s q.inst y tr], drv := Sequencer.wakePeek s.drv, numSent := s.numSent + 1, waitSeq := -1, waitTr := -1,
              tasks := Sequencer.upd s.tasks q.inst (.done (s.ids q.inst) s.fired) } := by
          refine ⟨rfl, ⟨s.fired, ?_⟩, ?_⟩
          · simp only [Sequencer.upd, if_true]; rfl
          · show (-1 : Int) ≠ s.ids q.inst
            omega
        refine ⟨?_, .inr ⟨_, _, hnew, hid⟩⟩
        intro pre i x a post he
        have hlast : outs ++ ([.sent q.inst (Sequencer.mkItem s q.inst y tr) (tr == -1)] ++ [.waiting q.inst]) = pre ++ .sent i x a :: post := he
        rcases split_snoc hlast with ⟨p, g1, g2⟩ | hx
        · rcases h.sent pre i x a p g2 with hd | ⟨g3, _⟩
          · left; rw [g1]; exact List.mem_append_left _ hd
          · rw [h2] at g3; exact nomatch g3
        · right
          simp only [List.cons_append, List.nil_append, List.mem_cons, Out.sent.injEq, List.not_mem_nil, or_false, reduceCtorEq] at hx
          obtain ⟨e1, e2, -⟩ := hx
          subst e1; subst e2
          exact hnew
      · subst hb; subst hr
        rw [e] at hc; exact absurd (by simp) hc.2
  · rw [List.append_nil]; exact h

theorem inv_step {ops : List Sequencer.Op} {outs : List Out} {s : Sequencer.State} (hR : Reach mode rel rnd ops outs s) (h : Inv outs s) (o : Sequencer.Op)
    (hp : Plain o) (hown : ∀ t q y tr, o = .finishItem t q y tr → q.inst = t) (ha : Sequencer.Allowed s o) (hc : Sequencer.Clean (Sequencer.step mode rel rnd s o).2) :
    Inv (outs ++ (Sequencer.step mode rel rnd s o).2) (Sequencer.step mode rel rnd s o).1 := by
  have hI := Sequencer.hist_ids hR.hist
  obtain ⟨l, hC, -⟩ := Sequencer.reach_core hR
  obtain ⟨l', hE⟩ := Sequencer.step_eff hC o ha hc
  have hM := Sequencer.step_mark (mode := mode) (rel := rel) (rnd := rnd) s o
  have drv : Sequencer.isDrv o = true → Inv (outs ++ (Sequencer.step mode rel rnd s o).2) (Sequencer.step mode rel rnd s o).1 := fun hd =>
    inv_quiet h hI hE.fifo (Sequencer.step_drv s o hd).nosent hM (fun i id w ht _ => frame_done (Sequencer.step_drv s o hd).frame ht)
  cases o with
  | start q =>
    refine inv_quiet h hI hE.fifo (by simp [Sequencer.step]) hM (fun i id w ht _ => ⟨w, ?_⟩)
    simp only [Sequencer.step, Sequencer.startSeq_eq]
    exact ht
  | startItem t q p lk =>
    refine inv_quiet h hI hE.fifo ?_ hM (fun i id w ht _ => ?_)
    · intro i x a
      simp only [Sequencer.step]
      split
      · exact waitForGrant_nosent s t q p lk i x a
      · simp
    · simp only [Sequencer.step]
      split
      next hi =>
        have hne : i ≠ t := by intro e; rw [e, hi] at ht; exact nomatch ht
        exact ⟨true, by rw [waitForGrant_other _ _ _ _ _ _ hne, ht]; rfl⟩
      · exact ⟨w, ht⟩
  | send q y tr => exact hp.elim
  | finishItem t q y tr =>
    obtain rfl := hown t q y tr rfl
    exact inv_finish h hI q y tr hc
  | resume t =>
    refine inv_quiet h hI hE.fifo ?_ hM (fun i id w ht hw => ?_)
    · intro i x a
      simp only [Sequencer.step]
      split
      · split
        · exact Sequencer.grantLoop_nosent _ _ _ _ i x a
        · simp
      · split <;> simp
      · simp
    · simp only [Sequencer.step]
      by_cases hi : i = t
      · subst hi
        rw [ht]
        cases w with
        | false => exact ⟨false, ht⟩
        | true =>
          simp only [if_neg hw]
          exact ⟨false, by simp [Sequencer.upd]⟩
      · split
        · split
          · exact ⟨w, by rw [grantLoop_other _ _ _ _ _ hi]; exact ht⟩
          · exact ⟨w, by simp only [Sequencer.upd, if_neg hi]; exact ht⟩
        · split <;> exact ⟨w, by simp only [Sequencer.upd, if_neg hi]; exact ht⟩
        · exact ⟨w, ht⟩
  | kill t => exact hp.elim
  | exit q =>
    refine inv_quiet h hI hE.fifo (by simp [Sequencer.step]) hM (fun i id w ht _ => ?_)
    exact frame_done (Sequencer.exitSeq_frame s q).1 (by exact ht)
  | setNumLast n =>
    exact inv_quiet h hI hE.fifo (by simp [Sequencer.step]) hM (fun i id w ht _ => ⟨w, ht⟩)
  | getNext => exact drv rfl
  | peek => exact drv rfl
  | get => exact drv rfl
  | tryNext => exact drv rfl
  | itemDone => exact drv rfl
  | drvStep => exact drv rfl
  | putResponse id => exact drv rfl
  | stop => exact drv rfl

/-- Only `start_item` and `finish_item` make a coroutine wait. -/
theorem idle_step (s : Sequencer.State) (o : Sequencer.Op) (u : Nat) (h : s.tasks u = .idle) (h1 : ∀ q p l, o ≠ .startItem u q p l)
    (h2 : ∀ q y tr, o ≠ .finishItem u q y tr) : (Sequencer.step mode rel rnd s o).1.tasks u = .idle := by
  have fr : ∀ {s s' : Sequencer.State}, Frame s s' → s.tasks u = .idle → s'.tasks u = .idle := by
    intro s s' hf h
    rcases hf.tasks u with e | e <;> rw [e, h]; rfl
  have sr : ∀ i y tr, (Sequencer.sendRequest s i y tr).1.tasks = s.tasks := by
    intro i y tr
    unfold Sequencer.sendRequest
    split
    · rfl
    · split
      · rfl
      · split <;> rfl
  cases o with
  | start q => simp only [Sequencer.step, Sequencer.startSeq_eq]; exact h
  | startItem t q p l =>
    have hne : u ≠ t := fun e => h1 q p l (by rw [e])
    simp only [Sequencer.step]
    split
    · rw [waitForGrant_other _ _ _ _ _ _ hne, h]; rfl
    · exact h
  | send q y tr => simp only [Sequencer.step]; rw [sr]; exact h
  | finishItem t q y tr =>
    have hne : u ≠ t := fun e => h2 q y tr (by rw [e])
    simp only [Sequencer.step]
    split
    · split
      · unfold Sequencer.waitDone
        split
        · show (Sequencer.sendRequest s q.inst y tr).1.tasks u = _
          rw [sr]; exact h
        · simp only [Sequencer.upd, if_neg hne]; rw [sr]; exact h
      · show (Sequencer.sendRequest s q.inst y tr).1.tasks u = _
        rw [sr]; exact h
    · exact h
  | resume t =>
    simp only [Sequencer.step]
    by_cases hi : u = t
    · subst hi; rw [h]; exact h
    · split
      · split
        · rw [grantLoop_other _ _ _ _ _ hi]; exact h
        · simp only [Sequencer.upd, if_neg hi]; exact h
      · split <;> (simp only [Sequencer.upd, if_neg hi]; exact h)
      · exact h
  | kill t => simp only [Sequencer.step, Sequencer.upd]; split <;> first | rfl | exact h
  | exit q => exact fr (Sequencer.exitSeq_frame s q).1 (by exact h)
  | setNumLast n => exact h
  | getNext => exact fr (Sequencer.step_drv s .getNext rfl).frame h
  | peek => exact fr (Sequencer.step_drv s .peek rfl).frame h
  | get => exact fr (Sequencer.step_drv s .get rfl).frame h
  | tryNext => exact fr (Sequencer.step_drv s .tryNext rfl).frame h
  | itemDone => exact fr (Sequencer.step_drv s .itemDone rfl).frame h
  | drvStep => exact fr (Sequencer.step_drv s .drvStep rfl).frame h
  | putResponse id => exact fr (Sequencer.step_drv s (.putResponse id) rfl).frame h
  | stop => exact fr (Sequencer.step_drv s .stop rfl).frame h

/-! ## Both together -/

variable {C : SeqPhase.Cfg}

structure Whole (C : SeqPhase.Cfg) (mode : Mode) (rel : Arbiter.Seq → Bool) (rnd : Nat → Nat) (s : State) : Prop where
  reach : Reach mode rel rnd s.sqOps s.outs s.sq
  inv : Inv s.outs s.sq
  body : ∀ t, inBody (s.ph.sq t) = false → s.sq.tasks t = .idle
  ph : s.ph = SeqPhase.run C {} s.phOps

theorem whole_init : Whole C mode rel rnd {} := ⟨.nil, ⟨by intro pre i x a post h; cases pre <;> exact (nomatch h), .inl rfl⟩, fun _ _ => rfl, rfl⟩

theorem isIdle_eq {k : Task} (h : isIdle k = true) : k = .idle := by
  cases k <;> first | rfl | exact nomatch h

/-- Steps of `start_process` move a sequence out of its body only when it is not suspended in the sequencer. -/
theorem ph_body {s : State} (h : ∀ t, inBody (s.ph.sq t) = false → s.sq.tasks t = .idle) (o : SeqPhase.Op) (hb : blocked s o = false) (t : Nat)
    (ht : inBody ((SeqPhase.step C s.ph o).sq t) = false) : s.sq.tasks t = .idle := by
  cases o with
  | base o => exact h t ht
  | act i a =>
    refine h t ?_
    simp only [SeqPhase.step, PhaseRun.upd] at ht
    split at ht
    next e => rw [e]; exact ht
    · exact ht
  | begin i a b =>
    simp only [SeqPhase.step] at ht
    split at ht
    next hc =>
      by_cases e : t = i
      · subst e
        refine h t ?_
        unfold inBody
        rw [hc.2]
      · refine h t ?_
        simp only [PhaseRun.upd, if_neg e] at ht
        exact ht
    · exact h t ht
  | adv i =>
    by_cases e : t = i
    · subst e
      cases hi : inBody (s.ph.sq t) with
      | false => exact h t hi
      | true =>
        simp only [blocked, hi, Bool.true_and, Bool.not_eq_false'] at hb
        exact isIdle_eq hb
    · refine h t ?_
      simp only [SeqPhase.step] at ht
      split at ht
      · exact ht
      · simp only [PhaseRun.upd, if_neg e] at ht
        exact ht

theorem whole_step {s : State} (h : Whole C mode rel rnd s) (o : Op)
    (ho : ∀ x, o = .sq x → Plain x ∧ Sequencer.Allowed s.sq x ∧ Sequencer.Clean (Sequencer.step mode rel rnd s.sq x).2) : Whole C mode rel rnd (step C mode rel rnd s o) := by
  cases o with
  | ph o =>
    simp only [step]
    cases hb : blocked s o with
    | true => exact h
    | false =>
      refine ⟨h.reach, h.inv, fun t ht => ph_body h.body o hb t ht, ?_⟩
      show SeqPhase.step C s.ph o = SeqPhase.run C {} (s.phOps ++ [o])
      rw [h.ph]
      simp [SeqPhase.run]
  | sq o =>
    obtain ⟨hp, ha, hc⟩ := ho o rfl
    simp only [step]
    cases hm : mayCall s o with
    | false => exact h
    | true =>
      refine ⟨.snoc h.reach ha hc, inv_step h.reach h.inv o hp ?_ ha hc, ?_, h.ph⟩
      · intro t q y tr e
        subst e
        simp only [mayCall, Bool.and_eq_true, beq_iff_eq] at hm
        exact hm.2
      · intro t ht
        refine idle_step s.sq o t (h.body t ht) ?_ ?_
        · intro q p l e
          subst e
          simp only [mayCall, Bool.and_eq_true] at hm
          have : inBody (s.ph.sq t) = false := ht
          rw [this] at hm
          exact nomatch hm.1
        · intro q p l e
          subst e
          simp only [mayCall, Bool.and_eq_true] at hm
          have : inBody (s.ph.sq t) = false := ht
          rw [this] at hm
          exact nomatch hm.1

theorem whole_run (ops : List Op) {s : State} (h : Whole C mode rel rnd s) (hg : Good C mode rel rnd s ops) : Whole C mode rel rnd (run C mode rel rnd s ops) := by
  induction ops generalizing s with
  | nil => exact h
  | cons o ops ih => exact ih (whole_step h o hg.1) hg.2

end Verif.SeqRun
