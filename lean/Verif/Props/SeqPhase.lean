import Verif.Spec.SeqPhase
import Verif.Props.PhaseObj
import Verif.Props.SeqStart
/-! # C350, C351: sequences keep their starting phase from ending -/
namespace Verif.SeqPhase
open Verif.SeqStart (Seq Hook Script Act)
open Verif.PhaseRun (Graph Pc St Kind upd sibs Inv Wf upd_other upd_same)
open Verif.PhaseObj (Booked Alone OpAllowed)
open Verif.Objection (Reach)

variable {C : Cfg} {N : Nat} {isSeq : Nat → Bool}

/-! ## One step of the phases and objections -/

/-- The state of a phase before its end. -/
def Early (x : St) : Prop := x.code < 64

theorem nextOk_early {k : Kind} {r : Bool} {a b : St} (h : PhaseRun.nextOk k r a b = true) (hb : Early b) : Early a := by
  revert h hb
  cases a <;> cases b <;> simp [PhaseRun.nextOk, Early, St.code]

/-- How the state of a phase moves. -/
theorem adv_move {G : Graph} {s s' : PhaseRun.State} {p q : Nat} (hi : Inv G s) (hv : PhaseRun.adv G s q = some s') :
    s'.st p = s.st p ∨ (s'.st p = .scheduled ∧ (s.st p).code < 2) ∨ ∃ k r, PhaseRun.nextOk k r (s.st p) (s'.st p) = true := by
  cases PhaseRun.adv_eff G (hi.pcs q) hv with
  | quiet _ e1 => rw [e1]; exact .inl rfl
  | set _ x e1 _ _ _ _ _ _ _ _ _ e2 =>
    rw [e1]
    by_cases hpq : p = q
    · subst hpq; rw [upd_same]; exact .inr (.inr ⟨_, _, e2⟩)
    · rw [upd_other _ _ hpq]; exact .inl rfl
  | sched r l _ hpc hs' =>
    subst hs'
    by_cases hc : (s.st r).code < St.scheduled.code
    · rw [if_pos hc]
      by_cases hr : p = r
      · subst hr
        exact .inr (.inl ⟨by simp [PhaseRun.setPc, PhaseRun.setSt, upd], hc⟩)
      · exact .inl (by simp [PhaseRun.setPc, PhaseRun.setSt, upd, hr])
    · rw [if_neg hc]; exact .inl rfl

theorem step_move {G : Graph} {t : Objection.Tree} {s : PhaseObj.State} {p : Nat} (hi : Inv G s.ph) (o : PhaseObj.Op) :
    (PhaseObj.step G t s o).ph.st p = s.ph.st p ∨ ((PhaseObj.step G t s o).ph.st p = .scheduled ∧ (s.ph.st p).code < 2) ∨
      ∃ k r, PhaseRun.nextOk k r (s.ph.st p) ((PhaseObj.step G t s o).ph.st p) = true := by
  cases o with
  | adv q =>
    unfold PhaseObj.step
    dsimp only
    split
    · unfold PhaseObj.clean
      dsimp only
      split
      · dsimp only
        cases hv : PhaseRun.adv G (PhaseObj.view s) q with
        | none => exact .inl rfl
        | some s' => exact adv_move (s := PhaseObj.view s) (s' := s') (PhaseObj.inv_view hi) hv
      · exact .inl rfl
    · dsimp only
      cases hv : PhaseRun.adv G (PhaseObj.seen s q) q with
      | none => exact .inl rfl
      | some s' =>
        have := adv_move (p := p) (PhaseObj.inv_seen hi q) hv
        have hst : (PhaseObj.seen s q).st p = s.ph.st p := by unfold PhaseObj.seen; split <;> rfl
        rwa [hst] at this
  | spawn =>
    refine .inl ?_
    show ((PhaseRun.spawn s.ph).getD s.ph).st p = _
    unfold PhaseRun.spawn
    split
    · rfl
    · split <;> rfl
  | obj q x =>
    refine .inl ?_
    unfold PhaseObj.step
    dsimp only
    split
    · dsimp only
      split <;> rfl
    · rfl

theorem step_early {G : Graph} {t : Objection.Tree} {s : PhaseObj.State} {p : Nat} (hi : Inv G s.ph) {o : PhaseObj.Op} (h : Early ((PhaseObj.step G t s o).ph.st p)) :
    Early (s.ph.st p) := by
  rcases step_move (t := t) (p := p) hi o with e | ⟨-, e⟩ | ⟨k, r, e⟩
  · rwa [e] at h
  · unfold Early; omega
  · exact nextOk_early e h

theorem end_early {G : Graph} {t : Objection.Tree} {s : PhaseObj.State} {p : Nat} (hi : Inv G s.ph) {o : PhaseObj.Op} (h0 : s.ph.st p ≠ .ended)
    (h : (PhaseObj.step G t s o).ph.st p = .ended) : Early (s.ph.st p) := by
  rcases step_move (t := t) (p := p) hi o with e | ⟨e, -⟩ | ⟨k, r, e⟩
  · rw [h] at e; exact absurd e.symm h0
  · rw [h] at e; exact nomatch e
  · rw [h] at e
    revert e
    cases s.ph.st p <;> simp [PhaseRun.nextOk, Early, St.code]

/-- What an operation does to the counts of one phase. -/
def counts (p : Nat) (c : Nat → Int) : PhaseObj.Op → Nat → Int
  | .obj q x => if q = p then Objection.specCount c x else c
  | _ => c

theorem step_counts {G : Graph} {t : Objection.Tree} {s : PhaseObj.State} {p : Nat} (hk : G.kind p = .task) (hi : Inv G s.ph)
    (hb : Objection.Inv t N (s.ob p)) {o : PhaseObj.Op} (ho : OpAllowed G t N s o) (he : Early ((PhaseObj.step G t s o).ph.st p)) :
    ((PhaseObj.step G t s o).ob p).count = counts p (s.ob p).count o := by
  cases o with
  | adv q =>
    have he0 := step_early hi he
    unfold PhaseObj.step
    dsimp only
    split
    · rename_i hc
      by_cases hpq : p = q
      · subst hpq
        have := PhaseRun.pcst_cleanup (by have := hi.pcs p; rwa [hc.1] at this)
        rw [this] at he0
        exact absurd he0 (by simp [Early, St.code])
      · unfold PhaseObj.clean
        dsimp only
        split <;> (simp only [upd_other _ _ hpq]; rfl)
    · rfl
  | spawn => rfl
  | obj q x =>
    unfold PhaseObj.step counts
    dsimp only
    by_cases hpq : q = p
    · subst hpq
      rw [if_pos hk, if_pos rfl]
      simp only [upd_same]
      exact (Objection.inv_step hb x (ho hk)).2
    · rw [if_neg hpq]
      split
      · simp only [upd_other _ _ (Ne.symm hpq)]
      · rfl

/-! ## What a sequence holds -/

theorem acts_held (l : List Act) (q : Seq) : (l.foldl SeqStart.act q).held = q.held := by
  induction l generalizing q with
  | nil => rfl
  | cons a l ih =>
    rw [List.foldl_cons, ih]
    cases a <;> simp only [SeqStart.act] <;> (try split) <;> rfl

theorem act_locked {q : Seq} (a : Act) (h : q.apoLocked = true) : (SeqStart.act q a).apoLocked = true ∧ (SeqStart.act q a).apo = q.apo := by
  cases a <;> simp only [SeqStart.act, h, if_true] <;> (try split) <;> simp [h]

theorem act_phaseLocked {q : Seq} (a : Act) (h : q.phaseLocked = true) : (SeqStart.act q a).phaseLocked = true ∧ (SeqStart.act q a).phase = q.phase := by
  cases a <;> simp only [SeqStart.act, h, if_true] <;> (try split) <;> simp [h]

theorem acts_locked (l : List Act) {q : Seq} (h : q.apoLocked = true) : (l.foldl SeqStart.act q).apoLocked = true ∧ (l.foldl SeqStart.act q).apo = q.apo := by
  induction l generalizing q with
  | nil => exact ⟨h, rfl⟩
  | cons a l ih =>
    rw [List.foldl_cons]
    obtain ⟨h1, h2⟩ := act_locked a h
    obtain ⟨h3, h4⟩ := ih h1
    exact ⟨h3, h4.trans h2⟩

theorem acts_phaseLocked (l : List Act) {q : Seq} (h : q.phaseLocked = true) :
    (l.foldl SeqStart.act q).phaseLocked = true ∧ (l.foldl SeqStart.act q).phase = q.phase := by
  induction l generalizing q with
  | nil => exact ⟨h, rfl⟩
  | cons a l ih =>
    rw [List.foldl_cons]
    obtain ⟨h1, h2⟩ := act_phaseLocked a h
    obtain ⟨h3, h4⟩ := ih h1
    exact ⟨h3, h4.trans h2⟩

/-- The settings are fixed and the objection is held. -/
structure Fixed (q : Seq) : Prop where
  apo : q.apoLocked = true
  phase : q.apo = true → q.phaseLocked = true
  held : q.apo = true → ∀ p, q.phase = some p → p ∈ q.held

theorem fixed_acts {q : Seq} (h : Fixed q) (l : List Act) : Fixed (l.foldl SeqStart.act q) := by
  obtain ⟨h1, h2⟩ := acts_locked l h.apo
  refine ⟨h1, fun ha => ?_, fun ha p hp => ?_⟩
  · exact (acts_phaseLocked l (h.phase (by rw [← h2]; exact ha))).1
  · rw [acts_held]
    have ha' : q.apo = true := by rw [← h2]; exact ha
    rw [(acts_phaseLocked l (h.phase ha')).2] at hp
    exact h.held ha' p hp

structure SqInv (x : Sq) : Prop where
  once : x.todo.count .dropObj ≤ 1
  fixed : Running x → Fixed x.seq

theorem fixed_step {sc : Hook → Script} {q : Seq} {p : SeqStart.Step} (h : Fixed q) (h1 : p ≠ .raiseObj) (h2 : p ≠ .dropObj) : Fixed (SeqStart.step sc q p).1 := by
  cases p with
  | raiseObj => exact absurd rfl h1
  | dropObj => exact absurd rfl h2
  | to x => exact ⟨h.apo, h.phase, h.held⟩
  | finish => exact ⟨h.apo, h.phase, h.held⟩
  | hook x => exact fixed_acts (q := { q with log := q.log ++ [(x, q.state, q.held)] }) ⟨h.apo, h.phase, h.held⟩ _

theorem fixed_raise (sc : Hook → Script) (q : Seq) : Fixed (SeqStart.step sc q .raiseObj).1 := by
  unfold SeqStart.step
  dsimp only [SeqStart.act]
  split
  · rename_i ha
    split
    · rename_i p hp; exact ⟨rfl, fun _ => rfl, fun _ r hr => by rw [hp] at hr; cases hr; simp⟩
    · rename_i hp; exact ⟨rfl, fun _ => rfl, fun _ r hr => by rw [hp] at hr; exact nomatch hr⟩
  · rename_i ha; exact ⟨rfl, fun h => absurd h ha, fun h => absurd h ha⟩

theorem sqinv_next {C : Cfg} {s : State} {i : Nat} {p : SeqStart.Step} {rest : List SeqStart.Step} (ht : (s.sq i).todo = p :: rest) (h : SqInv (s.sq i)) :
    SqInv (next C s i p rest) := by
  unfold next
  dsimp only
  have h1 := h.once
  rw [ht, List.count_cons] at h1
  split
  · exact ⟨by simp, fun hr => nomatch hr.1⟩
  · split
    · exact ⟨by simp, fun hr => nomatch hr.1⟩
    · refine ⟨by show rest.count _ ≤ 1; omega, fun hr => ?_⟩
      have hd : SeqStart.Step.dropObj ∈ rest := hr.1
      have hnr : SeqStart.Step.raiseObj ∉ rest := hr.2
      have hpd : p ≠ .dropObj := by
        rintro rfl
        have := List.count_pos_iff.mpr hd
        simp at h1; omega
      by_cases hpr : p = .raiseObj
      · subst hpr; exact fixed_raise _ _
      · refine fixed_step (h.fixed ⟨by rw [ht]; simp [hd], ?_⟩) hpr hpd
        rw [ht]
        intro hm
        rcases List.mem_cons.mp hm with e | e
        · exact hpr e.symm
        · exact hnr e

theorem sqinv_step {s : State} (h : ∀ i, SqInv (s.sq i)) (o : Op) : ∀ i, SqInv ((step C s o).sq i) := by
  intro j
  cases o with
  | base o => exact h j
  | begin i parent cpp =>
    unfold step
    dsimp only
    split
    · by_cases hj : j = i
      · subst hj
        simp only [upd_same]
        refine ⟨?_, fun hr => absurd ?_ hr.2⟩
        · show (SeqStart.prog parent cpp).count _ ≤ 1
          clear h; cases parent <;> cases cpp <;> decide
        · show _ ∈ SeqStart.prog parent cpp
          clear h; cases parent <;> cases cpp <;> decide
      · simp only [upd_other _ _ hj]; exact h j
    · exact h j
  | act i a =>
    unfold step
    dsimp only
    by_cases hj : j = i
    · subst hj
      simp only [upd_same]
      exact ⟨(h j).once, fun hr => fixed_acts ((h j).fixed hr) [a]⟩
    · simp only [upd_other _ _ hj]; exact h j
  | adv i =>
    unfold step
    dsimp only
    split
    · exact h j
    · rename_i p rest ht
      by_cases hj : j = i
      · subst hj
        simp only [upd_same]
        exact sqinv_next ht (h j)
      · simp only [upd_other _ _ hj]; exact h j

/-- What a step does to the objections held. -/
theorem held_step (sc : Hook → Script) (i : Nat) (q : Seq) (p : SeqStart.Step) :
    (SeqStart.step sc q p).1.held = match call i q p with
      | some (.obj r (.raise _ _)) => r :: q.held
      | some (.obj r (.drop _ _)) => q.held.erase r
      | _ => q.held := by
  cases p with
  | to x => rfl
  | finish => rfl
  | hook x => exact acts_held _ _
  | raiseObj =>
    unfold SeqStart.step call
    dsimp only [SeqStart.act]
    by_cases ha : q.apo = true
    · rw [if_pos ha, if_pos ha]
      cases q.phase <;> rfl
    · rw [if_neg ha, if_neg ha]
  | dropObj =>
    unfold SeqStart.step call
    dsimp only [SeqStart.act]
    by_cases ha : q.apo = true
    · rw [if_pos ha, if_pos ha]
      cases q.phase <;> rfl
    · rw [if_neg ha, if_neg ha]

theorem next_held (s : State) (i : Nat) (p : SeqStart.Step) (rest : List SeqStart.Step) :
    (next C s i p rest).seq.held = (SeqStart.step (C.sc i) (s.sq i).seq p).1.held := by
  unfold next
  dsimp only
  split
  · rfl
  · split <;> rfl

/-- A call of a sequence raises or drops one objection of the sequence. -/
theorem call_shape {i : Nat} {q : Seq} {p : SeqStart.Step} {x : PhaseObj.Op} (h : call i q p = some x) :
    ∃ r, x = .obj r (.raise i 1) ∨ x = .obj r (.drop i 1) := by
  cases p with
  | to _ => exact nomatch h
  | hook _ => exact nomatch h
  | finish => exact nomatch h
  | raiseObj =>
    unfold call at h
    dsimp only at h
    split at h
    · cases hp : q.phase with
      | none => rw [hp] at h; exact nomatch h
      | some r => rw [hp] at h; exact ⟨r, .inl (Option.some.inj h).symm⟩
    · exact nomatch h
  | dropObj =>
    unfold call at h
    dsimp only at h
    split at h
    · cases hp : q.phase with
      | none => rw [hp] at h; exact nomatch h
      | some r => rw [hp] at h; exact ⟨r, .inr (Option.some.inj h).symm⟩
    · exact nomatch h

/-! ## The whole -/

structure Whole (C : Cfg) (N : Nat) (isSeq : Nat → Bool) (s : State) : Prop where
  inv : Inv C.G s.base.ph
  booked : Booked (fun x => ∃ l, Reach C.t N l x) s.base
  good : ∀ p, C.G.kind p = .task → sibs C.G p ≠ none → PhaseObj.Good C.G s.base p
  alone : ∀ p, sibs C.G p = some [] → Alone (s.base.ph.pc p)
  sq : ∀ i, SqInv (s.sq i)
  cnt : ∀ p, C.G.kind p = .task → sibs C.G p ≠ none → Early (s.base.ph.st p) → ∀ i, isSeq i = true → (s.base.ob p).count i = (s.sq i).seq.held.count p

theorem step_made (s : State) (o : Op) : (step C s o).base = match made s o with
    | some x => PhaseObj.step C.G C.t s.base x
    | none => s.base := by
  cases o with
  | base x => rfl
  | begin i a b => unfold step made; dsimp only; split <;> rfl
  | act i a => rfl
  | adv i =>
    cases h : (s.sq i).todo with
    | nil => simp only [step, made, h]
    | cons p rest => simp only [step, made, h]; rfl

theorem step_base (hG : Wf C.G) {s : PhaseObj.State} (hi : Inv C.G s.ph) (hb : Booked (fun x => ∃ l, Reach C.t N l x) s)
    (hg : ∀ p, C.G.kind p = .task → sibs C.G p ≠ none → PhaseObj.Good C.G s p) (ha : ∀ p, sibs C.G p = some [] → Alone (s.ph.pc p))
    {x : PhaseObj.Op} (hx : OpAllowed C.G C.t N s x) :
    Inv C.G (PhaseObj.step C.G C.t s x).ph ∧ Booked (fun x => ∃ l, Reach C.t N l x) (PhaseObj.step C.G C.t s x) ∧
      (∀ p, C.G.kind p = .task → sibs C.G p ≠ none → PhaseObj.Good C.G (PhaseObj.step C.G C.t s x) p) ∧
      ∀ p, sibs C.G p = some [] → Alone ((PhaseObj.step C.G C.t s x).ph.pc p) := by
  refine ⟨PhaseObj.inv_step hG hi x, PhaseObj.booked_step (fun s h ha => ?_) hb fun p y e hk h => ?_, fun p hk hs => ?_, fun p hs => PhaseObj.alone_step hs hi (ha p hs) x⟩
  · obtain ⟨l, h⟩ := h; exact ⟨_, h.snoc (op := .clear) ha⟩
  · obtain ⟨l, h⟩ := h
    subst e
    exact ⟨_, h.snoc (hx hk)⟩
  · refine PhaseObj.good_step hG hk hs hi (fun hc => ?_) (hg p hk hs) hx
    obtain ⟨l, h⟩ := hb p hc
    exact (Objection.inv_reach h).1

theorem early_inv {s : State} (h : Whole C N isSeq s) {p : Nat} (hk : C.G.kind p = .task) (hs : sibs C.G p ≠ none) (he : Early (s.base.ph.st p)) :
    s.base.ph.pc p ≠ .crashed ∧ Objection.Inv C.t N (s.base.ob p) := by
  have hc : s.base.ph.pc p ≠ .crashed := by
    intro hc
    have := (h.good p hk hs).dead hc
    rw [this] at he
    exact absurd he (by simp [Early, St.code])
  obtain ⟨l, h⟩ := h.booked p hc
  exact ⟨hc, (Objection.inv_reach h).1⟩

theorem whole_step (hG : Wf C.G) {s : State} (h : Whole C N isSeq s) {o : Op} (hm : ∀ x ∈ made s o, OpAllowed C.G C.t N s.base x) (ho : Own isSeq o) :
    Whole C N isSeq (step C s o) := by
  have hsq := sqinv_step (C := C) h.sq o
  have hbase : Inv C.G (step C s o).base.ph ∧ Booked (fun x => ∃ l, Reach C.t N l x) (step C s o).base ∧
      (∀ p, C.G.kind p = .task → sibs C.G p ≠ none → PhaseObj.Good C.G (step C s o).base p) ∧ ∀ p, sibs C.G p = some [] → Alone ((step C s o).base.ph.pc p) := by
    rw [step_made]
    cases hx : made s o with
    | none => exact ⟨h.inv, h.booked, h.good, h.alone⟩
    | some x => exact step_base hG h.inv h.booked h.good h.alone (hm x hx)
  refine ⟨hbase.1, hbase.2.1, hbase.2.2.1, hbase.2.2.2, hsq, fun p hk hs he j hj => ?_⟩
  have key : ∀ x, made s o = some x → ((step C s o).base.ob p).count j = counts p (s.base.ob p).count x j ∧ Early (s.base.ph.st p) := by
    intro x hx
    have e := step_made (C := C) s o
    rw [hx] at e
    dsimp only at e
    rw [e] at he ⊢
    have he0 := step_early h.inv he
    rw [step_counts hk h.inv (early_inv h hk hs he0).2 (hm x hx) he]
    exact ⟨rfl, he0⟩
  cases o with
  | base x =>
    obtain ⟨h1, he0⟩ := key x rfl
    rw [h1]
    show _ = ((s.sq j).seq.held.count p : Int)
    rw [← h.cnt p hk hs he0 j hj]
    cases x with
    | adv q => rfl
    | spawn => rfl
    | obj q y =>
      unfold counts
      dsimp only
      split
      · cases y with
        | raise i n =>
          have : j ≠ i := by rintro rfl; rw [show isSeq j = false from ho] at hj; exact nomatch hj
          simp [Objection.specCount, this]
        | drop i n =>
          have : j ≠ i := by rintro rfl; rw [show isSeq j = false from ho] at hj; exact nomatch hj
          simp [Objection.specCount, this]
        | clear => exact ho.elim
        | _ => rfl
      · rfl
  | begin i a b =>
    have e := step_made (C := C) s (.begin i a b)
    dsimp only [made] at e
    rw [e] at he ⊢
    rw [h.cnt p hk hs he j hj]
    unfold step
    dsimp only
    split
    · by_cases hji : j = i
      · subst hji; simp only [upd_same]
      · simp only [upd_other _ _ hji]
    · rfl
  | act i a =>
    rw [show (step C s (.act i a)).base = s.base from rfl] at he ⊢
    rw [h.cnt p hk hs he j hj]
    unfold step
    dsimp only
    by_cases hji : j = i
    · subst hji; simp only [upd_same]; rw [show (SeqStart.act (s.sq j).seq a).held = _ from acts_held [a] (s.sq j).seq]
    · simp only [upd_other _ _ hji]
  | adv i =>
    cases ht : (s.sq i).todo with
    | nil =>
      have e : step C s (.adv i) = s := by unfold step; dsimp only; rw [ht]
      rw [e] at he ⊢
      exact h.cnt p hk hs he j hj
    | cons y rest =>
      have e2 : (step C s (.adv i)).sq = upd s.sq i (next C s i y rest) := by unfold step; dsimp only; rw [ht]
      rw [e2]
      have hmade : made s (.adv i) = call i (s.sq i).seq y := by simp only [made, ht]
      have hheld := held_step (C.sc i) i (s.sq i).seq y
      by_cases hji : j = i
      · subst hji
        rw [upd_same, next_held, hheld]
        cases hx : call j (s.sq j).seq y with
        | none =>
          have e := step_made (C := C) s (.adv j)
          rw [hmade, hx] at e
          dsimp only at e ⊢
          rw [e] at he ⊢
          exact h.cnt p hk hs he j hj
        | some x =>
          obtain ⟨h1, he0⟩ := key x (hmade.trans hx)
          have h2 := h.cnt p hk hs he0 j hj
          rw [h1]
          obtain ⟨r, rfl | rfl⟩ := call_shape hx
          · unfold counts
            dsimp only
            by_cases hr : r = p
            · subst hr; rw [if_pos rfl]; simp only [Objection.specCount, if_true, List.count_cons_self]; omega
            · rw [if_neg hr, List.count_cons_of_ne hr]; exact h2
          · unfold counts
            dsimp only
            by_cases hr : r = p
            · subst hr
              rw [if_pos rfl, List.count_erase_self]
              simp only [Objection.specCount, true_and]
              split <;> omega
            · rw [if_neg hr, List.count_erase_of_ne (Ne.symm hr)]; exact h2
      · rw [upd_other _ _ hji]
        cases hx : call i (s.sq i).seq y with
        | none =>
          have e := step_made (C := C) s (.adv i)
          rw [hmade, hx] at e
          dsimp only at e
          rw [e] at he ⊢
          exact h.cnt p hk hs he j hj
        | some x =>
          obtain ⟨h1, he0⟩ := key x (hmade.trans hx)
          have h2 := h.cnt p hk hs he0 j hj
          rw [h1, ← h2]
          obtain ⟨r, rfl | rfl⟩ := call_shape hx
          · unfold counts; dsimp only; split
            · simp [Objection.specCount, hji]
            · rfl
          · unfold counts; dsimp only; split
            · simp [Objection.specCount, hji]
            · rfl

theorem whole_run (hG : Wf C.G) (ops : List Op) {s : State} (h : Whole C N isSeq s) (hf : Fair C N isSeq s ops) : Whole C N isSeq (run C s ops) := by
  induction ops generalizing s with
  | nil => exact h
  | cons o ops ih => exact ih (whole_step hG h hf.1.1 hf.1.2) hf.2

theorem whole_init : Whole C N isSeq {} :=
  ⟨PhaseRun.inv_init C.G, fun _ _ => ⟨[], .nil⟩, fun p _ _ => ⟨fun h => h.elim, nofun⟩, fun _ _ => trivial,
    fun _ => ⟨Nat.zero_le 1, fun h => nomatch h.1⟩, fun _ _ _ _ _ _ => rfl⟩

theorem run_snoc (s : State) (ops : List Op) (o : Op) : run C s (ops ++ [o]) = step C (run C s ops) o := by simp [run]
theorem run_append (s : State) (ops more : List Op) : run C s (ops ++ more) = run C (run C s ops) more := by simp [run]

/-- A phase does not end while a sequence holds an objection to it. -/
theorem end_held {s : State} (h : Whole C N isSeq s) {o : Op} {p : Nat} (hk : C.G.kind p = .task) (hs : sibs C.G p = some [])
    (h0 : s.base.ph.st p ≠ .ended) (h1 : (step C s o).base.ph.st p = .ended) {i : Nat} (hi : i < N) (hq : isSeq i = true) : p ∉ (s.sq i).seq.held := by
  rw [step_made] at h1
  cases hx : made s o with
  | none => rw [hx] at h1; exact absurd h1 h0
  | some x =>
    rw [hx] at h1
    dsimp only at h1
    have he := end_early h.inv h0 h1
    have hs' : sibs C.G p ≠ none := by rw [hs]; nofun
    obtain ⟨-, -, hcr, htot⟩ := PhaseObj.end_total hk hs h.inv (h.alone p hs) h0 h1
    have hinv := (early_inv h hk hs' he).2
    have h2 := hinv.acc.tot 0
    have h3 := Objection.heldBelow_nonneg (t := C.t) hinv.acc.pos 0
    have h4 := Objection.sumBelow_nonneg (t := C.t) (N := N) hinv.cnt 0
    simp only [List.not_mem_nil, if_false] at h2
    have h5 := Objection.le_sumBelow (t := C.t) hinv.cnt hi (Objection.top_mem_chain C.t i)
    have h6 := hinv.cnt i
    have h7 := h.cnt p hk hs' he i hq
    intro hm
    have := List.count_pos_iff.mpr hm
    omega

/-! ## C350 -/

/-- A task phase without siblings does not end while a sequence that was told to object to it runs,
whatever the sequences' own methods and everybody else do. -/
theorem C350_phase_waits (C : Cfg) (hG : Wf C.G) (N : Nat) (isSeq : Nat → Bool) (ops : List Op) (o : Op) (p : Nat) (hf : Fair C N isSeq {} ops)
    (hk : C.G.kind p = .task) (hs : sibs C.G p = some []) (h0 : (run C {} ops).base.ph.st p ≠ .ended) (h1 : (run C {} (ops ++ [o])).base.ph.st p = .ended)
    (i : Nat) (hi : i < N) (hq : isSeq i = true) (hr : Running ((run C {} ops).sq i)) (ha : ((run C {} ops).sq i).seq.apo = true) :
    ((run C {} ops).sq i).seq.phase ≠ some p := by
  rw [run_snoc] at h1
  have hw := whole_run hG ops whole_init hf
  exact fun hp => end_held hw hk hs h0 h1 hi hq (((hw.sq i).fixed hr).held ha p hp)

/-- What `start_process` can still have to do. -/
def Shape (l : List SeqStart.Step) : Prop :=
  l = [] ∨ l = [.finish] ∨ ∃ m, SeqStart.Plain m ∧ (l = m ++ [.dropObj, .finish] ∨ l = .raiseObj :: (m ++ [.dropObj, .finish]))

theorem plain_mid (a b : Bool) : SeqStart.Plain (SeqStart.mid a b) := by
  intro p hp
  cases p with
  | to x => exact .inl ⟨x, rfl⟩
  | hook x => exact .inr ⟨x, rfl⟩
  | _ => exact absurd hp (by cases a <;> cases b <;> decide)

theorem plain_tail {p : SeqStart.Step} {m : List SeqStart.Step} (h : SeqStart.Plain (p :: m)) : SeqStart.Plain m := fun x hx => h x (by simp [hx])

theorem shape_tail {p : SeqStart.Step} {l : List SeqStart.Step} (h : Shape (p :: l)) : Shape l := by
  rcases h with h | h | ⟨m, hm, h | h⟩
  · exact nomatch h
  · cases h; exact .inl rfl
  · cases m with
    | nil => cases h; exact .inr (.inl rfl)
    | cons y m => cases h; exact .inr (.inr ⟨m, plain_tail hm, .inl rfl⟩)
  · cases h; exact .inr (.inr ⟨m, hm, .inl rfl⟩)

theorem shape_step {s : State} (h : ∀ i, Shape (s.sq i).todo) (o : Op) : ∀ i, Shape ((step C s o).sq i).todo := by
  intro j
  cases o with
  | base o => exact h j
  | begin i a b =>
    unfold step
    dsimp only
    split
    · by_cases hj : j = i
      · subst hj; simp only [upd_same]; exact .inr (.inr ⟨_, plain_mid a b, .inr (SeqStart.prog_eq a b)⟩)
      · simp only [upd_other _ _ hj]; exact h j
    · exact h j
  | act i a =>
    unfold step
    dsimp only
    by_cases hj : j = i
    · subst hj; simp only [upd_same]; exact h j
    · simp only [upd_other _ _ hj]; exact h j
  | adv i =>
    unfold step
    dsimp only
    split
    · exact h j
    · rename_i p rest ht
      by_cases hj : j = i
      · subst hj
        simp only [upd_same]
        unfold next
        dsimp only
        split
        · exact .inl rfl
        · split
          · exact .inl rfl
          · have := h j; rw [ht] at this; exact shape_tail this
      · simp only [upd_other _ _ hj]; exact h j

theorem shape_run (ops : List Op) {s : State} (h : ∀ i, Shape (s.sq i).todo) : ∀ i, Shape ((run C s ops).sq i).todo := by
  induction ops generalizing s with
  | nil => exact h
  | cons o ops ih => exact ih (shape_step h o)

theorem plain_raise {m : List SeqStart.Step} (hm : SeqStart.Plain m) : SeqStart.Step.raiseObj ∉ m ∧ SeqStart.Step.dropObj ∉ m :=
  ⟨fun h => (hm _ h).elim (fun ⟨_, e⟩ => nomatch e) (fun ⟨_, e⟩ => nomatch e), fun h => (hm _ h).elim (fun ⟨_, e⟩ => nomatch e) (fun ⟨_, e⟩ => nomatch e)⟩

/-- Every method of a sequence is called while the sequence runs in this sense. -/
theorem C350_methods (C : Cfg) (ops : List Op) (i : Nat) (h : Hook) (rest : List SeqStart.Step) (ht : ((run C {} ops).sq i).todo = .hook h :: rest) :
    Running ((run C {} ops).sq i) := by
  have := shape_run (C := C) ops (s := {}) (fun _ => .inl rfl) i
  unfold Running
  rw [ht] at this ⊢
  rcases this with e | e | ⟨m, hm, e | e⟩
  · exact nomatch e
  · exact nomatch e
  · rw [e]
    refine ⟨by simp, ?_⟩
    have := (plain_raise hm).1
    simp [this]
  · exact nomatch e

/-! ## C364 -/

theorem last_finish {l : List SeqStart.Step} {p : SeqStart.Step} (h : Shape l) (e : l = [p]) : p = .finish := by
  subst e
  rcases h with e | e | ⟨m, -, e | e⟩
  · exact nomatch e
  · exact (List.cons.inj e).1
  · have := congrArg List.length e; simp at this
  · have := congrArg List.length e; simp at this

/-- The sequence `i` once its last step is made. -/
theorem sq_last {s : State} {i : Nat} (ht : (s.sq i).todo = [.finish]) :
    (step C s (.adv i)).sq i = { seq := leave { (s.sq i).seq with state := .finished, finEvent := true }, todo := [] } := by
  unfold step
  dsimp only
  rw [ht]
  dsimp only
  rw [upd_same]
  rfl

theorem sq_act (s : State) (i : Nat) (a : Act) : (step C s (.act i a)).sq i = { s.sq i with seq := SeqStart.act (s.sq i).seq a } := by
  unfold step; simp only [upd_same]

/-- When `start` of a sequence returns, whatever was done before, the sequence has no starting phase and keeps its setting of the automatic objection; -/
theorem C364_left (C : Cfg) (ops : List Op) (i : Nat) (p : SeqStart.Step) (ht : ((run C {} ops).sq i).todo = [p]) :
    ((run C {} (ops ++ [.adv i])).sq i).todo = [] ∧ ((run C {} (ops ++ [.adv i])).sq i).seq.phase = none ∧
      ((run C {} (ops ++ [.adv i])).sq i).seq.apo = ((run C {} ops).sq i).seq.apo := by
  have hp := last_finish (shape_run (C := C) ops (s := {}) (fun _ => .inl rfl) i) ht
  subst hp
  rw [run_snoc, sq_last ht]
  exact ⟨rfl, rfl, rfl⟩

/-- both can be set again without an error, and the sequence can be started again: it then has the new settings and objects anew. -/
theorem C364_again (C : Cfg) (ops : List Op) (i : Nat) (p : SeqStart.Step) (ht : ((run C {} ops).sq i).todo = [p]) (b : Bool) (ph : Option Nat) (parent cpp : Bool) :
    let x := (run C {} (ops ++ [.adv i, .act i (.setApo b), .act i (.setPhase ph), .begin i parent cpp])).sq i
    x.seq.apo = b ∧ x.seq.phase = ph ∧ x.seq.errors = ((run C {} ops).sq i).seq.errors ∧ x.seq.state = .preStart ∧ ∃ more, x.todo = .raiseObj :: more := by
  have hp := last_finish (shape_run (C := C) ops (s := {}) (fun _ => .inl rfl) i) ht
  subst hp
  intro x
  have hx : x = (step C (step C (step C (step C (run C {} ops) (.adv i)) (.act i (.setApo b))) (.act i (.setPhase ph))) (.begin i parent cpp)).sq i := by
    show (run C {} _).sq i = _
    unfold run
    rw [List.foldl_append]
    rfl
  generalize hs : step C (step C (step C (run C {} ops) (.adv i)) (.act i (.setApo b))) (.act i (.setPhase ph)) = s at hx
  have h3 : s.sq i = { seq := { leave { ((run C {} ops).sq i).seq with state := .finished, finEvent := true } with apo := b, phase := ph }, todo := [] } := by
    rw [← hs, sq_act, sq_act, sq_last ht]
    rfl
  have h4 : x = { seq := { (s.sq i).seq with state := .preStart }, todo := SeqStart.prog parent cpp } := by
    rw [hx]
    show (if _ then _ else _ : State).sq i = _
    rw [if_pos (by rw [h3]; exact ⟨.inr (.inr rfl), rfl⟩)]
    simp only [upd_same]
  rw [h4, h3]
  exact ⟨rfl, rfl, rfl, rfl, _, SeqStart.prog_eq parent cpp⟩

/-! ## C351 -/

/-- A sequence that is over although it holds an objection stays so. -/
structure Stuck (x : Sq) (p : Nat) : Prop where
  over : x.todo = []
  held : p ∈ x.seq.held
  state : ¬ SeqStart.Idle x.seq

theorem stuck_step {s : State} {i p : Nat} (h : Stuck (s.sq i) p) (o : Op) : Stuck ((step C s o).sq i) p := by
  cases o with
  | base o => exact h
  | begin j a b =>
    unfold step
    dsimp only
    split
    · rename_i hc
      by_cases hj : i = j
      · subst hj; exact absurd hc.1 h.state
      · simp only [upd_other _ _ hj]; exact h
    · exact h
  | act j a =>
    unfold step
    dsimp only
    by_cases hj : i = j
    · subst hj
      simp only [upd_same]
      refine ⟨h.over, ?_, ?_⟩
      · show p ∈ (SeqStart.act (s.sq i).seq a).held
        rw [show (SeqStart.act (s.sq i).seq a).held = _ from acts_held [a] (s.sq i).seq]; exact h.held
      · show ¬ SeqStart.Idle (SeqStart.act (s.sq i).seq a)
        unfold SeqStart.Idle
        rw [(SeqStart.same_act (s.sq i).seq a).state]; exact h.state
    · simp only [upd_other _ _ hj]; exact h
  | adv j =>
    unfold step
    dsimp only
    split
    · exact h
    · rename_i y rest ht
      by_cases hj : i = j
      · subst hj; rw [h.over] at ht; exact nomatch ht
      · simp only [upd_other _ _ hj]; exact h

/-- and the phase never ends. -/
theorem stuck_run (hG : Wf C.G) {i p : Nat} (hi : i < N) (hq : isSeq i = true) (hk : C.G.kind p = .task) (hs : sibs C.G p = some []) (more : List Op) {s : State}
    (hw : Whole C N isSeq s) (h : Stuck (s.sq i) p) (h0 : s.base.ph.st p ≠ .ended) (hf : Fair C N isSeq s more) : (run C s more).base.ph.st p ≠ .ended := by
  induction more generalizing s with
  | nil => exact h0
  | cons o more ih =>
    refine ih (whole_step hG hw hf.1.1 hf.1.2) (stuck_step h o) (fun h1 => ?_) hf.2
    exact end_held hw hk hs h0 h1 hi hq h.held

instance (isSeq : Nat → Bool) (o : Op) : Decidable (Own isSeq o) := by
  unfold Own; split <;> infer_instance
instance : (s : State) → (ops : List Op) → Decidable (Fair C N isSeq s ops)
  | _, [] => isTrue trivial
  | s, o :: ops => @instDecidableAnd _ _ _ (instDecidableFair (step C s o) ops)
instance : (s : State) → (ops : List Op) → Decidable (FairOne C N isSeq s ops)
  | _, [] => isTrue trivial
  | s, o :: ops => @instDecidableAnd _ _ _ (instDecidableFairOne (step C s o) ops)

/-- One task phase, number 1; the methods of sequence 1 return, the `body` of sequence 2 raises an exception. -/
def exCfg : Cfg := { G := PhaseRun.single, t := Objection.exTree, sc := fun i h => { raises := i == 2 && h == .body } }

/-- Sequence `i` is told to object to phase 1 and started. -/
def startSeq (i : Nat) : List Op := [.act i (.setApo true), .act i (.setPhase (some 1)), .begin i false false]

def diesOps : List Op := PhaseObj.toCrit.map .base ++ startSeq 2 ++ [.adv 2, .adv 2, .adv 2, .adv 2]

/-- C351 fails: a sequence whose `body` raised an exception is over, and the phase it objected to never ends, whatever is done (without clearing the objection
and without touching the sequence's own objections). -/
theorem C351_exception_fails : ∃ (C : Cfg) (N : Nat) (isSeq : Nat → Bool) (ops : List Op) (p : Nat), Wf C.G ∧ Fair C N isSeq {} ops ∧ C.G.kind p = .task ∧
    sibs C.G p = some [] ∧ (run C {} ops).base.ph.st p = .executing ∧ (∀ i, ((run C {} ops).sq i).todo = []) ∧
    ∀ more, Fair C N isSeq (run C {} ops) more → (run C {} (ops ++ more)).base.ph.st p ≠ .ended := by
  have hf : Fair exCfg 4 (fun i => i == 1 || i == 2) {} diesOps := by decide
  refine ⟨exCfg, 4, fun i => i == 1 || i == 2, diesOps, 1, PhaseObj.wf_single, hf, by decide, by decide, by decide, fun i => ?_, fun more hm => ?_⟩
  · by_cases hi : i = 2
    · subst hi; decide
    · have : ∀ (ops : List Op) (s : State), (∀ o ∈ ops, (∃ x, o = .base x) ∨ (∃ a, o = .act 2 a) ∨ (∃ a b, o = .begin 2 a b) ∨ o = .adv 2) →
          ((run exCfg s ops).sq i).todo = (s.sq i).todo := by
        intro ops
        induction ops with
        | nil => intro s _; rfl
        | cons o ops ih =>
          intro s ho
          refine (ih _ fun o h => ho o (by simp [h])).trans ?_
          rcases ho o (by simp) with ⟨x, rfl⟩ | ⟨a, rfl⟩ | ⟨a, b, rfl⟩ | rfl
          · rfl
          · simp only [step, upd_other _ _ hi]
          · unfold step; dsimp only; split
            · simp only [upd_other _ _ hi]
            · rfl
          · unfold step; dsimp only; split
            · rfl
            · simp only [upd_other _ _ hi]
      refine (this diesOps {} ?_).trans rfl
      intro o ho
      unfold diesOps startSeq at ho
      simp only [List.mem_append, List.mem_map, List.mem_cons, List.not_mem_nil, or_false] at ho
      grind
  · rw [run_append]
    exact stuck_run (isSeq := fun i => i == 1 || i == 2) (N := 4) (i := 2) PhaseObj.wf_single (by decide) (by decide) (by decide) (by decide) more
      (whole_run PhaseObj.wf_single _ whole_init hf) ⟨by decide, by decide, by decide⟩ (by decide) hm

/-- What a sequence holds when no method raises an exception. -/
def Tidy (x : Sq) : Prop :=
  (x.todo = [] ∨ x.todo = [.finish]) ∧ x.seq.held = [] ∨
  (∃ m, SeqStart.Plain m ∧ x.todo = .raiseObj :: (m ++ [.dropObj, .finish])) ∧ x.seq.held = [] ∨
  (∃ m, SeqStart.Plain m ∧ x.todo = m ++ [.dropObj, .finish]) ∧ Fixed x.seq ∧ x.seq.held = SeqStart.objection x.seq

theorem objection_acts {q : Seq} (h : Fixed q) (l : List Act) : SeqStart.objection (l.foldl SeqStart.act q) = SeqStart.objection q := by
  unfold SeqStart.objection
  rw [(acts_locked l h.apo).2]
  by_cases ha : q.apo = true
  · rw [if_pos ha, if_pos ha, (acts_phaseLocked l (h.phase ha)).2]
  · rw [if_neg ha, if_neg ha]

theorem tidy_acts {x : Sq} (h : Tidy x) (l : List Act) : Tidy { x with seq := l.foldl SeqStart.act x.seq } := by
  rcases h with ⟨h1, h2⟩ | ⟨h1, h2⟩ | ⟨h1, h2, h3⟩
  · exact .inl ⟨h1, (acts_held l _).trans h2⟩
  · exact .inr (.inl ⟨h1, (acts_held l _).trans h2⟩)
  · exact .inr (.inr ⟨h1, fixed_acts h2 l, (acts_held l _).trans (h3.trans (objection_acts h2 l).symm)⟩)

theorem raise_held (sc : Hook → Script) {q : Seq} (h : q.held = []) :
    (SeqStart.step sc q .raiseObj).1.held = SeqStart.objection (SeqStart.step sc q .raiseObj).1 := by
  unfold SeqStart.step SeqStart.objection
  dsimp only [SeqStart.act]
  by_cases ha : q.apo = true
  · simp only [ha, if_true]
    cases hp : q.phase with
    | none => simp [ha, hp, h]
    | some p => simp [ha, hp, h]
  · simp only [ha]
    simpa [ha] using h

theorem drop_held (sc : Hook → Script) {q : Seq} (h : q.held = SeqStart.objection q) : (SeqStart.step sc q .dropObj).1.held = [] := by
  unfold SeqStart.objection at h
  unfold SeqStart.step
  dsimp only [SeqStart.act]
  by_cases ha : q.apo = true
  · rw [if_pos ha] at h
    simp only [ha, if_true]
    cases hp : q.phase with
    | none => rw [hp] at h; exact h
    | some p => rw [hp] at h; simp [h]
  · rw [if_neg ha] at h
    simp only [ha]
    exact h

theorem calm_goes {sc : Hook → Script} (hc : SeqStart.Calm sc) (q : Seq) (p : SeqStart.Step) : (SeqStart.step sc q p).2 = true := by
  cases p with
  | hook h => simp [SeqStart.step, hc h]
  | to _ => rfl
  | finish => rfl
  | raiseObj => unfold SeqStart.step; dsimp only; split <;> (try split) <;> rfl
  | dropObj => unfold SeqStart.step; dsimp only; split <;> (try split) <;> rfl

theorem tidy_step (hc : ∀ i, SeqStart.Calm (C.sc i)) {s : State} (h : ∀ i, Tidy (s.sq i)) (o : Op) : ∀ i, Tidy ((step C s o).sq i) := by
  intro j
  cases o with
  | base o => exact h j
  | begin i a b =>
    unfold step
    dsimp only
    split
    · rename_i hidle
      by_cases hj : j = i
      · subst hj
        simp only [upd_same]
        refine .inr (.inl ⟨⟨_, plain_mid a b, SeqStart.prog_eq a b⟩, ?_⟩)
        show (s.sq j).seq.held = []
        rcases h j with ⟨-, h2⟩ | ⟨-, h2⟩ | ⟨⟨m, -, h1⟩, -⟩
        · exact h2
        · exact h2
        · rw [hidle.2] at h1; exact absurd h1 (by simp)
      · simp only [upd_other _ _ hj]; exact h j
    · exact h j
  | act i a =>
    unfold step
    dsimp only
    by_cases hj : j = i
    · subst hj; simp only [upd_same]; exact tidy_acts (h j) [a]
    · simp only [upd_other _ _ hj]; exact h j
  | adv i =>
    unfold step
    dsimp only
    split
    · exact h j
    · rename_i p rest ht
      by_cases hj : j = i
      · subst hj
        simp only [upd_same]
        have hg := calm_goes (hc j) (s.sq j).seq p
        unfold next
        dsimp only
        rw [if_neg (by simp [hg])]
        rcases h j with ⟨h1, h2⟩ | ⟨⟨m, hm, h1⟩, h2⟩ | ⟨⟨m, hm, h1⟩, h2, h3⟩
        · rcases h1 with h1 | h1
          · rw [h1] at ht; exact nomatch ht
          · rw [h1] at ht; cases ht
            rw [if_pos rfl]
            exact .inl ⟨.inl rfl, h2⟩
        · rw [h1] at ht; cases ht
          rw [if_neg (by simp)]
          exact .inr (.inr ⟨⟨m, hm, rfl⟩, fixed_raise _ _, raise_held _ h2⟩)
        · rw [h1] at ht
          cases m with
          | nil =>
            cases ht
            rw [if_neg (by simp)]
            exact .inl ⟨.inr rfl, drop_held _ h3⟩
          | cons y m =>
            cases ht
            rw [if_neg (by simp)]
            refine .inr (.inr ⟨⟨m, plain_tail hm, rfl⟩, ?_⟩)
            rcases hm p (by simp) with ⟨x, rfl⟩ | ⟨x, rfl⟩
            · exact ⟨⟨h2.apo, h2.phase, h2.held⟩, h3⟩
            · have hF : Fixed { (s.sq j).seq with log := (s.sq j).seq.log ++ [(x, (s.sq j).seq.state, (s.sq j).seq.held)] } := ⟨h2.apo, h2.phase, h2.held⟩
              exact ⟨fixed_acts hF _, (acts_held _ _).trans (Eq.trans h3 (objection_acts hF _).symm)⟩
      · simp only [upd_other _ _ hj]; exact h j

theorem tidy_run (hc : ∀ i, SeqStart.Calm (C.sc i)) (ops : List Op) {s : State} (h : ∀ i, Tidy (s.sq i)) : ∀ i, Tidy ((run C s ops).sq i) := by
  induction ops generalizing s with
  | nil => exact h
  | cons o ops ih => exact ih (tidy_step hc h o)

theorem tidy_over {x : Sq} (h : Tidy x) (ht : x.todo = []) : x.seq.held = [] := by
  rcases h with ⟨-, h2⟩ | ⟨-, h2⟩ | ⟨⟨m, -, h1⟩, -⟩
  · exact h2
  · exact h2
  · rw [ht] at h1; exact absurd h1 (by simp)

/-- The calls on phases and objections in a history. -/
def proj (C : Cfg) : State → List Op → List PhaseObj.Op
  | _, [] => []
  | s, o :: ops => (made s o).toList ++ proj C (step C s o) ops

theorem run_proj (ops : List Op) (s : State) : (run C s ops).base = PhaseObj.run C.G C.t s.base (proj C s ops) := by
  induction ops generalizing s with
  | nil => rfl
  | cons o ops ih =>
    refine (ih (step C s o)).trans ?_
    rw [step_made, proj]
    cases made s o <;> rfl

theorem fairOne_proj (ops : List Op) (s : State) (h : FairOne C N isSeq s ops) : PhaseObj.FairOne C.G C.t N s.base (proj C s ops) := by
  induction ops generalizing s with
  | nil => exact trivial
  | cons o ops ih =>
    have h2 := ih _ h.2
    rw [step_made] at h2
    rw [proj]
    cases hx : made s o with
    | none => rw [hx] at h2; exact h2
    | some x => rw [hx] at h2; exact ⟨h.1.1 x hx, h2⟩

theorem fairOne_fair (ops : List Op) (s : State) (h : FairOne C N isSeq s ops) : Fair C N isSeq s ops := by
  induction ops generalizing s with
  | nil => exact trivial
  | cons o ops ih => exact ⟨⟨fun x hx => (h.1.1 x hx).1, h.1.2⟩, ih _ h.2⟩

/-- Sequences without exceptions hold no objection when they are over, and the objection of the phase says so. -/
theorem C351_over_partial (C : Cfg) (hG : Wf C.G) (N : Nat) (isSeq : Nat → Bool) (ops : List Op) (hf : Fair C N isSeq {} ops) (hc : ∀ i, SeqStart.Calm (C.sc i))
    (i : Nat) (hq : isSeq i = true) (ht : ((run C {} ops).sq i).todo = []) :
    ((run C {} ops).sq i).seq.held = [] ∧ ∀ p, C.G.kind p = .task → sibs C.G p = some [] → ((run C {} ops).base.ph.st p).code < St.ended.code →
      ((run C {} ops).base.ob p).count i = 0 := by
  have h := tidy_over (tidy_run hc ops (s := {}) (fun _ => .inl ⟨.inl rfl, rfl⟩) i) ht
  refine ⟨h, fun p hk hs he => ?_⟩
  have := (whole_run hG ops whole_init hf).cnt p hk (by rw [hs]; nofun) he i hq
  rw [h] at this
  exact this

/-- The phase ends when the sequences are over, nobody else objects and the drains are over. -/
theorem C351_ends_partial (C : Cfg) (hG : Wf C.G) (N : Nat) (isSeq : Nat → Bool) (ops : List Op) (hf : FairOne C N isSeq {} ops) (hc : ∀ i, SeqStart.Calm (C.sc i))
    (p : Nat) (hk : C.G.kind p = .task) (hs : sibs C.G p = some []) (hst : (run C {} ops).base.ph.st p = .executing ∨ (run C {} ops).base.ph.st p = .readyToEnd)
    (hrest : ∀ op, ¬ Objection.Enabled ((run C {} ops).base.ob p) op) (hover : ∀ i, isSeq i = true → ((run C {} ops).sq i).todo = [])
    (hno : ∀ x, x < N → isSeq x = false → ((run C {} ops).base.ob p).count x = 0) :
    ∃ k, k ≤ 4 ∧ (run C {} (ops ++ List.replicate k (.base (.adv p)))).base.ph.st p = .ended := by
  have hno' : ∀ x, x < N → ((run C {} ops).base.ob p).count x = 0 := by
    intro x hx
    cases hq : isSeq x with
    | false => exact hno x hx hq
    | true =>
      refine (C351_over_partial C hG N isSeq ops (fairOne_fair _ _ hf) hc x hq (hover x hq)).2 p hk hs ?_
      rcases hst with e | e <;> rw [e] <;> decide
  have hb := run_proj (C := C) ops {}
  have hF := fairOne_proj ops {} hf
  rw [hb] at hst hrest hno'
  obtain ⟨k, h1, h2⟩ := PhaseObj.C349_ends_partial C.G hG C.t N (proj C {} ops) p hF hk hs hst hrest hno'
  refine ⟨k, h1, ?_⟩
  have hk' : ∀ (k : Nat) (s : State), (run C s (List.replicate k (.base (.adv p)))).base = PhaseObj.run C.G C.t s.base (List.replicate k (.adv p)) := by
    intro k
    induction k with
    | zero => intro s; rfl
    | succ k ih => intro s; exact ih _
  rw [run_append, hk', hb]
  unfold PhaseObj.run at h2 ⊢
  rwa [List.foldl_append] at h2

/-! ## The hypotheses are met -/

/-- Phase 1 runs; sequence 1 objects to it and runs to its end; the drains of its component and of the root run. -/
def calmCfg : Cfg := { G := PhaseRun.single, t := Objection.exTree, sc := fun _ _ => {} }
def drains : List Op := ([.obj 1 .bg, .obj 1 .start, .obj 1 (.notify 0), .obj 1 (.finish 0), .obj 1 .bg, .obj 1 .start, .obj 1 (.notify 0), .obj 1 (.finish 0)] : List PhaseObj.Op).map .base
def midOps : List Op := PhaseObj.toCrit.map .base ++ startSeq 1 ++ [.adv 1, .adv 1, .base (.adv 1), .adv 1]
def overOps : List Op := midOps ++ List.replicate 6 (.adv 1) ++ drains

/-- The sequence is in its body, and the phase waits. -/
example : Fair calmCfg 4 (· == 1) {} midOps ∧ Running ((run calmCfg {} midOps).sq 1) ∧ ((run calmCfg {} midOps).sq 1).seq.apo = true ∧
    ((run calmCfg {} midOps).sq 1).seq.phase = some 1 ∧ ((run calmCfg {} midOps).sq 1).todo.head? = some (.hook .body) ∧
    (run calmCfg {} midOps).base.ph.pc 1 = .ownFirst false := by decide

set_option maxRecDepth 8000 in
/-- The sequence is over, and the phase is about to end. -/
example : FairOne calmCfg 4 (· == 1) {} overOps ∧ ((run calmCfg {} overOps).sq 1).todo = [] ∧ ((run calmCfg {} overOps).sq 1).seq.state = .finished ∧
    (run calmCfg {} overOps).base.ph.st 1 = .executing ∧ (run calmCfg {} overOps).base.ph.pc 1 ≠ .ownFirst false ∧
    (∀ x, x < 4 → ((run calmCfg {} overOps).base.ob 1).count x = 0) ∧ ((run calmCfg {} overOps).base.ob 1).ev = false ∧ ((run calmCfg {} overOps).base.ob 1).toStart = 0 ∧
    ((run calmCfg {} overOps).base.ob 1).running = [] ∧ (run calmCfg {} (overOps ++ List.replicate 4 (.base (.adv 1)))).base.ph.st 1 = .ended := by decide

set_option maxRecDepth 8000 in
/-- An ending step. -/
example : Fair calmCfg 4 (· == 1) {} (overOps ++ List.replicate 3 (.base (.adv 1))) ∧ PhaseRun.single.kind 1 = .task ∧ sibs PhaseRun.single 1 = some [] ∧
    (run calmCfg {} (overOps ++ List.replicate 3 (.base (.adv 1)))).base.ph.st 1 ≠ .ended ∧
    (run calmCfg {} ((overOps ++ List.replicate 3 (.base (.adv 1))) ++ [.base (.adv 1)])).base.ph.st 1 = .ended ∧ ∀ i, SeqStart.Calm (calmCfg.sc i) :=
  ⟨by decide, by decide, by decide, by decide, by decide, fun _ _ => rfl⟩

/-- C364: sequence 1 objects to phase 1, runs and is about to return from `start`; its settings are locked then. -/
example : ((run exCfg {} (PhaseObj.toCrit.map .base ++ startSeq 1 ++ List.replicate 8 (.adv 1))).sq 1).todo = [.finish] ∧
    ((run exCfg {} (PhaseObj.toCrit.map .base ++ startSeq 1 ++ List.replicate 8 (.adv 1))).sq 1).seq.phase = some 1 ∧
    ((run exCfg {} (PhaseObj.toCrit.map .base ++ startSeq 1 ++ List.replicate 8 (.adv 1))).sq 1).seq.phaseLocked = true := by decide

end Verif.SeqPhase
