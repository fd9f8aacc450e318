import Verif.Lemmas.SeqRun
import Verif.Props.SeqPhase
import Verif.Props.Sequencer
/-! # C367: a phase does not end while an item of a sequence that objects to it is with the driver -/
namespace Verif.SeqRun
open Verif.Arbiter (Mode)
open Verif.PhaseRun (Wf sibs)
open Verif.SeqPhase (Running Fair)

variable (C : SeqPhase.Cfg) (mode : Mode) (rel : Arbiter.Seq → Bool) (rnd : Nat → Nat)

theorem done_of_whole {s : State} (h : Whole C mode rel rnd s) {i : Nat} (hb : inBody (s.ph.sq i) = false) : AllDone i s.outs := by
  intro pre x a post he
  rcases h.inv.sent pre i x a post he with hd | ⟨_, ⟨w, hw⟩, _⟩
  · exact hd
  · rw [h.body i hb] at hw; exact nomatch hw

theorem running_body {s : State} (h : Whole C mode rel rnd s) {i : Nat} (hb : inBody (s.ph.sq i) = true) : Running (s.ph.sq i) := by
  unfold inBody at hb
  split at hb
  next rest e =>
    rw [h.ph] at e ⊢
    exact SeqPhase.C350_methods C _ i .body rest e
  · exact nomatch hb

/-- A sequence whose `body` has returned (or was not called yet) has no item that the driver did not finish. -/
theorem C367_body_returns (ops : List Op) (hg : Good C mode rel rnd {} ops) (i : Nat) (h : ¬ Running ((run C mode rel rnd {} ops).ph.sq i)) :
    AllDone i (run C mode rel rnd {} ops).outs := by
  have hw := whole_run ops (whole_init (C := C) (mode := mode) (rel := rel) (rnd := rnd)) hg
  refine done_of_whole C mode rel rnd hw ?_
  cases hb : inBody ((run C mode rel rnd {} ops).ph.sq i) with
  | false => rfl
  | true => exact absurd (running_body C mode rel rnd hw hb) h

theorem run_snoc (ops : List Op) (o : Op) : run C mode rel rnd {} (ops ++ [o]) = step C mode rel rnd (run C mode rel rnd {} ops) o := by simp [run]

/-- The step in which a phase ends is a step of the phases. -/
theorem ended_step {s : State} {o : Op} {p : Nat} (h0 : s.ph.base.ph.st p ≠ .ended) (h1 : (step C mode rel rnd s o).ph.base.ph.st p = .ended) :
    ∃ o', (step C mode rel rnd s o).ph = SeqPhase.step C s.ph o' ∧ (step C mode rel rnd s o).outs = s.outs := by
  cases o with
  | sq o =>
    simp only [step] at h1
    split at h1 <;> exact absurd h1 h0
  | ph o =>
    simp only [step] at h1 ⊢
    split at h1
    · exact absurd h1 h0
    next hb => exact ⟨o, by rw [if_neg hb], by rw [if_neg hb]⟩

theorem ended_body (hG : Wf C.G) (N : Nat) (isSeq : Nat → Bool) (ops : List Op) (o : Op) (p : Nat) (hg : Good C mode rel rnd {} ops)
    (hf : Fair C N isSeq {} (run C mode rel rnd {} ops).phOps) (hk : C.G.kind p = .task) (hs : sibs C.G p = some [])
    (h0 : (run C mode rel rnd {} ops).ph.base.ph.st p ≠ .ended) (h1 : (run C mode rel rnd {} (ops ++ [o])).ph.base.ph.st p = .ended)
    (i : Nat) (hi : Running ((run C mode rel rnd {} ops).ph.sq i) →
      i < N ∧ isSeq i = true ∧ ((run C mode rel rnd {} ops).ph.sq i).seq.apo = true ∧ ((run C mode rel rnd {} ops).ph.sq i).seq.phase = some p) :
    ¬ inBody ((run C mode rel rnd {} ops).ph.sq i) = true := by
  intro hb
  have hw := whole_run ops (whole_init (C := C) (mode := mode) (rel := rel) (rnd := rnd)) hg
  have hr := running_body C mode rel rnd hw hb
  obtain ⟨a1, a2, a3, a4⟩ := hi hr
  rw [run_snoc] at h1
  obtain ⟨o', e, -⟩ := ended_step C mode rel rnd h0 h1
  rw [e, hw.ph, ← SeqPhase.run_snoc] at h1
  rw [hw.ph] at h0 hr a3 a4
  exact SeqPhase.C350_phase_waits C hG N isSeq _ o' p hf hk hs h0 h1 i a1 a2 hr a3 a4

/-- When a phase ends, the driver has finished every item of every sequence that objects to it or does not run. -/
theorem C367_phase_end (hG : Wf C.G) (N : Nat) (isSeq : Nat → Bool) (ops : List Op) (o : Op) (p : Nat) (hg : Good C mode rel rnd {} ops)
    (hf : Fair C N isSeq {} (run C mode rel rnd {} ops).phOps) (hk : C.G.kind p = .task) (hs : sibs C.G p = some [])
    (h0 : (run C mode rel rnd {} ops).ph.base.ph.st p ≠ .ended) (h1 : (run C mode rel rnd {} (ops ++ [o])).ph.base.ph.st p = .ended)
    (i : Nat) (hi : Running ((run C mode rel rnd {} ops).ph.sq i) →
      i < N ∧ isSeq i = true ∧ ((run C mode rel rnd {} ops).ph.sq i).seq.apo = true ∧ ((run C mode rel rnd {} ops).ph.sq i).seq.phase = some p) :
    AllDone i (run C mode rel rnd {} (ops ++ [o])).outs := by
  have hw := whole_run ops (whole_init (C := C) (mode := mode) (rel := rel) (rnd := rnd)) hg
  have hb := ended_body C mode rel rnd hG N isSeq ops o p hg hf hk hs h0 h1 i hi
  rw [run_snoc] at h1 ⊢
  obtain ⟨_, -, e⟩ := ended_step C mode rel rnd h0 h1
  rw [e]
  exact done_of_whole C mode rel rnd hw (by simpa using hb)

/-- If all running sequences object to the phase, then the driver has nothing left when the phase ends: the items finished are the items sent. -/
theorem C367_driver_idle (hG : Wf C.G) (N : Nat) (isSeq : Nat → Bool) (ops : List Op) (o : Op) (p : Nat) (hg : Good C mode rel rnd {} ops)
    (hf : Fair C N isSeq {} (run C mode rel rnd {} ops).phOps) (hk : C.G.kind p = .task) (hs : sibs C.G p = some [])
    (h0 : (run C mode rel rnd {} ops).ph.base.ph.st p ≠ .ended) (h1 : (run C mode rel rnd {} (ops ++ [o])).ph.base.ph.st p = .ended)
    (hall : ∀ i, Running ((run C mode rel rnd {} ops).ph.sq i) →
      i < N ∧ isSeq i = true ∧ ((run C mode rel rnd {} ops).ph.sq i).seq.apo = true ∧ ((run C mode rel rnd {} ops).ph.sq i).seq.phase = some p) :
    Sequencer.sentOf (run C mode rel rnd {} ops).outs = Sequencer.doneOf (run C mode rel rnd {} ops).outs := by
  have hw := whole_run ops (whole_init (C := C) (mode := mode) (rel := rel) (rnd := rnd)) hg
  obtain ⟨l, hC, -, hfi⟩ := Sequencer.reach_core hw.reach
  rcases hw.inv.fifo with e | ⟨i, x, ⟨_, ⟨w, hd⟩, _⟩, _⟩
  · rw [hfi, e, List.append_nil]
  · exfalso
    have hb : inBody ((run C mode rel rnd {} ops).ph.sq i) = true := by
      cases hb : inBody ((run C mode rel rnd {} ops).ph.sq i) with
      | true => rfl
      | false => rw [hw.body i hb] at hd; exact nomatch hd
    exact ended_body C mode rel rnd hG N isSeq ops o p hg hf hk hs h0 h1 i (fun hr => hall i hr) hb

/-! ## The hypotheses are met -/

def plainB : Sequencer.Op → Bool
  | .send .. => false
  | .kill _ => false
  | _ => true

def okOps (C : SeqPhase.Cfg) (mode : Mode) (rel : Arbiter.Seq → Bool) (rnd : Nat → Nat) : State → List Op → Bool
  | _, [] => true
  | s, .ph o :: ops => okOps C mode rel rnd (step C mode rel rnd s (.ph o)) ops
  | s, .sq o :: ops => plainB o && Sequencer.okStep mode rel rnd s.sq o && okOps C mode rel rnd (step C mode rel rnd s (.sq o)) ops

theorem okStep_spec {s : Sequencer.State} {o : Sequencer.Op} (h : Sequencer.okStep mode rel rnd s o = true) :
    Sequencer.Allowed s o ∧ Sequencer.Clean (Sequencer.step mode rel rnd s o).2 := by
  simp only [Sequencer.okStep, Bool.and_eq_true, Bool.not_eq_true'] at h
  obtain ⟨⟨ha, hf⟩, hr⟩ := h
  refine ⟨?_, ?_, ?_⟩
  · cases o <;> simp [Sequencer.Allowed] at ha ⊢
    exact ha
  · intro hm; rw [List.contains_iff_mem.mpr hm] at hf; cases hf
  · intro hm; rw [List.contains_iff_mem.mpr hm] at hr; cases hr

theorem okOps_good (ops : List Op) (s : State) (h : okOps C mode rel rnd s ops = true) : Good C mode rel rnd s ops := by
  induction ops generalizing s with
  | nil => exact trivial
  | cons o ops ih =>
    cases o with
    | ph o => exact ⟨fun x e => (nomatch e), ih _ h⟩
    | sq o =>
      simp only [okOps, Bool.and_eq_true] at h
      refine ⟨fun x e => ?_, ih _ h.2⟩
      cases e
      refine ⟨?_, okStep_spec mode rel rnd h.1.2⟩
      have := h.1.1
      cases o <;> first | exact trivial | exact nomatch this

/-- Sequence 1 objects to phase 1, is started, and its body sends item 10. -/
def sends : List Op := SeqPhase.midOps.map .ph ++ [.sq (.start (.root 1)), .sq (.startItem 1 (.root 1) 100 false), .sq .getNext, .sq .drvStep, .sq (.resume 1),
  .sq (.finishItem 1 (.root 1) 10 (-1)), .sq (.resume 1), .sq .drvStep]

/-- The driver finishes it and asks for the next one, the sequence notices, its body returns, and the phase is about to end. -/
def finishes : List Op := sends ++ [.sq .itemDone, .sq .getNext, .sq .drvStep, .sq (.resume 1)] ++ List.replicate 6 (.ph (.adv 1)) ++ SeqPhase.drains.map .ph ++
  List.replicate 3 (.ph (.base (.adv 1)))

abbrev runEx := run SeqPhase.calmCfg .fifo (fun _ => true) (fun _ => 0) {}

set_option maxRecDepth 20000 in
/-- The body waits for the driver: it does not return, and the sequence objects to the phase. -/
example : okOps SeqPhase.calmCfg .fifo (fun _ => true) (fun _ => 0) {} sends = true ∧ Running ((runEx sends).ph.sq 1) ∧ ((runEx sends).ph.sq 1).seq.phase = some 1 ∧
    Sequencer.sentOf (runEx sends).outs = [⟨10, 1, 1⟩] ∧ Sequencer.doneOf (runEx sends).outs = [] ∧
    (runEx (sends ++ [.ph (.adv 1)])).phOps = (runEx sends).phOps := by decide +kernel

set_option maxRecDepth 20000 in
/-- C367: the phase ends in the next step, and one item was sent. -/
example : okOps SeqPhase.calmCfg .fifo (fun _ => true) (fun _ => 0) {} finishes = true ∧ Fair SeqPhase.calmCfg 4 (· == 1) {} (runEx finishes).phOps ∧
    PhaseRun.single.kind 1 = .task ∧ sibs PhaseRun.single 1 = some [] ∧ (runEx finishes).ph.base.ph.st 1 ≠ .ended ∧
    (runEx (finishes ++ [.ph (.base (.adv 1))])).ph.base.ph.st 1 = .ended ∧ ¬ Running ((runEx finishes).ph.sq 1) ∧
    (runEx finishes).outs = [.chose 1, .granted 1 1, .sent 1 ⟨10, 1, 1⟩ true, .waiting 1, .delivered (some ⟨10, 1, 1⟩), .done ⟨10, 1, 1⟩, .finished 1 1] := by
  decide +kernel

end Verif.SeqRun
