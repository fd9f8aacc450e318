import Verif.Model.SeqRun
import Verif.Spec.SeqPhase
import Verif.Spec.Sequencer
/-! # Specification vocabulary for sequences that send items while phases run -/
namespace Verif.SeqRun
open Verif.Arbiter (Mode)

/-- No sequence is killed, and items are sent by `finish_item` only. -/
def Plain : Sequencer.Op → Prop
  | .send .. => False
  | .kill _ => False
  | _ => True

/-- A history without exceptions in the sequencer and its driver, without `stop_sequences`, without killed sequences and without bare `send_request`. -/
def Good (C : SeqPhase.Cfg) (mode : Mode) (rel : Arbiter.Seq → Bool) (rnd : Nat → Nat) : State → List Op → Prop
  | _, [] => True
  | s, o :: ops => (∀ x, o = .sq x → Plain x ∧ Sequencer.Allowed s.sq x ∧ Sequencer.Clean (Sequencer.step mode rel rnd s.sq x).2) ∧
      Good C mode rel rnd (step C mode rel rnd s o) ops

/-- Every item that sequence `i` sent has been finished by the driver since. -/
def AllDone (i : Nat) (outs : List Sequencer.Out) : Prop :=
  ∀ pre x a post, outs = pre ++ .sent i x a :: post → .done x ∈ post

end Verif.SeqRun
