import Verif.Spec.SqrIds
import Verif.Model.RspRoute
/-! # Which item does a response belong to? -/
namespace Verif.RspRoute

/-- The item that a call sends. -/
def item : Op → Option Nat
  | .send _ _ x => some x
  | _ => none

/-- Every item object is sent at most once. -/
def Once (h : List Op) : Prop := (h.filterMap item).Nodup

/-- The calls of a history that concern the ids of sequences. -/
def ids : Op → Option SqrIds.Op
  | .start i q => some (.start i q)
  | .register i q => some (.register i q)
  | .exit i q => some (.exit i q)
  | .send i q _ => some (.send i q)
  | .respond _ _ => none

/-- The sequence is in use at the sequencer (`SqrIds.status`). -/
def InUse (h : List Op) (i q : Nat) : Prop := SqrIds.status i q (h.filterMap ids) = .live

/-- The transaction id of an item after a history. -/
def tidOf (h : List Op) (x : Nat) : Int := (runS step init h).tid x

/-- What an answer of the driver of `q` to item `x` does after a history. -/
def answer (h : List Op) (q x : Nat) : Out := (step (runS step init h) (.respond q x)).2

end Verif.RspRoute
