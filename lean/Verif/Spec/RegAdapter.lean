import Verif.Model.RegAdapter
/-! # What a good adapter is (C338) -/
namespace Verif.RegAdapter
open Verif.RegMap

variable {σ β : Type}

/-- OK or with unknown bits. -/
def Status.good (st : Status) : Bool := st ≠ .notOk

/-- The adapter makes an item of every bus operation; when the driver executes the item, it does what the operation does on the bus; and the adapter
copies the data and status of it back. -/
def Faithful (A : Adapter β) (D : Driver σ β) (bus : Bus σ) : Prop :=
  ∀ op s, ∃ b, A.reg2bus op = some b ∧
    bus s op = ((D.exec s b).1, (A.bus2reg (D.exec s b).2 op).1, (A.bus2reg (D.exec s b).2 op).2.good)

/-- The items the driver was given. -/
def items (evs : List (Ev β)) : List β := evs.filterMap fun e => match e with | .sent b => some b | _ => none

/-- The calls of the hooks with the register item: `true` for `mid_do`, `false` for `post_do`. -/
def rwHooks (evs : List (Ev β)) : List Bool := evs.filterMap fun e => match e with | .midRw => some true | .postRw => some false | _ => none

/-- The operations of a list that are performed: all up to the first that is not OK, which is the last. -/
def performed (bus : Bus σ) : σ → List BusOp → List BusOp
  | _, [] => []
  | s, op :: ops => op :: if (bus s op).2.2 then performed bus (bus s op).1 ops else []

/-- What the parent sequence and the driver see of items made and executed one after the other, the hooks with the register item aside: for each the
item before and after. -/
def handled (l : List (β × β)) : List (Ev β) := l.flatMap fun x => [.preDo, .midDo x.1, .sent x.1, .postDo x.2]

/-- Not a hook with the register item. -/
def ofItem : Ev β → Bool
  | .midRw | .postRw => false
  | _ => true

end Verif.RegAdapter
