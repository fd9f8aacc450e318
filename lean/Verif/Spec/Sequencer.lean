import Verif.Model.Sequencer
/-! # Reading a run of a sequencer from its observable effects -/
namespace Verif.Sequencer
open Arbiter

/-- The sequences selected by arbitration, in order. -/
def chosenOf : List Out → List Nat
  | [] => []
  | .chose i :: l => i :: chosenOf l
  | _ :: l => chosenOf l

/-- The sequences that sent an item, in order. -/
def sendersOf : List Out → List Nat
  | [] => []
  | .sent i _ _ :: l => i :: sendersOf l
  | _ :: l => sendersOf l

/-- The items sent, in order. -/
def sentOf : List Out → List Item
  | [] => []
  | .sent _ x _ :: l => x :: sentOf l
  | _ :: l => sentOf l

/-- The items finished by the driver, in order. -/
def doneOf : List Out → List Item
  | [] => []
  | .done x :: l => x :: doneOf l
  | _ :: l => doneOf l

/-- The transaction ids assigned automatically to items of sequence `i`, in order. -/
def autoOf (i : Nat) : List Out → List Int
  | [] => []
  | .sent j x true :: l => if j = i then x.tr :: autoOf i l else autoOf i l
  | _ :: l => autoOf i l

/-- No exception was raised. -/
def Clean (r : List Out) : Prop := .fatal ∉ r ∧ .raised ∉ r

/-- Operations covered by the handshake theorems: everything but `stop_sequences`, and but `try_next_item` for a driver that has an
unfinished `peek`. -/
def Allowed (s : State) : Op → Prop
  | .stop => False
  | .tryNext => s.requested.truthy = false ∨ s.nextCalled.truthy = true
  | _ => True

/-- `Reach mode rel rnd ops outs s`: the history `ops` from the initial state has the effects `outs`, leads to `s`, and so far no exception
was raised and all operations were allowed. -/
inductive Reach (mode : Mode) (rel : Seq → Bool) (rnd : Nat → Nat) : List Op → List Out → State → Prop
  | nil : Reach mode rel rnd [] [] {}
  | snoc {ops outs s op} : Reach mode rel rnd ops outs s → Allowed s op → Clean (step mode rel rnd s op).2 →
      Reach mode rel rnd (ops ++ [op]) (outs ++ (step mode rel rnd s op).2) (step mode rel rnd s op).1

/-- The same without restrictions: any history, exceptions or not. -/
inductive Hist (mode : Mode) (rel : Seq → Bool) (rnd : Nat → Nat) : List Op → List Out → State → Prop
  | nil : Hist mode rel rnd [] [] {}
  | snoc {ops outs s} (op : Op) : Hist mode rel rnd ops outs s →
      Hist mode rel rnd (ops ++ [op]) (outs ++ (step mode rel rnd s op).2) (step mode rel rnd s op).1

/-- The last thing that happened to "whose item is done": a call of `wait_for_item_done` forgets it, `item_done` records it. -/
def mark (m : Int) : Out → Int
  | .waiting _ => -1
  | .done x => x.seqId
  | _ => m

/-- The buffer of the last requests, as it should be: at most `n` items, newest first. -/
def specHist : Nat × List Item → Out → Nat × List Item
  | (n, buf), .sent _ x _ => (n, (x :: buf).take n)
  | (_, buf), .limit m => (min m.toNat 1024, buf.take (min m.toNat 1024))
  | a, _ => a

end Verif.Sequencer
