import Verif.Model.UserDoor
import Verif.Util.Machine
/-!
# Specification: user-defined back doors
-/
namespace Verif.UserDoor

/-- The back door found from a block up: that of the first block that has one. -/
inductive Nearest (s : State) : Option Nat → Option Nat → Prop where
  | top : Nearest s none none
  | own : s.door b = some d → Nearest s (some b) (some d)
  | up : s.door b = none → Nearest s (s.parent b) x → Nearest s (some b) x

/-- The back door a user set for the element last (`none`: never, or `None`). -/
def lastSet (start : Option Nat) (e : Nat) : List Op → Option Nat
  | [] => start
  | .setElem e' d :: ops => lastSet (if e' = e then d else start) e ops
  | _ :: ops => lastSet start e ops

/-- The parents of blocks come before them. -/
def Forest (s : State) : Prop := ∀ b p, s.parent b = some p → p < b

/-- What the callbacks are documented to do (uvm_reg_cbs.py 258-306): `encode` in the order of registration on a write,
`decode` in reverse order on a read. -/
def encodedBy (cbs : List Cb) (v : List Nat) : List Nat := cbs.foldl (fun v c => c.encode v) v
def decodedBy (cbs : List Cb) (v : List Nat) : List Nat := cbs.reverse.foldl (fun v c => c.decode v) v

end Verif.UserDoor
