import Verif.Model.MapTree
/-!
# The switches of address maps: `set_check_on_read`, `set_auto_predict` (src/uvm/reg/uvm_reg_map.py, `M`)

The maps and how they are put into each other are `Verif.Model.MapTree`; here each map also has its two switches.
-/
namespace Verif.MapSwitch
open Verif.MapTree

/-- M 259-260: the two switches of each map. -/
structure State where
  t : MapTree.State
  check : Nat → Bool
  auto : Nat → Bool

/-- M 259-260: of a new map. -/
def init : State := ⟨MapTree.init, fun _ => true, fun _ => false⟩

/-- M 1302-1304: `set_check_on_read`; `none`: deeper than the fuel. -/
def setCheck (t : MapTree.State) (on : Bool) : Nat → (Nat → Bool) → Nat → Option (Nat → Bool)
  | 0, _, _ => none
  | n + 1, chk, m => ((t.map m).subs.map Prod.fst).foldlM (setCheck t on n) (upd chk m on)

/-- M 1267: `set_auto_predict`. -/
def setAuto (auto : Nat → Bool) (m : Nat) (on : Bool) : Nat → Bool := upd auto m on

/-- uvm_reg.py 1509, 1711 with 1690: whether an access of a register through map `m` updates the mirror: the root map is asked. -/
def predicts (s : State) (fuel m : Nat) : Option Bool := (root s.t fuel m).map s.auto

/-- uvm_reg.py 1711-1715: whether the value of a successful read through map `m` is checked. -/
def checks (s : State) (fuel m : Nat) : Option Bool := (root s.t fuel m).map fun r => s.auto r && s.check m

inductive Op where
  | build (op : MapTree.Op)
  | check (m : Nat) (on : Bool)
  | auto (m : Nat) (on : Bool)
deriving Repr

/-- One operation; `n` bounds the depth of the blocks. -/
def step (bp : Nat → Option Nat) (n : Nat) (s : State) : Op → Option State
  | .build op => some { s with t := MapTree.step bp n s.t op }
  | .check m on => (setCheck s.t on (n + 1) s.check m).map fun c => { s with check := c }
  | .auto m on => some { s with auto := setAuto s.auto m on }

def run (bp : Nat → Option Nat) (n : Nat) (s : State) (ops : List Op) : Option State := ops.foldlM (step bp n) s

end Verif.MapSwitch
