import Verif.Model.RegPar
/-!
# Desired values set while accesses are under way (src/uvm/reg/uvm_reg.py 640-667, uvm_reg_field.py 718-786)

`UVMReg.set` and `UVMRegField.set` take no lock: a process may call them while an access to the same register is on the bus.
-/
namespace Verif.RegPar
open Verif.Reg Verif.RegField Verif.RegAccess Verif.RegMap Verif.RegSystem Verif.RegConc

/-- What processes do: the events of `Ev`, or a call of `set` on a register (uvm_reg.py 640-667) or on its field `k` (uvm_reg_field.py 718-786). -/
inductive Ev2 (n : Nat) where
  | ev (e : Ev n)
  | set (i : Fin n) (v : Int)
  | setField (i : Fin n) (k : Nat) (v : Int)

/-- Register `i` changed at once, whatever is under way on it. -/
def change {n : Nat} {σ} (st : State n σ) (i : Fin n) (f : Reg → Reg) : State n σ :=
  { st with tasks := fun j => if j = i then { st.tasks i with reg := f (st.tasks i).reg } else st.tasks j }

def step2 {n : Nat} {σ} (bus : Bus σ) (order : Order) (w : Nat) (ports : Fin n → Port) (st : State n σ) : Ev2 n → State n σ
  | .ev e => step bus order w ports st e
  | .set i v => change st i fun r => Reg.set r v
  | .setField i k v => change st i fun r => Reg.step r (.fieldOp k (.set v))

def run2 {n : Nat} {σ} (bus : Bus σ) (order : Order) (w : Nat) (ports : Fin n → Port) (st : State n σ) (evs : List (Ev2 n)) : State n σ :=
  evs.foldl (step2 bus order w ports) st

end Verif.RegPar
