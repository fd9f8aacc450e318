import Verif.Model.Port
/-!
# Model of analysis implementations declared with a suffix

src/uvm/macros/uvm_tlm_defines.py 514-521 (`uvm_analysis_imp_decl`), src/uvm/tlm1/uvm_tlm_imps.py 296-308
(`UVM_IMP_COMMON`), src/uvm/tlm1/uvm_analysis_port.py 63-76, 101-108, 135-150 (`write` of port, implementation, export).

Implementations are port numbers of `Verif.Model.Port`. The user's components are given by which methods they define and
when those raise; what else their methods do is not modelled, and they do not write to ports themselves.
-/
namespace Verif.ImpDecl
open Verif.Port

/-- An implementation object: `m_imp` (uvm_tlm_imps.py 300) and the suffix of its class. `UVMAnalysisImp` has suffix `""`
(uvm_analysis_port.py 108 calls `m_imp.write`). -/
structure Decl where
  owner : Nat
  sfx : String
deriving DecidableEq, Repr

/-- A call that a component's method received. -/
structure Got (T : Type) where
  comp : Nat
  method : String
  value : T
deriving DecidableEq, Repr

/-- Why a write did not return: the attribute is missing (`getattr`), the method raised, the fatal of `write`. -/
inductive Err where
  | noMethod (c : Nat) (m : String) | raised (c : Nat) (m : String) | notConnected
deriving DecidableEq, Repr

/-- The testbench: the implementation objects, which methods the components define, and whether a method raises
(depending on all calls received so far and on the value). -/
structure World (T : Type) where
  decl : Nat → Decl
  has : Nat → String → Bool
  raises : List (Got T) → Nat → String → T → Bool

variable {T : Type}

/-- `write` of a declared implementation, uvm_tlm_defines.py 518-519 (`getattr(self.m_imp, "write" + SFX)(t)`). -/
def impWrite (w : World T) (log : List (Got T)) (i : Nat) (t : T) : List (Got T) × Option Err :=
  let c := (w.decl i).owner
  let m := "write" ++ (w.decl i).sfx
  if w.has c m then (log ++ [⟨c, m, t⟩], if w.raises log c m t then some (.raised c m) else none)
  else (log, some (.noMethod c m))

/-- The loop of `UVMAnalysisPort.write` (uvm_analysis_port.py 70-76): an exception leaves it. -/
def deliver (w : World T) (t : T) : List Call → List (Got T) → List (Got T) × Option Err
  | [], log => (log, none)
  | .notConnected :: _, log => (log, some .notConnected)
  | .imp i :: l, log =>
    match (impWrite w log i t).2 with
    | none => deliver w t l (impWrite w log i t).1
    | some e => ((impWrite w log i t).1, some e)

/-- `write` of a port or export of the bound network `s`. -/
def write (w : World T) (s : State) (log : List (Got T)) (p : Nat) (t : T) : List (Got T) × Option Err :=
  deliver w t (Port.write s p) log

/-- Any sequence of writes: what the components received, and how each write ended (its caller gets the exception; the
others go on). -/
def writes (w : World T) (s : State) : List (Nat × T) → List (Got T) → List (Got T) × List (Option Err)
  | [], log => (log, [])
  | a :: l, log =>
    ((writes w s l (write w s log a.1 a.2).1).1, (write w s log a.1 a.2).2 :: (writes w s l (write w s log a.1 a.2).1).2)

end Verif.ImpDecl
