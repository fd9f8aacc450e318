import Verif.Model.Pool
/-!
# Model of port connection, binding resolution and analysis broadcast

src/uvm/base/uvm_port_base.py (`UVMPortBase`) and src/uvm/tlm1/uvm_analysis_port.py (`UVMAnalysisPort.write`,
`UVMAnalysisExport.write`, `UVMAnalysisImp.write`).

Ports are numbered; `nm p` is the full name of port `p` (names are decided by the component tree, see C47).  The
dicts `m_provided_by`, `m_provided_to`, `m_imp_list` are insertion-ordered association lists keyed by full name
(`Verif.Pool.assign` is `d[k] = v`).  `m_check_relationship` (557-618) only reports warnings and its result is not
used by `connect`; it is modelled in `Verif.Model.PortRel`.  Message texts are reduced to the kind of error.
-/
namespace Verif.Port
open Verif.Pool (assign lookup)

/-- `UVM_PORT`, `UVM_EXPORT`, `UVM_IMPLEMENTATION`. -/
inductive Kind where
  | port | export | imp
deriving DecidableEq, Repr

/-- One port object (`UVMPortBase.__init__` 204-216). -/
structure Node where
  kind : Kind
  mask : Nat
  minSize : Int
  maxSize : Int
  providedBy : List (String × Nat)
  providedTo : List (String × Nat)
  imps : List (String × Nat)
  resolved : Bool
deriving Repr

/-- The error reports that concern connections. -/
inductive Report where
  | tooFew (p : Nat) (n : Nat) | tooMany (p : Nat) (n : Nat)
deriving DecidableEq, Repr

/-- All ports, and the size errors reported so far. -/
structure State where
  node : Nat → Node
  reports : List Report

def setNode (s : State) (p : Nat) (n : Node) : State := { s with node := fun q => if q = p then n else s.node q }

/-- A freshly created port. -/
def fresh (kind : Kind) (mask : Nat) (minSize maxSize : Int) : Node := ⟨kind, mask, minSize, maxSize, [], [], [], false⟩

/-- Result of `connect`: done, or the error reported. -/
inductive ConnRes where
  | done | nullPort | selfPort | badInterface | fromImp | exportToPort
deriving DecidableEq, Repr

/-- `connect` 328-421. `prov = none` is a null handle. -/
def connect (nm : Nat → String) (s : State) (p : Nat) (prov : Option Nat) : State × ConnRes :=
  match prov with
  | none => (s, .nullPort)                                                            -- 383-386
  | some q =>
    if q = p then (s, .selfPort)                                                      -- 388-391
    else if (s.node q).mask &&& (s.node p).mask ≠ (s.node p).mask then (s, .badInterface)   -- 393-401
    else if (s.node p).kind = .imp then (s, .fromImp)                                 -- 404-410
    else if (s.node p).kind = .export ∧ (s.node q).kind = .port then (s, .exportToPort)     -- 413-416
    else
      let s := setNode s p { s.node p with providedBy := assign (s.node p).providedBy (nm q) q }      -- 420
      (setNode s q { s.node q with providedTo := assign (s.node q).providedTo (nm p) p }, .done)      -- 421

/-- The dict test of line 631-632. -/
def addImp (nm : Nat → String) (l : List (String × Nat)) (i : Nat) : List (String × Nat) :=
  match lookup l (nm i) with
  | some _ => l
  | none => assign l (nm i) i

/-- `m_add_list` 620-632: the implementations of the provider, in its order. -/
def addList (nm : Nat → String) (s : State) (p q : Nat) : State :=
  setNode s p { s.node p with imps := ((s.node q).imps.map (·.2)).foldl (addImp nm) (s.node p).imps }

/-- 656-666: mark resolved, check the number of implementations. -/
def finish (s : State) (p : Nat) : State :=
  let n := (s.node p).imps.length
  let s := setNode s p { s.node p with resolved := true }
  let s := if (n : Int) < (s.node p).minSize then { s with reports := s.reports ++ [.tooFew p n] } else s
  if (s.node p).maxSize ≠ -1 ∧ (n : Int) > (s.node p).maxSize then { s with reports := s.reports ++ [.tooMany p n] } else s

/-- `resolve_bindings` 644-669.  The recursion follows the connections; `n` bounds its depth (a cyclic connection
makes the real code exceed the interpreter's recursion limit). -/
def resolve (nm : Nat → String) : Nat → State → Nat → State
  | 0, s, _ => s
  | n + 1, s, p =>
    if (s.node p).resolved then s                                                     -- 645-646
    else if (s.node p).kind = .imp then                                               -- 648-649
      finish (setNode s p { s.node p with imps := assign (s.node p).imps (nm p) p }) p
    else                                                                              -- 651-654
      finish (((s.node p).providedBy.map (·.2)).foldl (fun s q => addList nm (resolve nm n s q) p q) s) p

/-- `do_resolve_bindings` (uvm_component.py 2160-2166): every port of the component tree, in some order. -/
def resolveAll (nm : Nat → String) (depth : Nat) (s : State) (order : List Nat) : State :=
  order.foldl (resolve nm depth) s

/-- `get_if` 677-690. -/
def getIf (s : State) (p : Nat) (i : Nat) : Option Nat := ((s.node p).imps[i]?).map (·.2)

/-- Effects of a `write`: the implementations called, or the fatal of line 73. -/
inductive Call where
  | imp (i : Nat) | notConnected
deriving DecidableEq, Repr

/-- `UVMAnalysisPort.write` 63-76, `UVMAnalysisExport.write` 135-150 (same text): every implementation's `write`. -/
def write (s : State) (p : Nat) : List Call :=
  (List.range (s.node p).imps.length).map (fun i => match getIf s p i with | none => .notConnected | some q => .imp q)

end Verif.Port
