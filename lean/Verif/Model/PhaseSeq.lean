/-!
# Model of default sequences of phases: `start_phase_sequence`, `stop_phase_sequence` (src/uvm/seq/uvm_sequencer_base.py)

The look-up (278-280) is in `Verif.Model.Resource`; here are the resources it returns.  What is seen: which sequence is started for which phase.
-/
namespace Verif.PhaseSeq

/-- The class of an object that `isinstance(rsrc, UVMConfigDb)` is asked about (sv.py 167-172): `UVMResource` (uvm_config_db.py 229, uvm_resource_db.py) is
not derived from `UVMConfigDb`, which is derived from `UVMResourceDb` (uvm_config_db.py 66). -/
inductive Class where
  | object | resourceBase | resource | resourceDb | configDb
deriving DecidableEq, Repr

/-- The base class. -/
def Class.base : Class → Option Class
  | .object => none
  | .resourceBase => some .object
  | .resource => some .resourceBase
  | .resourceDb => none
  | .configDb => some .resourceDb

/-- `isinstance`, for an object of class `c`. -/
def isInstance : Nat → Class → Class → Bool
  | 0, _, _ => false
  | n + 1, c, t => c == t || (match c.base with | none => false | some b => isInstance n b t)

/-- What the value of a resource is: a sequence, a class registered with the factory (of sequences or not), nothing. -/
inductive Val where
  | seq (i : Nat) | wrapper (type : Nat) (isSeq : Bool) | none
deriving DecidableEq, Repr

/-- A resource found: its class and its value. -/
structure Rsrc where
  cls : Class
  val : Val
deriving DecidableEq, Repr

/-- What `start_phase_sequence` ends with. -/
inductive Res where
  | started (seq : Val) | disabled | notASequence | noDefault
deriving DecidableEq, Repr

/-- 284-328: the loop over the resources found, in the order of precedence: the first that is a `UVMConfigDb` decides (the cast is to `UVMConfigDb` in both branches,
295 and 304, so the second is reached only if the first fails, when it fails too). -/
def start : List Rsrc → Res
  | [] => .noDefault
  | r :: rs =>
    if isInstance 5 r.cls .configDb then
      match r.val with
      | .none => .disabled
      | v => .started v
    else start rs

/-- Uvm_config_db.py 228-240: the resource made by `UVMConfigDb.set(cntxt, "...main_phase", "default_sequence", v)`. -/
def setting (v : Val) : Rsrc := ⟨.resource, v⟩

end Verif.PhaseSeq
