import Verif.Model.Report
/-!
# Model of the message macros (src/uvm/macros/uvm_message_defines.py) and of the global report functions (src/uvm/base/uvm_globals.py)

The macros look at the local variables of their caller: `self` there, if it has report methods, makes the report.
File names, line numbers and context names are not modelled.
-/
namespace Verif.MsgMacros
open Verif.Report

/-- A report object: its handler and its queue of callbacks. -/
structure Reporter where
  h : Handler
  q : List Entry

/-- `self` among the local variables of the caller of a macro (uvm_message_defines.py 120-128): none; an object without report methods, such as a sequence or
another `UVMObject`; a report object, such as a component. -/
inductive Caller where
  | none
  | object
  | reporter (r : Reporter)

/-- uvm_report_object.py 109-125: `uvm_report_enabled`. -/
def enabled (r : Reporter) (v : Int) (s : Sev) (i : String) : Bool := decide (getVerbosity r.h s i ≥ v)

/-- uvm_report_object.py 32-38: `get_verbosity`, with UVM_LOW = 100, UVM_NONE = 0, UVM_MEDIUM = 200. -/
def severityVerbosity : Sev → Int
  | .error => 100
  | .fatal => 0
  | _ => 200

/-- uvm_report_object.py 136-137. -/
def effective (v : Int) (s : Sev) : Int := if v = -1 then severityVerbosity s else v

/-- uvm_report_object.py 127-146: `uvm_report`; `checked` says that `report_enabled_checked` is not `False` (139).  The report methods 148-211 pass their arguments on. -/
def uvmReport (w : World) (r : Reporter) (s : Sev) (i t : String) (v : Int) (checked : Bool) : Out :=
  if checked = false ∧ enabled r (effective v s) s i = false then ⟨w, [], none⟩
  else process w r.h r.q (handlerProcess r.h ⟨s, i, t, effective v s, 0, 0⟩)

/-- uvm_globals.py 113-185: `uvm_report_info`, `uvm_report_error`, `uvm_report_warning`, `uvm_report_fatal`; `root` is the root component (89-91). -/
def globalReport (w : World) (root : Reporter) (s : Sev) (i t : String) (v : Int) (checked : Bool) : Out :=
  if enabled root v s i then uvmReport w root s i t v checked else ⟨w, [], none⟩

/-- uvm_message_defines.py 115-205: the body of the four macros; the check asks the root (uvm_globals.py 77-91). -/
def macroReport (w : World) (root : Reporter) (c : Caller) (s : Sev) (i t : String) (v : Int) : Out :=
  if enabled root v s i then
    match c with
    | .reporter r => uvmReport w r s i t v true
    | .object => globalReport w root s i t v true
    | .none => globalReport w root s i t v true
  else ⟨w, [], none⟩

/-- uvm_message_defines.py 115-128. -/
def uvmInfo (w : World) (root : Reporter) (c : Caller) (i t : String) (v : Int) : Out := macroReport w root c .info i t v
/-- uvm_message_defines.py 141-154 (UVM_NONE = 0). -/
def uvmWarning (w : World) (root : Reporter) (c : Caller) (i t : String) : Out := macroReport w root c .warning i t 0
/-- uvm_message_defines.py 166-179. -/
def uvmError (w : World) (root : Reporter) (c : Caller) (i t : String) : Out := macroReport w root c .error i t 0
/-- uvm_message_defines.py 192-205. -/
def uvmFatal (w : World) (root : Reporter) (c : Caller) (i t : String) : Out := macroReport w root c .fatal i t 0

/-- uvm_message_defines.py 208-218: `uvm_info_context(ID, MSG, VERBOSITY, RO)`. -/
def uvmInfoContext (w : World) (r : Reporter) (i t : String) (v : Int) : Out :=
  if enabled r v .info i then uvmReport w r .info i t v true else ⟨w, [], none⟩
/-- uvm_message_defines.py 249-254: `uvm_error_context(ID, MSG, RO)`. -/
def uvmErrorContext (w : World) (r : Reporter) (i t : String) : Out :=
  if enabled r 0 .error i then uvmReport w r .error i t 0 true else ⟨w, [], none⟩

end Verif.MsgMacros
