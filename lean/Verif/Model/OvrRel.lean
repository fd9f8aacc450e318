import Verif.Model.Factory
import Verif.Model.Text
/-!
# Model of the overrides and creations of a type id relative to a component (src/uvm/base/uvm_registry.py)

`UVMComponentRegistry` and `UVMObjectRegistry` have the same code.  Paths are matched by `uvm_is_match` as modelled in `Verif.Model.Text`.
-/
namespace Verif.OvrRel
open Verif.Factory

/-- uvm_factory.py 981-986 with uvm_globals.py 240-250: paths are matched by `uvm_is_match` (patterns outside the modelled part of
`re` match nothing here; the theorems do not use them). -/
def env (name : Ty → String) : Env := ⟨name, fun p s => Text.isMatch p.toList s.toList == some true⟩

/-- uvm_registry.py 217-221, 363-367: the path of an override; `parent` is the full name of the parent. -/
def relPath (inst : String) : Option String → String
  | none => inst
  | some p => if inst = "" then p else p ++ "." ++ inst

/-- uvm_registry.py 196-224, 340-368: `set_inst_override`. -/
def setInst (e : Env) (f : Factory) (o v : Ty) (inst : String) (parent : Option String) : Factory :=
  Factory.setInst e f o v (relPath inst parent)

/-- uvm_registry.py 150-151, 309-310: the context of a creation. -/
def context (parent : Option String) (contxt : String) : String :=
  match parent with
  | some p => if contxt = "" then p else contxt
  | none => contxt

/-- uvm_registry.py 130-152, 292-311: `create`: the type that is made. -/
def create (e : Env) (f : Factory) (fuel : Nat) (t : Ty) (name : String) (parent : Option String) (contxt : String) : Res :=
  createByType e f fuel t (context parent contxt) name

end Verif.OvrRel
