import Verif.Model.OvrRel
import Verif.Spec.Text
/-! # Specification vocabulary for overrides relative to a component -/
namespace Verif.OvrRel
open Verif.Factory Verif.Text

/-- The path of what is created: the context, or the parent, then the name. -/
def pathOf (name : String) (parent : Option String) (contxt : String) : String :=
  let above := if contxt = "" then parent.getD "" else contxt
  if above = "" then name else if name = "" then above else above ++ "." ++ name

/-- The path is below the component `p` and the rest of it matches the pattern. -/
def Below (p pat s : String) : Prop := ∃ sub : Str, s.toList = p.toList ++ '.' :: sub ∧ Glob pat.toList sub

/-- The text contains the name. -/
def Mentions (s p : String) : Prop := ∃ a b : Str, s.toList = a ++ p.toList ++ b

/-- A name as components have: nothing special for patterns, no newline. -/
def Name (p : String) : Prop := plain p.toList ∧ '*' ∉ p.toList ∧ '?' ∉ p.toList ∧ '/' ∉ p.toList

/-- A pattern with nothing special but `*` and `?`. -/
def Pattern (p : String) : Prop := plain p.toList ∧ '/' ∉ p.toList

/-- No instance override of the type applies at the path. -/
def NoneYet (e : Env) (f : Factory) (t : Ty) (s : String) : Prop := ∀ o ∈ queue f.inst t, e.isMatch o.path s = false

/-- No override of the type applies at the path. -/
def Final (e : Env) (f : Factory) (v : Ty) (s : String) : Prop := NoneYet e f v s ∧ ∀ o ∈ f.typeOvr, typeApplies e v o = false

end Verif.OvrRel
