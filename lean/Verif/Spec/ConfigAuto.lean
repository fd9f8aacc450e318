import Verif.Model.ConfigAuto
/-! # Words for configuration by registered fields -/
namespace Verif.ConfigAuto
open Verif.Resource (Rsrc)

/-- An ordinary name: no character that means something in a pattern or a path. -/
def ordinary (n : String) : Prop := ∀ c ∈ n.toList, c ∉ ['^', '$', '{', '}', '(', ')', '|', '+', '\\', '/', '*', '?', '[', ']', '.']

/-- What a setting of this value gives a field: nothing for values of unsupported types. -/
def given : Val → Option Val
  | .int n => some (.int n)
  | .str s => some (.str s)
  | .obj o => some (.obj o)
  | .copy o => some (.copy o)
  | .wrap o true => some (.copy o)
  | .wrap o false => some (.obj o)
  | .none => Option.none
  | .other _ => Option.none

/-- Some registration of field `x` lets it be configured. -/
def writable (fields : List Field) (x : String) : Bool := fields.any fun f => f.name == x && !f.readOnly

/-- The setting is for a registered field (or for `recording_detail`), and its name is contained in the name `x`. -/
def Touches (fields : List Field) (x : String) (r : Rsrc Val) : Prop := ((∃ g ∈ fields, g.name = r.name) ∨ r.name = "recording_detail") ∧ r.name.toList <:+: x.toList

open Classical in
/-- The values the settings have for field `x`, in order. -/
noncomputable def touching (fields : List Field) (x : String) (rs : List (Rsrc Val)) : List Val := (rs.filter (fun r => Touches fields x r)).filterMap fun r => given r.val

end Verif.ConfigAuto
