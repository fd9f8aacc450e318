import Verif.Model.Reg
import Verif.Model.RegText
/-!
# Model of finding a field by name (src/uvm/reg/uvm_reg.py) and of the text of HDL paths (src/uvm/reg/uvm_reg_model.py)
-/
namespace Verif.RegName
open Verif.Text (Str)
open Verif.RegText (dec)

/-- uvm_reg.py 506-524: `get_field_by_name`: the field and whether a warning is reported; `nm` gives the names of fields. -/
def fieldByName (nm : Reg.RF → Str) (name : Str) : List Reg.RF → Option Reg.RF × Bool
  | [] => (none, true)
  | x :: l => if nm x = name then (some x, false) else fieldByName nm name l

/-- uvm_reg_model.py 356-361 (`add_path` makes one): a slice of an HDL path. -/
structure Slice where
  path : Str
  offset : Int := -1
  size : Int := -1
deriving DecidableEq, Repr

/-- `"{}".format` of an integer. -/
def int (i : Int) : Str := if i < 0 then '-' :: dec i.natAbs else dec i.natAbs

/-- 376-382: the text of one slice. -/
def sliceText (s : Slice) : Str :=
  s.path ++ if s.offset ≥ 0 then '@' :: ('[' :: (int s.offset ++ (" +: ".toList ++ (int s.size ++ [']'])))) else []

/-- 374-382: the loop; the first slice is not preceded by a comma. -/
def slicesText : List Slice → Str
  | [] => []
  | [s] => sliceText s
  | s :: t :: l => sliceText s ++ (',' :: ' ' :: slicesText (t :: l))

/-- 366-385: `uvm_hdl_concat2string`. -/
def concatText (l : List Slice) : Str :=
  match l with
  | [s] => if s.offset = -1 ∧ s.size = -1 then s.path else '{' :: (slicesText l ++ ['}'])
  | _ => '{' :: (slicesText l ++ ['}'])

end Verif.RegName
