/-!
# Model of `sv.value_plusargs` and `sv.test_plusargs` (src/uvm/base/sv.py 270-288)

`cocotb.plusargs` is a dict in insertion order: for `+NAME=VALUE` it has the key NAME (the text before the first `=`) with the text VALUE, for
`+NAME` the key NAME with the value True.  `V` is the type of these values.  Texts are lists of characters.
-/
namespace Verif.PlusArgs
variable {V : Type}

/-- How the comparison of one name ends: another character (`break`), all characters compared, or an index beyond the end (IndexError). -/
inductive Cmp where
  | differs | same | raises
deriving DecidableEq, Repr

/-- 283-287: the loop over the characters of `full_arg`, compared with `arg_str` at the same index.  An empty `full_arg` does not occur. -/
def scan : List Char → List Char → Cmp
  | [], _ => .differs                              -- no character at all: nothing is appended
  | _ :: _, [] => .raises                          -- arg_str[i]
  | [c], a :: _ => if c ≠ a then .differs else .same
  | c :: c' :: l, a :: as => if c ≠ a then .differs else scan (c' :: l) as

/-- What a call does: the value appended to `arr` and returned, nothing (None is returned), or IndexError. -/
inductive Res (V : Type) where
  | value (v : V) | none | raised
deriving DecidableEq, Repr

/-- 279-288. -/
def valuePlusargs (args : List (List Char × V)) (argStr : List Char) : Res V :=
  match args with
  | [] => .none
  | (name, v) :: l =>
    match scan (name ++ ['=']) argStr with
    | .differs => valuePlusargs l argStr
    | .same => .value v
    | .raises => .raised

/-- 271-276: `none` is IndexError. -/
def testPlusargs (args : List (List Char × V)) (name : List Char) : Option Bool :=
  match valuePlusargs args name with
  | .value _ => some true
  | .none => some false
  | .raised => none

end Verif.PlusArgs
