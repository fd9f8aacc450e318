import Verif.Model.Policy
/-
Specification of access policies by name: which names are known after a history, and what the names of actions are.
-/

namespace Verif.Policy.Spec

open Policy (Str Op)

/-- The built-in policies, as the user guide lists them. -/
def builtin : List Str :=
  ["RO", "RW", "RC", "RS", "WRC", "WRS", "WC", "WS", "WSRC", "WCRS", "W1C", "W1S", "W1T", "W0C", "W0S", "W0T", "W1SRC", "W1CRS",
   "W0SRC", "W0CRS", "WO", "WOC", "WOS", "W1", "WO1"].map String.toList

/-- A name in capitals is known after a history: it is built in or was defined, in any case of letters. -/
def Known (ops : List Op) (n : Str) : Prop := n ∈ builtin ∨ ∃ x, Op.define x ∈ ops ∧ x.map Char.toUpper = n

/-- The field was made in the history. -/
def Made (ops : List Op) (f : Nat) : Prop := Op.new f ∈ ops

/-- The operation gives field `f` its policy: it configures it, makes it anew, or sets it to a policy known at that time. -/
def touches (f : Nat) : Op → Bool
  | .define _ => false
  | .new g => g == f
  | .configure g .. => g == f
  | .setAccess g _ => g == f

/-- The policies a map with read-only rights leaves nothing of: the field can only be written. -/
def writeOnly : List Str := ["WO", "WOC", "WOS", "WO1"].map String.toList

/-- The pre-defined policies whose fields can be written as they are: for these, and only these, `is_rand` counts. -/
def randomizable : List Str := ["RW", "WRC", "WRS", "WO", "W1", "WO1"].map String.toList

/-- The actions and their names, in the order they are printed. -/
def actionNames : List (Nat × String) :=
  [(0, "DISPLAY"), (1, "LOG"), (6, "RM_RECORD"), (2, "COUNT"), (4, "CALL_HOOK"), (3, "EXIT"), (5, "STOP")]

/-- The names of the actions set, in that order, each followed by a space. -/
def actionText (a : Nat) : Str := (actionNames.filter (fun p => a.testBit p.1)).flatMap fun p => p.2.toList ++ [' ']

end Verif.Policy.Spec
