import Verif.Model.Port
/-!
# Model of the display of port networks: `debug_connected_to`, `debug_provided_to` (src/uvm/base/uvm_port_base.py)

The text is kept as its lines with what they show.  The two class attributes `UVMPortBase.save` and `UVMPortBase.indent` are the state of the walk.  The four spaces
every indentation begins with are left out; the rest of an indentation is a list of pieces, `true` for `"    | "` and `false` for `"        "`.
-/
namespace Verif.PortText

/-- 457-458, 519-520: a line with a bar and a line with the full name and the type of a port, both indented. -/
structure Line where
  indent : List Bool
  name : String
  port : Nat
deriving DecidableEq, Repr

/-- `UVMPortBase.indent`, `UVMPortBase.save`. -/
structure St where
  indent : List Bool
  lines : List Line
deriving DecidableEq, Repr

/-- 453-463, 515-525: the loop over the connections; `rec` displays the port. -/
def entries (rec : Nat → St → Option St) : List (String × Nat) → St → Option St
  | [], st => some st
  | (nm, q) :: rest, st =>
    match rec q ⟨st.indent ++ [!rest.isEmpty], st.lines ++ [⟨st.indent, nm, q⟩]⟩ with
    | none => none
    | some st' => entries rec rest st'

/-- 435-463, 498-525: the recursion, below a port at a level.  `stop` is the test of the level (448, 510); `next` the connections followed (`m_provided_by`, `m_provided_to`).  The first
argument bounds the depth (a cycle exceeds the recursion limit). -/
def walk (next : Nat → List (String × Nat)) (stop : Nat → Bool) : Nat → Nat → Nat → St → Option St
  | 0, _, _, _ => none
  | n + 1, level, p, st => if stop level then some st else entries (walk next stop n (level + 1)) (next p) st

/-- What is displayed: the network (with a heading if there is any, 467-469, 529-532) and the list of implementations with indices (480-487), or, for `debug_provided_to`, whether the
port is said not to be bound (533-534). -/
structure Text where
  net : List Line
  imps : List (List Bool × Nat × String × Nat) := []
  unbound : Bool := false
deriving DecidableEq, Repr

/-- The indexed implementations, 481-487. -/
def impLines (indent : List Bool) : Nat → List (String × Nat) → List (List Bool × Nat × String × Nat)
  | _, [] => []
  | i, (nm, q) :: l => (indent, i, nm, q) :: impLines indent (i + 1) l

/-- The result of a call: nothing (the `return` of 449, 511), or the text reported and returned. -/
inductive Res where
  | nothing | text (t : Text)
deriving DecidableEq, Repr

/-- 448: `max_level`, -1 for none. -/
def stopTo (maxLevel : Int) (level : Nat) : Bool := maxLevel != -1 && decide (maxLevel ≤ level)

/-- 510. -/
def stopFrom (maxLevel : Int) (level : Nat) : Bool := maxLevel != -1 && decide (maxLevel < level)

/-- 435-489, called by a user (level 0).  474-479 do nothing: `end_of_elaboration_ph` is imported (25) before it is set, and stays `None`. -/
def connectedTo (s : Port.State) (n : Nat) (maxLevel : Int) (p : Nat) : Option Res :=
  if stopTo maxLevel 0 then some .nothing
  else
    match walk (fun q => (s.node q).providedBy) (stopTo maxLevel) n 0 p ⟨[], []⟩ with
    | none => none
    | some st => some (.text { net := st.lines, imps := impLines st.indent 0 (s.node p).imps })

/-- 498-536. -/
def providedTo (s : Port.State) (n : Nat) (maxLevel : Int) (p : Nat) : Option Res :=
  if stopFrom maxLevel 0 then some .nothing
  else
    match walk (fun q => (s.node q).providedTo) (stopFrom maxLevel) n 0 p ⟨[], []⟩ with
    | none => none
    | some st => some (.text { net := st.lines, unbound := (s.node p).providedTo.isEmpty })

end Verif.PortText
