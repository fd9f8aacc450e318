import Verif.Util.Machine
/-!
# Model of component names and parent/child links

src/uvm/base/uvm_component.py 160-281 (`__init__`), 291-341, 375-390 (`get_parent`, `get_full_name`, `get_children`,
`get_child`, `get_num_children`, `has_child`), 392-405 (`set_name`), 407-442 (`lookup`), 445-460 (`get_depth`), 2140-2157
(`m_set_full_name`), 2180-2203 (`m_extract_name`), 2552-2563 (`m_add_child`).

Components are numbered in order of creation; 0 is the root.  `m_children` (a dictionary in insertion order) and
`m_children_ordered` get the same components in the same order, so one list stands for both.  `uvm_fatal` raises
(`UVMRoot.die`), so a refused construction leaves the tree as it is.  Names are lists of characters.  Domains, configuration
and reporting in the constructor are not modelled here.
-/
namespace Verif.Component

abbrev Name := List Char

structure Comp where
  parent : Option Nat
  leaf : Name
  full : Name                         -- `m_name`
  children : List (Name × Nat)

/-- All components (those below `next` exist), and whether the build phase is done. -/
structure State where
  comp : Nat → Comp
  next : Nat
  built : Bool

/-- Only the root, 211-215. -/
def init : State := ⟨fun _ => ⟨none, [], [], []⟩, 1, false⟩

def upd (s : State) (c : Nat) (x : Comp) : State := { s with comp := fun d => if d = c then x else s.comp d }

/-- 301-313. -/
def getFullName (s : State) (c : Nat) : Name := if (s.comp c).full = [] then (s.comp c).leaf else (s.comp c).full

/-- 2146-2153: the value given to `m_name`. -/
def fullOf (s : State) (c : Nat) : Name :=
  match (s.comp c).parent with
  | none => (s.comp c).leaf
  | some p => if p = 0 then (s.comp c).leaf else getFullName s p ++ '.' :: (s.comp c).leaf

/-- 2140-2157: `m_set_full_name`; `fuel` bounds the depth of the tree below the component. -/
def setFullName : Nat → Nat → State → State
  | 0, _, s => s
  | n + 1, c, s =>
    let s := upd s c { s.comp c with full := fullOf s c }
    (s.comp c).children.foldl (fun s x => setFullName n x.2 s) s

/-- 392-405: `set_name`; the answer says whether the name was accepted. -/
def setName (s : State) (c : Nat) (name : Name) : State × Bool :=
  if (s.comp c).full ≠ [] then (s, false)
  else (setFullName (s.next + 1) c (upd s c { s.comp c with leaf := name }), true)

/-- 382-390, 333-341. -/
def getChild (s : State) (c : Nat) (name : Name) : Option Nat := (s.comp c).children.lookup name

/-- `"COMP_" + str(UVMObject.m_inst_count)`. -/
def genName (inst : Nat) : Name := "COMP_".toList ++ (Nat.toDigits 10 inst)

/-- 160-281: `UVMComponent(name, parent)`, with `inst` the number of objects created so far; the answer is the new
component, or `none` for a fatal error. -/
def new (s : State) (name : Name) (parent : Option Nat) (inst : Nat) : State × Option Nat :=
  if s.built then (s, none)                                                       -- 226-231
  else
    let name := if name = [] then genName inst else name                          -- 233-234
    let p := parent.getD 0                                                        -- 240-241
    if (getChild s p name).isSome then (s, none)                                  -- 249-260
    else
      let c := s.next
      let s : State := { upd s c ⟨some p, name, [], []⟩ with next := s.next + 1 }   -- 262
      let s := (setName s c name).1                                               -- 264
      (upd s p { s.comp p with children := (s.comp p).children ++ [(name, c)] }, some c)   -- 265

/-- 2180-2203. -/
def extractName (name : Name) : Name × Name :=
  let i := min (name.findIdx (· == '.')) (name.length - 1)
  if i + 1 = name.length then (name, []) else (name.take i, name.drop (i + 1))

/-- 407-442: `lookup`, with `fuel` for the recursion on the rest of the name. -/
def lookup (s : State) : Nat → Nat → Name → Option Nat
  | 0, _, _ => none
  | n + 1, c, name =>
    let x := extractName name
    let y := if x.1 = [] then (0, extractName x.2) else (c, x)
    match getChild s y.1 y.2.1 with
    | none => none
    | some d => if y.2.2 ≠ [] then lookup s n d y.2.2 else some d

/-- 445-460. -/
def getDepth (s : State) (c : Nat) : Nat :=
  if (s.comp c).full = [] then 0 else 1 + (s.comp c).full.count '.'

inductive Op where
  | new (name : Name) (parent : Option Nat) (inst : Nat)
  | setName (c : Nat) (name : Name)
  | buildDone
deriving DecidableEq, Repr

/-- One call; calls on components that do not exist are no calls. -/
def step (s : State) : Op → State × Option Nat
  | .new name parent inst => if parent.getD 0 < s.next then new s name parent inst else (s, none)
  | .setName c name => if c < s.next then ((setName s c name).1, none) else (s, none)
  | .buildDone => ({ s with built := true }, none)

end Verif.Component
