import Verif.Model.Object
/-!
# Model of field registration

src/uvm/macros/uvm_object_defines.py 88-135 (`uvm_object_utils_begin`/`_end`, `uvm_component_utils_begin`/`_end`,
`uvm_field_utils_start`, the inheritance part of `_m_uvm_field_automation`), 318-331 (`uvm_field_utils_end`,
`uvm_field_val`).

Classes and field names are numbers.  `anc c` are the ancestors of a class, nearest first (single inheritance; `UVMObject`
itself registers nothing).  `attrs c a` says whether class `c` or an ancestor has a class attribute `a`.  Factory
registration is not modelled here.
-/
namespace Verif.Fields

/-- Own attributes of the classes: `auto` (a class has its own `_m_uvm_field_automation`), `names`, `masks`; and the global
`__CURR_OBJ`. -/
structure State where
  auto : Nat → Bool
  names : Nat → Option (List Nat)
  masks : Nat → Option (List (Nat × Nat))
  cur : Option Nat

def init : State := ⟨fun _ => false, fun _ => none, fun _ => none, none⟩

inductive Op where
  | start (c : Nat)
  | field (name mask : Nat)
  | finish (c : Nat)
deriving DecidableEq, Repr

/-- `getattr` on a class: the first of the class and its ancestors (`l`) that has the attribute itself. -/
def look {α : Type} (a : Nat → Option α) : List Nat → Option (Nat × α)
  | [] => none
  | c :: cs => match a c with
    | some v => some (c, v)
    | none => look a cs

def set {α : Type} (a : Nat → α) (c : Nat) (v : α) : Nat → α := fun d => if d = c then v else a d

/-- One call; the answer is `false` on an exception. -/
def step (anc : Nat → List Nat) (attrs : Nat → Nat → Bool) (s : State) : Op → State × Bool
  | .start c =>                                                     -- 106-110, 122-127, 315
    let names := if (look s.names (c :: anc c)).isNone then set s.names c (some []) else s.names
    let masks := if (look s.masks (c :: anc c)).isNone then set s.masks c (some []) else s.masks
    (⟨set s.auto c true, names, masks, some c⟩, true)
  | .field name mask =>                                             -- 323-331
    match s.cur with
    | none => (s, false)
    | some c =>
      if attrs c name then (s, false)
      else match look s.names (c :: anc c), look s.masks (c :: anc c) with
        | some (d, l), some (e, m) =>
          ({ s with names := set s.names d (some (l ++ [name])), masks := set s.masks e (some ((name, mask) :: m)) }, true)
        | _, _ => (s, false)
  | .finish c => if s.cur = some c then ({ s with cur := none }, true) else (s, false)   -- 113-119

def run (anc : Nat → List Nat) (attrs : Nat → Nat → Bool) (ops : List Op) (s : State) : State :=
  ops.foldl (fun s o => (step anc attrs s o).1) s

/-- 129-147: the fields that the automation of the class heading the list visits, in order, with the mask found for them;
the list holds the class and its ancestors. -/
def visit (s : State) : List Nat → List (Nat × Nat)
  | [] => []
  | c :: cs =>
    visit s cs ++
      (if s.auto c then
        match look s.names (c :: cs), look s.masks (c :: cs) with
        | some (_, l), some (_, m) => l.map (fun f => (f, (m.lookup f).getD 0))
        | _, _ => []
      else [])

end Verif.Fields
