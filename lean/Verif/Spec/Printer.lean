import Verif.Model.Printer
/-! # What is printed of an object -/
namespace Verif.Printer

/-- A name: not empty, without dots, not beginning with a bracket. -/
def GoodName (t : Text) : Prop := t ≠ [] ∧ '.' ∉ t ∧ ∀ c, t.head? = some c → c ≠ '[' ∧ c ≠ '(' ∧ c ≠ '{'

/-- The names with dots between them. -/
def dotted : List Text → Text
  | [] => []
  | s :: rest => s ++ rest.flatMap ('.' :: ·)

/-- The name shown for `name` inside `path`. -/
def shown (k : Knobs) (path : List Text) (name : Text) : Text := if k.fullName then dotted (path ++ [name]) else name

/-- The row of an object. -/
def objectRow (k : Knobs) (ob : Obj) (path : List Text) (name : Text) : Row :=
  ⟨path.length, if path = [] ∧ k.showRoot then ob.fullName else shown k path name, ob.type, ['-'], if k.reference then '@' :: digits 10 ob.id else ['-']⟩

/-- The rows of a field; `rec name o`: those of an object. -/
def fieldRows (k : Knobs) (h : Heap) (rec : Text → Nat → List Row) (path : List Text) (f : Field × Val) : List Row :=
  if f.1.noprint = false ∧ f.1.print = true then
    match f.2 with
    | .int v => [⟨path.length, shown k path f.1.name, ['i', 'n', 't', 'e', 'g', 'r', 'a', 'l'], ['3', '2'], bitstreamToString v 32 k.defaultRadix (radixStr k k.defaultRadix)⟩]
    | .str s => [⟨path.length, shown k path f.1.name, ['s', 't', 'r', 'i', 'n', 'g'], digits 10 s.length, if s = [] then ['"', '"'] else s⟩]
    | .obj o => if f.1.reference then [objectRow k (h o) path f.1.name] else rec f.1.name o
    | _ => []
  else []

/-- The rows of an object: its own, followed, one level deeper, by those of its children, of its fields in order, and of what its `do_print` prints. These
are left out for an object that is being printed further up (`busy`), and below the depth of the knobs. `d` bounds the nesting. -/
def rowsOf (k : Knobs) (h : Heap) : Nat → List Text → List Nat → Text → Nat → List Row
  | 0, _, _, _, _ => []
  | d + 1, path, busy, name, o =>
    objectRow k (h o) path name ::
      (if (k.depth = -1 ∨ k.depth > path.length) ∧ o ∉ busy then
        ((h o).children.filter (·.2)).flatMap (fun c => rowsOf k h d (path ++ [name]) (o :: busy) (h c.1).name c.1)
        ++ (h o).fields.flatMap (fieldRows k h (rowsOf k h d (path ++ [name]) (o :: busy)) (path ++ [name]))
        ++ (h o).extra.flatMap (fun x => rowsOf k h d (path ++ [name]) (o :: busy) x.1 x.2)
      else [])

/-- The objects in `dom` have good names, fields that can be printed, and refer only to each other. -/
structure Printable (h : Heap) (dom : List Nat) : Prop where
  name : ∀ o ∈ dom, GoodName (h o).name
  field : ∀ o ∈ dom, ∀ f ∈ (h o).fields, GoodName f.1.name ∧ f.2 ≠ .other ∧ ∀ q, f.2 = .obj q → q ∈ dom
  extra : ∀ o ∈ dom, ∀ x ∈ (h o).extra, GoodName x.1 ∧ x.2 ∈ dom
  child : ∀ o ∈ dom, ∀ c ∈ (h o).children, c.1 ∈ dom

/-- The value of digits. -/
def digitValue (c : Char) : Nat := if c.toNat < 58 then c.toNat - 48 else c.toNat - 55

def valueOf (b : Nat) (t : Text) : Nat := t.foldl (fun a c => a * b + digitValue c) 0

end Verif.Printer
