/-!
# Model of the printers

src/uvm/base/uvm_printer.py (`UVMPrinter`, `UVMTablePrinter`, `UVMTreePrinter`), src/uvm/base/uvm_scope_stack.py, src/uvm/base/uvm_misc.py 68-218,
src/uvm/base/uvm_object.py 329-357 (`sprint`), src/uvm/macros/uvm_object_defines.py 178-198 (field automation for `UVM_PRINT`).

Texts are lists of characters.  Objects live in a heap and are named by numbers.  `do_print` of an object is a list of calls
`printer.print_object(name, obj)`.  `format_row`, `format_header` and `format_footer` are the defaults (they return `""`).  `deep` bounds the depth of
Python's recursion.  `print_object` with `None` is not modelled (the field automation skips `None`).
-/
namespace Verif.Printer

abbrev Text := List Char

/-- uvm_object_globals.py 63-76, as far as the printer tells them apart. -/
inductive Radix where
  | noradix | bin | dec | unsigned | oct | hex | string | time
deriving DecidableEq, Repr

/-- uvm_printer.py 35-41. -/
structure Row where
  level : Nat
  name : Text
  type : Text
  size : Text
  val : Text
deriving DecidableEq, Repr

/-- 466-604; `indent` is not negative. `begin_elements`, `end_elements` and `mcd` are not used here. -/
structure Knobs where
  header : Bool := true
  footer : Bool := true
  fullName : Bool := false
  identifier : Bool := true
  typeName : Bool := true
  size : Bool := true
  depth : Int := -1
  reference : Bool := true
  pre : Text := []
  indent : Nat := 2
  showRoot : Bool := false
  separator : Text := ['{', '}']
  showRadix : Bool := true
  defaultRadix : Radix := .hex

/-! ## Numbers -/

/-- A digit as `format` writes it (`:X`). -/
def digit (d : Nat) : Char := if d < 10 then Char.ofNat (48 + d) else Char.ofNat (55 + d)

/-- The digits of `n` to base `b ≥ 2`, most significant first. -/
def digitsAux (b : Nat) : Nat → Nat → Text → Text
  | 0, _, acc => acc
  | fuel + 1, n, acc => if n < b then digit n :: acc else digitsAux b fuel (n / b) (digit (n % b) :: acc)

def digits (b n : Nat) : Text := digitsAux b (n + 1) n []

/-- `"{}".format(v)`. -/
def decimal (v : Int) : Text := if v < 0 then '-' :: digits 10 v.natAbs else digits 10 v.natAbs

/-- uvm_misc.py 203-218: `num_with_radix`. -/
def numWithRadix (r : Radix) (pre : Text) (v : Nat) : Text := match r with
  | .bin => pre ++ digits 2 v
  | .hex => pre ++ digits 16 v
  | _ => pre ++ digits 10 v

/-- 68-92: `uvm_bitstream_to_string`, `size ≥ 1`; `value & mask` is the remainder; `value >> (size-1)` is not 0 unless `0 ≤ value < 2^(size-1)`. -/
def bitstreamToString (v : Int) (size : Nat) (r : Radix) (pre : Text) : Text :=
  if r = .dec ∧ ¬ (0 ≤ v ∧ v < 2 ^ (size - 1)) then decimal v
  else numWithRadix r pre (v % 2 ^ size).toNat

/-- 95-119: `uvm_integral_to_string`: the top bit must be the only one left. -/
def integralToString (v : Int) (size : Nat) (r : Radix) (pre : Text) : Text :=
  if r = .dec ∧ v / 2 ^ (size - 1) = 1 then decimal v
  else numWithRadix r pre (v % 2 ^ size).toNat

/-- uvm_printer.py 606-621: `get_radix_str`. -/
def radixStr (k : Knobs) (r : Radix) : Text :=
  if k.showRadix = false then []
  else match (if r = .noradix then k.defaultRadix else r) with
    | .bin => ['\'', 'b']
    | .oct => ['\'', 'o']
    | .dec => ['\'', 'd']
    | .hex => ['\'', 'h']
    | .unsigned => ['\'', 'd']
    | _ => []

/-! ## The scope stack -/

/-- The state of the printer; `stack`: bottom first; `busy`: the keys of `cycle_check`. -/
structure St where
  stack : List Text := []
  arg : Text := []
  rows : List Row := []
  busy : List Nat := []

/-- uvm_scope_stack.py 37, 80: the text begins with a bracket. -/
def bracket (t : Text) : Bool := match t with
  | c :: _ => c == '[' || c == '(' || c == '{'
  | [] => false

/-- 36-41: one level of the loop. -/
def getStep (g v : Text) : Text := if bracket v then g ++ v else g ++ '.' :: v

/-- 30-48: `get`. -/
def scopeGet (stack : List Text) (arg : Text) : Text := match stack with
  | [] => arg
  | s :: rest =>
    let g := rest.foldl getStep s
    if arg ≠ [] then (if g ≠ [] then g ++ '.' :: arg else arg) else g

/-- 76-85: popping, top first. -/
def popScopes : List Text → List Text
  | [] => []
  | s :: rest => if bracket s then popScopes rest else rest

/-- 74-87: `up(".")`: pops until a level that does not begin with a bracket has been popped. -/
def upStack (stack : List Text) : List Text := (popScopes stack.reverse).reverse

/-- uvm_misc.py 142-187: `uvm_leaf_scope(full_name, ".")`: without a dot, the name; else what follows the last dot, but a dot in the first place is not
found and the loop ends at position 1. -/
def leafScope (t : Text) : Text :=
  if '.' ∉ t then t
  else if '.' ∈ t.drop 1 then (t.reverse.takeWhile (· ≠ '.')).reverse
  else if t.length ≤ 1 then t
  else t.drop 2

/-- uvm_printer.py 275-287: `adjust_name(id)`. -/
def adjustName (k : Knobs) (depth : Nat) (id : Text) : Text :=
  if (k.showRoot && depth == 0) || k.fullName || id == ['.', '.', '.'] then id else leafScope id

/-! ## Objects -/

/-- The value of an attribute; `other`: a list, a float, ... -/
inductive Val where
  | none | int (v : Int) | str (s : Text) | obj (o : Nat) | other
deriving DecidableEq, Repr

/-- A field: its name and its flags, as far as printing uses them (uvm_object_defines.py 181, 190); `radix`: those of `UVM_RADIX`. -/
structure Field where
  name : Text
  print : Bool := true
  noprint : Bool := false
  reference : Bool := false
  radix : Radix := .noradix

/-- An object; `children` are those of a component, with `print_enabled`; `extra`: what `do_print` prints. -/
structure Obj where
  name : Text
  fullName : Text
  type : Text
  id : Nat
  children : List (Nat × Bool) := []
  fields : List (Field × Val) := []
  extra : List (Text × Nat) := []

abbrev Heap := Nat → Obj

inductive Err where
  | raised | recursion
deriving DecidableEq, Repr

/-- uvm_misc.py 122-139: `uvm_object_value_str`. -/
def valueStr (ob : Obj) : Text := '@' :: digits 10 ob.id

def unnamed : Text := ['<', 'u', 'n', 'n', 'a', 'm', 'e', 'd', '>']

/-- uvm_printer.py 188-197: the name under which an object is printed. -/
def headerName (ob : Obj) (name : Text) (depth : Nat) : Text :=
  let n := if name = [] then (if depth = 0 then ob.fullName else ob.name) else name
  if n = [] then unnamed else n

/-- 177-219: `print_object_header`. -/
def printHeader (k : Knobs) (ob : Obj) (name : Text) (st : St) : St :=
  let arg := headerName ob name st.stack.length
  let lvl := st.stack.length
  let nm := if lvl = 0 ∧ k.showRoot then ob.fullName else adjustName k lvl (scopeGet st.stack arg)
  { st with arg := arg, rows := st.rows ++ [⟨lvl, nm, ob.type, ['-'], if k.reference then valueStr ob else ['-']⟩] }

/-- 314-361: `print_field` with the size 32 of an `int` (sv.py 143-146) and the radix `what__ & UVM_RADIX`, which is 0 (uvm_object_defines.py 188; `UVM_PRINT`
is `1 << 4`): the radix of the field is not used. -/
def printInt (k : Knobs) (f : Field) (v : Int) (st : St) : St :=
  let arg := if f.name = [] then st.arg else f.name
  let id := if f.name = [] then [] else scopeGet st.stack arg
  { st with arg := arg, rows := st.rows ++ [⟨st.stack.length, adjustName k st.stack.length id, ['i', 'n', 't', 'e', 'g', 'r', 'a', 'l'], digits 10 32,
      bitstreamToString v 32 k.defaultRadix (radixStr k k.defaultRadix)⟩] }

/-- 415-429: `print_string`. -/
def printString (k : Knobs) (name : Text) (s : Text) (st : St) : St :=
  let arg := if name = [] then st.arg else name
  { st with arg := arg, rows := st.rows ++ [⟨st.stack.length, adjustName k st.stack.length (scopeGet st.stack arg), ['s', 't', 'r', 'i', 'n', 'g'], digits 10 s.length,
      if s = [] then ['"', '"'] else s⟩] }

/-- uvm_object_defines.py 178-198: one field; `rec name o` is `print_object`. -/
def printField (k : Knobs) (h : Heap) (rec : Text → Nat → St → Except Err St) (f : Field × Val) (st : St) : Except Err St :=
  if f.1.noprint = false ∧ f.1.print = true then
    match f.2 with
    | .none => .ok st
    | .int v => .ok (printInt k f.1 v st)
    | .obj o => if f.1.reference then .ok (printHeader k (h o) f.1.name st) else rec f.1.name o st
    | .str s => .ok (printString k f.1.name s st)
    | .other => .error .raised
  else .ok st

def each {α : Type} (f : α → St → Except Err St) : List α → St → Except Err St
  | [], st => .ok st
  | x :: xs, st => match f x st with
    | .ok st => each f xs st
    | .error e => .error e

/-- uvm_printer.py 250-256: one child component. -/
def printChild (rec : Text → Nat → St → Except Err St) (c : Nat × Bool) (st : St) : Except Err St := if c.2 then rec [] c.1 st else .ok st

/-- 221-265: `print_object`; 259 calls `sprint` (uvm_object.py 348-357): if the printer is at the top again it prints the object as a whole and drops the
rows (`emit`), else its fields and what `do_print` prints. -/
def printObject (k : Knobs) (h : Heap) : Nat → Text → Nat → St → Except Err St
  | 0, _, _, _ => .error .recursion
  | n + 1, name, o, st =>
    let st := printHeader k (h o) name st
    if (k.depth = -1 ∨ k.depth > st.stack.length) ∧ o ∉ st.busy then
      let st := { st with busy := o :: st.busy, stack := st.stack ++ [if name = [] then (h o).name else name], arg := [] }
      match each (printChild (printObject k h n)) (h o).children st with
      | .error e => .error e
      | .ok st =>
        match (if st.stack = [] then
            match printObject k h n (h o).name o st with
            | .ok st => .ok { st with rows := [] }
            | .error e => .error e
          else match each (printField k h (printObject k h n)) (h o).fields st with
            | .ok st => each (fun x => printObject k h n x.1 x.2) (h o).extra st
            | .error e => .error e : Except Err St) with
        | .error e => .error e
        | .ok st => .ok { st with stack := upStack st.stack, arg := [], busy := st.busy.erase o }
    else .ok st

/-! ## The table printer -/

/-- `space[1:k]` of a text of `m` equal characters. -/
def slice (c : Char) (m k : Nat) : Text := List.replicate (min m k - 1) c

structure Widths where
  name : Nat
  type : Nat
  size : Nat
  val : Nat

/-- uvm_printer.py 658-669: one row. -/
def widen (k : Knobs) (w : Widths) (r : Row) : Widths :=
  ⟨max w.name (k.indent * r.level + r.name.length), max w.type r.type.length, max w.size r.size.length, max w.val r.val.length⟩

/-- 653-669: `calculate_max_widths`. -/
def widths (k : Knobs) (rows : List Row) : Widths := rows.foldl (widen k) ⟨4, 4, 4, 5⟩

/-- 688-692: the length of `dash` and `space`. -/
def fill (w : Widths) : Nat := max (max (max w.name w.type) (max w.size w.val)) 100

/-- 724-733: the text of a row, without the line feed.  The widths are at least the lengths, so no bound is negative. -/
def tableRow (k : Knobs) (w : Widths) (r : Row) : Text :=
  let m := fill w
  (if k.identifier then slice ' ' m (r.level * k.indent) ++ r.name ++ slice ' ' m (w.name + 2 - r.name.length - r.level * k.indent) else [])
  ++ (if k.typeName then r.type ++ slice ' ' m (w.type + 2 - r.type.length) else [])
  ++ (if k.size then r.size ++ slice ' ' m (w.size + 2 - r.size.length) else [])
  ++ r.val ++ slice ' ' m (w.val - r.val.length)

/-- 704-714: the dashes, without the line feed. -/
def tableDashes (k : Knobs) (w : Widths) : Text :=
  let m := fill w
  (if k.identifier then slice '-' m (w.name + 2) else []) ++ (if k.typeName then slice '-' m (w.type + 2) else [])
  ++ (if k.size then slice '-' m (w.size + 2) else []) ++ slice '-' m w.val

/-- 704-714: the heading. -/
def tableHeading (k : Knobs) (w : Widths) : Text :=
  let m := fill w
  (if k.identifier then ['N', 'a', 'm', 'e'] ++ slice ' ' m (w.name - 2) else []) ++ (if k.typeName then ['T', 'y', 'p', 'e'] ++ slice ' ' m (w.type - 2) else [])
  ++ (if k.size then ['S', 'i', 'z', 'e'] ++ slice ' ' m (w.size - 2) else []) ++ ['V', 'a', 'l', 'u', 'e'] ++ slice ' ' m (w.val - 5)

/-- 671-745: `UVMTablePrinter.emit`: the lines; each is followed by a line feed and begins with the prefix, the last line being the prefix alone. -/
def tableLines (k : Knobs) (rows : List Row) : List Text :=
  let w := widths k rows
  (if k.header then [tableDashes k w, tableHeading k w, tableDashes k w] else [])
  ++ rows.map (tableRow k w)
  ++ (if k.footer ∧ k.header then [tableDashes k w] else [])

def tableEmit (k : Knobs) (rows : List Row) : Text :=
  k.pre ++ ((tableLines k rows).map fun l => l ++ '\n' :: k.pre).flatten

/-! ## The tree printer -/

/-- The pieces of the output of the tree printer: `sep i`: the separator with index `i` (empty if it is not there). -/
inductive Piece where
  | txt (t : Text) | sep (i : Nat) | feed
deriving DecidableEq, Repr

/-- 801-819: the beginning of a row; 810-813 and 818: the tests on the texts are always true. -/
def treeHead (k : Knobs) (r : Row) : Text :=
  (if k.identifier then List.replicate (min 100 (r.level * k.indent) - 1) ' ' ++ r.name
    ++ (if r.name ≠ [] ∧ r.name ≠ ['.', '.', '.'] then [':', ' '] else []) else [])
  ++ (if r.val.head? = some '@' then '(' :: r.type ++ r.val ++ [')', ' '] else if k.typeName then '(' :: r.type ++ [')', ' '] else [])
  ++ (if k.size then '(' :: r.size ++ [')', ' '] else [])

/-- 841-846: the closing separators, from level `a - 1` down to `b`. -/
def treeClose (k : Knobs) (a b : Nat) : List Piece :=
  ((List.range (a - b)).map fun i => [Piece.txt (List.replicate (min 100 ((a - 1 - i) * k.indent + 1) - 1) ' '), .sep 1, .feed]).flatten

/-- 794-846: the rows; `rest` begins with the next row. -/
def treeRows (k : Knobs) : List Row → List Piece
  | [] => []
  | r :: rest =>
    (match rest with
      | nx :: _ => if nx.level > r.level then [.txt (treeHead k r), .sep 0, .feed]
        else [.txt (treeHead k r), .txt (r.val ++ [' ']), .feed] ++ treeClose k r.level nx.level
      | [] => [.txt (treeHead k r), .txt (r.val ++ [' ']), .feed] ++ treeClose k r.level 0)
    ++ treeRows k rest

/-- 783-786, 824-826, 844-846: a piece as text. -/
def pieceText (k : Knobs) (newline : Text) : Piece → Text
  | .txt t => t
  | .sep i => (k.separator[i]?).toList
  | .feed => if newline = [] ∨ newline = [' '] then newline else newline ++ k.pre

/-- 776-861: `emit`. -/
def treeEmit (k : Knobs) (newline : Text) (rows : List Row) : Text :=
  k.pre ++ ((treeRows k rows).map (pieceText k newline)).flatten ++ (if newline = [] ∨ newline = [' '] then ['\n'] else [])

/-- uvm_object.py 329-357: `sprint(printer)` of an idle printer: the text, and the printer afterwards. -/
def sprint (k : Knobs) (h : Heap) (deep : Nat) (emit : List Row → Text) (o : Nat) (st : St) : Except Err (Text × St) :=
  match printObject k h deep (h o).name o st with
  | .ok st => .ok (emit st.rows, { st with rows := [] })
  | .error e => .error e

end Verif.Printer
