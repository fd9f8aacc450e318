/-!
# Model of copies of register items and of indirect registers

src/uvm/base/uvm_object.py 282-299 (`clone`), 511-539 (`copy`), src/uvm/reg/uvm_reg_item.py 198-229 (`do_copy`), src/uvm/reg/uvm_reg_indirect.py 354-410
(`uvm_reg_indirect_ftdr_seq.body`), 148-168 (`do_predict`), src/uvm/reg/uvm_reg.py 1252-1276 (`XatomicX`).

Of an item the model has the element, the kind, the list of values (by reference, first value only), the status, and one more field `map` that stands for the
others that are copied like it.  An access by the built-in front door is: one bus operation with the kind and value of the item, and a status from the device
(see `RegAccess` for the rest).
-/
namespace Verif.RegIndirect

inductive Kind where
  | read | write
deriving DecidableEq, Repr

/-- `values` is a reference to the list of values. -/
structure Item where
  element : Option Nat := none
  kind : Kind := .read
  values : Nat
  ok : Bool := true
  map : Option Nat := none
deriving DecidableEq, Repr

/-- Items and lists by number; the keys of `uvm_global_copy_map`; `UVMObject.depth`; the bus operations so far; for each register the item that holds its token. -/
structure St where
  items : Nat → Item
  lists : Nat → Nat
  next : Nat
  copyMap : List Nat := []
  depth : Int := 0
  bus : List (Nat × Kind × Nat) := []
  token : Nat → Option Nat := fun _ => none

def setItem (s : St) (i : Nat) (x : Item) : St := { s with items := fun j => if j = i then x else s.items j }
def setVal (s : St) (l v : Nat) : St := { s with lists := fun j => if j = l then v else s.lists j }

/-- uvm_reg_item.py 113-137: a new item has its own list with a 0. -/
def create (s : St) : St × Nat :=
  ({ setVal (setItem s s.next { values := s.next }) s.next 0 with next := s.next + 1 }, s.next)

/-- uvm_reg_item.py 214-229 without the call of `copy`: the list is taken over by reference. -/
def assignAll (s : St) (dst src : Nat) : St :=
  setItem s dst { element := (s.items src).element, kind := (s.items src).kind, values := (s.items src).values, ok := (s.items src).ok, map := (s.items src).map }

/-- uvm_object.py 523-525: the begin of `copy`: `depth` is set to 0; `true`: `rhs` is in the table, return at once. -/
def enter (s : St) (src : Nat) : St × Bool := ({ s with depth := 0 }, decide (src ∈ s.copyMap))

/-- 537-539: the end of `copy`. -/
def leave (s : St) : St := if s.depth - 1 = 0 then { s with depth := s.depth - 1, copyMap := [] } else { s with depth := s.depth - 1 }

/-- 511-539 with uvm_reg_item.py 214: `do_copy` calls `copy` again, which finds `rhs` in the table. -/
def copy (s : St) (dst src : Nat) : St :=
  let r := enter s src
  if r.2 then r.1
  else
    let s := { r.1 with copyMap := src :: r.1.copyMap, depth := r.1.depth + 1 }
    let s := (enter s src).1
    leave (assignAll s dst src)

/-- 282-299. -/
def clone (s : St) (src : Nat) : St × Nat := (copy (create s).1 (create s).2 src, (create s).2)

/-- Copying an object of another class that does not call `copy` in its `do_copy`. -/
def otherCopy (s : St) (key : Nat) : St :=
  let r := enter s key
  if r.2 then r.1 else leave { r.1 with copyMap := key :: r.1.copyMap, depth := r.1.depth + 1 }

/-- A device: which operations it accepts; `copies`: the bus agent copies these objects while the operation runs. -/
structure Device where
  accepts : Nat → Nat → Bool
  readData : Nat → Nat
  copies : List Nat

/-- uvm_reg.py 1389-1510, `uvm_reg_map.py` 1393: the bus operation has the kind of the item. -/
def access (d : Device) (s : St) (i : Nat) (reg : Nat) : St :=
  let x := s.items i
  let s := d.copies.foldl otherCopy s
  let s := { s with bus := s.bus ++ [(reg, x.kind, s.lists x.values)] }
  setItem s i { x with element := some reg, ok := d.accepts reg (s.lists x.values) }

/-- uvm_reg.py 1262-1270: `XatomicX(1, rw)`; `none`: waits. -/
def lock (s : St) (reg i : Nat) : Option St :=
  if s.token reg = some i then some s
  else if s.token reg = none then some { s with token := fun r => if r = reg then some i else s.token r }
  else none

/-- 1272-1276: `XatomicX(0)`. -/
def unlock (s : St) (reg : Nat) : St := { s with token := fun r => if r = reg then none else s.token r }

/-- uvm_reg_indirect.py 395-410: the access to the data register after the index was written. -/
def finish (d : Device) (addr data rwInfo : Nat) (s : St) : St :=
  let c := clone s rwInfo
  let rw := c.2
  let s := setItem c.1 rw { c.1.items rw with element := some data }
  let s :=
    if (s.items rwInfo).kind = .write then access d s rw data
    else
      let s := access d s rw data
      setVal s (s.items rwInfo).values (d.readData data)
  let s := unlock (unlock s addr) data
  setItem s rwInfo { s.items rwInfo with ok := (s.items rw).ok }

/-- uvm_reg_indirect.py 373-410: the sequence for register number `idx` of the table; `rwInfo` is the item of the user's access. -/
def body (d : Device) (addr data idx rwInfo : Nat) (s : St) : Option St :=
  let c := clone s rwInfo
  let rw := c.2
  let s := setItem c.1 rw { c.1.items rw with element := some addr, kind := .write }
  let s := setVal s (s.items rw).values idx
  match lock s addr rw with
  | none => none
  | some s => match lock s data rw with
    | none => none
    | some s =>
      let s := access d s rw addr
      if (s.items rw).ok = false then some s else some (finish d addr data rwInfo s)

/-- 148-168: the register of the table that a prediction goes to; `none`: out of range, not OK. -/
def predictTarget (tbl : List Nat) (idxMirror : Nat) : Option Nat := if idxMirror ≥ tbl.length then none else tbl[idxMirror]?

end Verif.RegIndirect
