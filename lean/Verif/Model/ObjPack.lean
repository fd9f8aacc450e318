import Verif.Model.Packer
/-!
# Model of packing and unpacking objects through their registered fields

src/uvm/base/uvm_object.py 694-853, 1040-1083 (`pack`, `unpack`, ...), src/uvm/base/uvm_packer.py 336-358, 591-619 (`pack_object`, `unpack_object`),
src/uvm/macros/uvm_object_defines.py 269-296 (field automation for `UVM_PACK` and `UVM_UNPACK`), over the packer of `Model/Packer`.

Objects live in a heap and are named by numbers.  An object has the list of fields its automation visits (base classes first), with their flags.
Integers are not negative (packing a negative one does not terminate, C07).  `do_pack` and `do_unpack` are the defaults.  `deep` bounds the depth of
Python's recursion.
-/
namespace Verif.ObjPack
open Verif.Packer (State init setPackedSize packFieldInt unpackFieldInt packString unpackString putBits)

/-- The value of an attribute; a string is its list of encoded bytes; `other`: `None`, a list, a float, ... -/
inductive Val where
  | int (n : Nat) | str (bs : List Nat) | obj (o : Nat) | other
deriving DecidableEq, Repr

structure Obj where
  fields : List (Nat × Nat)
  vals : Nat → Val

abbrev Heap := Nat → Obj

/-- `raised`: an exception (TypeError, a value too wide, an empty string); `recursion`: RecursionError. -/
inductive Err where
  | raised | recursion
deriving DecidableEq, Repr

/-- uvm_object_defines.py 272, 285: `not(mask & UVM_NOPACK)`; `UVM_PACK` is not tested. -/
def packs (mask : Nat) : Bool := mask &&& 512 == 0

/-- An exception of the packer. -/
def lift (x : Option α) : Except Err α := match x with
  | some a => .ok a
  | none => .error .raised

/-- 274-281: one field; `sv.bits` of an integer is 32 (sv.py 143-146); `rec o` is `pack_object(o)`. -/
def packVal (rec : Nat → State → Except Err State) (p : State) : Val → Except Err State
  | .int v => lift (packFieldInt p v 32)
  | .obj o => rec o p
  | .str bs => lift (packString p bs)
  | .other => .error .raised

/-- 269-281: the loop over the fields. -/
def packFields (h : Heap) (rec : Nat → State → Except Err State) (o : Nat) : List (Nat × Nat) → State → Except Err State
  | [], p => .ok p
  | (f, mask) :: fs, p =>
    if packs mask then
      match packVal rec p ((h o).vals f) with
      | .ok p => packFields h rec o fs p
      | .error e => .error e
    else packFields h rec o fs p

/-- uvm_packer.py 336-358: `pack_object`; `busy` is `cycle_check`; an object in it is skipped with a warning. -/
def packObj (h : Heap) : Nat → List Nat → Nat → State → Except Err State
  | 0, _, _, _ => .error .recursion
  | n + 1, busy, o, p => if o ∈ busy then .ok p else packFields h (packObj h n (o :: busy)) o (h o).fields p

/-- uvm_object.py 694-696, 1040-1055: `pack`: the size and the bits.  The object itself is not in `cycle_check`. -/
def pack (h : Heap) (deep : Nat) (be : Bool) (o : Nat) : Except Err (Nat × Nat) :=
  match packFields h (packObj h deep []) o (h o).fields (init be) with
  | .ok p => .ok ((setPackedSize p).packedSize, (setPackedSize p).bits)
  | .error e => .error e

/-- The state of unpacking: the heap, the packer, the number of errors reported. -/
structure USt where
  heap : Heap
  packer : State
  errors : Nat

def setVal (h : Heap) (o f : Nat) (v : Val) : Heap :=
  fun i => if i = o then { h o with vals := fun g => if g = f then v else (h o).vals g } else h i

/-- 286-296: one field of object `o`. -/
def unpackVal (rec : Nat → USt → Except Err USt) (o f : Nat) (s : USt) : Except Err USt :=
  match (s.heap o).vals f with
  | .int _ => match unpackFieldInt s.packer 32 with
    | some (v, e, p) => .ok ⟨setVal s.heap o f (.int v), p, s.errors + (if e then 1 else 0)⟩
    | none => .error .raised
  | .obj q => match rec q s with
    | .ok s => .ok { s with heap := setVal s.heap o f (.obj q) }
    | .error e => .error e
  | .str _ => .ok ⟨setVal s.heap o f (.str (unpackString s.packer (-1)).1), (unpackString s.packer (-1)).2, s.errors⟩
  | .other => .error .raised

/-- 282-296. -/
def unpackFields (rec : Nat → USt → Except Err USt) (o : Nat) : List (Nat × Nat) → USt → Except Err USt
  | [], s => .ok s
  | (f, mask) :: fs, s =>
    if packs mask then
      match unpackVal rec o f s with
      | .ok s => unpackFields rec o fs s
      | .error e => .error e
    else unpackFields rec o fs s

/-- uvm_packer.py 591-619: `unpack_object`. -/
def unpackObj : Nat → List Nat → Nat → USt → Except Err USt
  | 0, _, _, _ => .error .recursion
  | n + 1, busy, o, s => if o ∈ busy then .ok s else unpackFields (unpackObj n (o :: busy)) o (s.heap o).fields s

/-- What `unpack` does: the heap, the number of bits returned, the errors reported, and whether the warning BDUNPK is given (1080-1083). -/
structure Unpacked where
  heap : Heap
  size : Nat
  errors : Nat
  warned : Bool

/-- uvm_object.py 803-808, 1059-1083: `unpack(bitstream)`. -/
def unpack (h : Heap) (deep : Nat) (be : Bool) (o : Nat) (bits : Nat) : Except Err Unpacked :=
  let p := putBits (init be) bits
  match unpackFields (unpackObj deep []) o (h o).fields ⟨h, p, 0⟩ with
  | .ok s => .ok ⟨s.heap, (setPackedSize s.packer).packedSize, s.errors, s.packer.packedSize != p.packedSize⟩
  | .error e => .error e

/-- 815-820, 823-853: the packer has neither `put_bytes` nor `put_ints` (uvm_packer.py 703-704: comments): AttributeError. -/
def unpackBytes (_h : Heap) (_be : Bool) (_o : Nat) (_bytes : List Nat) : Except Err Unpacked := .error .raised

/-- 703-708, 711-735: `pack_bytes` (`w = 8`) and `pack_ints` (`w = 32`): the elements appended, and the size. -/
def packElems (w : Nat) (h : Heap) (deep : Nat) (be : Bool) (o : Nat) : Except Err (List Nat × Nat) :=
  match packFields h (packObj h deep []) o (h o).fields (init be) with
  | .ok p => match Verif.Packer.getElems w (setPackedSize p) with
    | some es => .ok (es, (setPackedSize p).packedSize)
    | none => .error .raised
  | .error e => .error e

end Verif.ObjPack
