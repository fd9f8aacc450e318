/-!
# Model of `UVMPacker` (src/uvm/base/uvm_packer.py)

Python integers that are bit patterns are natural numbers.  `none` is a raised exception.
Not modelled: negative values and sizes (`flip_bit_order` does not terminate on a negative value), `pack_object`/`unpack_object`,
`use_metadata` (its branches are `pass`), text encoding: a string is its list of encoded bytes.
-/
namespace Verif.Packer

/-- uvm_packer.py 54-146: the fields that matter. -/
structure State where
  bigEndian : Bool
  count : Nat
  bits : Nat
  packedSize : Nat
deriving DecidableEq, Repr

/-- uvm_packer.py 54-146, `big_endian` defaults to 1. -/
def init (be : Bool) : State := ⟨be, 0, 0, 0⟩

/-- uvm_packer.py 728-731: `reset`. -/
def reset (p : State) : State := { p with count := 0, bits := 0, packedSize := 0 }

/-- `len(bin(value)) - 2`, lines 700 and 735: the bit length, but 1 for 0. -/
def binLen (v : Nat) : Nat := if v = 0 then 1 else v.log2 + 1

/-- uvm_packer.py 736-738: the loop of `flip_bit_order`. -/
def flipLoop (flipped v : Nat) : Nat :=
  if v = 0 then flipped else flipLoop ((flipped <<< 1) + (v &&& 1)) (v >>> 1)
termination_by v
decreasing_by rw [Nat.shiftRight_eq_div_pow]; omega

/-- uvm_packer.py 733-747: `flip_bit_order(value, size)` with `size != -1`. -/
def flip (v size : Nat) : Option Nat :=
  if binLen v ≤ size then some (flipLoop 0 v <<< (size - binLen v)) else none

/-- uvm_packer.py 733-747: `flip_bit_order(value, -1)`. -/
def flipNoSize (v : Nat) : Nat := flipLoop 0 v

/-- uvm_packer.py 172-180: `pack_field_int` (155-163 `pack_field` is the same). -/
def packFieldInt (p : State) (value size : Nat) : Option State := do
  let v ← if p.bigEndian then flip value size else some value
  return { p with bits := p.bits ||| (v <<< p.count), count := p.count + size }

/-- uvm_packer.py 718-725: `enough_bits` (Python integers, so the difference may be negative). -/
def enoughBits (p : State) (needed : Nat) : Bool := !(decide ((p.packedSize : Int) - p.count < needed))

/-- uvm_packer.py 414-422: the bit-selecting loop of `unpack_field_int`, `count` already advanced. -/
def selectLoop (be : Bool) (bits count size : Nat) : Nat :=
  (List.range size).foldl (fun acc i =>
    let sel := if be then count - i - 1 else count - size + i
    acc ||| (bits &&& (1 <<< sel))) 0

/-- uvm_packer.py 409-426: `unpack_field_int` (385-386 `unpack_field` calls it).
Returns the value, whether an error was reported, and the packer. -/
def unpackFieldInt (p : State) (size : Nat) : Option (Nat × Bool × State) := do
  let before := p.count
  let (r, err, p') := if enoughBits p size then
      (selectLoop p.bigEndian p.bits (p.count + size) size, false, { p with count := p.count + size })
    else (0, true, p)
  let r := r >>> before
  let r ← if p.bigEndian then flip r size else some r
  return (r, err, p')

/-- uvm_packer.py 707-709: `set_packed_size`. -/
def setPackedSize (p : State) : State := { p with packedSize := p.count, count := 0 }

/-- `int(bytearr.hex(), 16)`, line 281. -/
def ofBytes (bs : List Nat) : Nat := bs.foldl (fun a b => a * 256 + b) 0

/-- uvm_packer.py 277-287: `pack_string`; `int('', 16)` raises on the empty string. -/
def packString (p : State) (bs : List Nat) : Option State :=
  if bs = [] then none
  else
    let v := ofBytes bs
    let v := if p.bigEndian then flipNoSize v else v
    some { p with bits := p.bits ||| (v <<< p.count), count := p.count + 8 * bs.length }

/-- uvm_packer.py 537-551: the loop of `unpack_string`; `acc` is `byte_arr` (bytes are inserted in front). -/
def unpackStringLoop (bits packedSize count : Nat) (nullTerm : Bool) (numChars : Int) (i : Nat) (acc : List Nat) :
    List Nat × Nat :=
  let cur := (bits >>> count) &&& 0xFF
  if h : count + 8 ≤ packedSize ∧ (cur ≠ 0 ∨ nullTerm = false) ∧ ((i : Int) < numChars ∨ nullTerm = true) then
    unpackStringLoop bits packedSize (count + 8) nullTerm numChars (i + 1) (cur :: acc)
  else (acc, count)
termination_by packedSize - count

/-- uvm_packer.py 523-554: `unpack_string(num_chars)`.  (`enough_bits(8, .., is_error=False)` is `count + 8 ≤ packedSize`.) -/
def unpackString (p : State) (numChars : Int) : List Nat × State :=
  let nullTerm := decide (numChars = -1)
  let (bs, c) := unpackStringLoop p.bits p.packedSize p.count nullTerm numChars 0 []
  (bs, { p with count := if c + 8 ≤ p.packedSize then c + 8 else c })

/-- uvm_packer.py 210-214 / 258-263: the loop body of `pack_bytes` (`w = 8`) and `pack_ints` (`w = 32`). -/
def packElem (w : Nat) (p : State) (b : Nat) : Option State := do
  let b ← if p.bigEndian then flip b w else some b
  return { p with bits := p.bits ||| (b <<< p.count), count := p.count + w }

/-- uvm_packer.py 197-214 / 245-263: `pack_bytes` (`w = 8`) and `pack_ints` (`w = 32`) with the default size.
In big-endian mode element `len-1-i` is taken in iteration `i`. -/
def packElems (w : Nat) (p : State) (value : List Nat) : Option State :=
  (if p.bigEndian then value.reverse else value).foldlM (packElem w) p

/-- uvm_packer.py 441-461 / 492-512: `unpack_bytes` (`w = 8`) and `unpack_ints` (`w = 32`) into a list of
`n` elements, default size.  Note: the elements are always read from bit 0 (lines 455, 506), not from the
unpack position.  Without enough bits the list is returned unchanged (`none` in the result) after an error. -/
def unpackElems (w : Nat) (p : State) (n : Nat) : Option (Option (List Nat) × State) := do
  if enoughBits p (n * w) then
    let es ← (List.range n).mapM (fun b =>
      let e := (p.bits >>> (b * w)) &&& (2 ^ w - 1)
      if p.bigEndian then flip e w else some e)
    return (some (if p.bigEndian then es.reverse else es), { p with count := p.count + n * w })
  else return (none, p)

/-- uvm_packer.py 652-666 / 670-684: `get_bytes` (`w = 8`) and `get_ints` (`w = 32`).
`int((size+w-1)/w)` is taken as exact integer division. -/
def getElems (w : Nat) (p : State) : Option (List Nat) :=
  let sz := (p.packedSize + (w - 1)) / w
  (List.range sz).mapM (fun i =>
    let v := if i ≠ sz - 1 ∨ p.packedSize % w = 0 then (p.bits >>> (i * w)) &&& (2 ^ w - 1)
      else (p.bits >>> (i * w)) &&& ((2 ^ w - 1) >>> (w - p.packedSize % w))
    if p.bigEndian then flip v w else some v)

/-- uvm_packer.py 638-641: `get_bit`: value and whether an index error was reported. -/
def getBit (p : State) (i : Nat) : Nat × Bool := ((p.bits >>> i) &&& 1, decide (i ≥ p.packedSize))

/-- uvm_packer.py 688-701: `put_bits`. -/
def putBits (p : State) (stream : Nat) : State := { p with bits := stream, packedSize := binLen stream, count := 0 }

/-- Packing a list of (value, size) fields with `pack_field_int`, in order. -/
def packAll (p : State) (fs : List (Nat × Nat)) : Option State := fs.foldlM (fun p f => packFieldInt p f.1 f.2) p

/-- Unpacking fields of the given sizes with `unpack_field_int`, in order: the values, the error flags and the packer. -/
def unpackAll (p : State) : List Nat → Option (List Nat × List Bool × State)
  | [] => some ([], [], p)
  | sz :: szs => do
    let (v, e, p1) ← unpackFieldInt p sz
    let (vs, es, p2) ← unpackAll p1 szs
    return (v :: vs, e :: es, p2)

/-- The unpacking calls, for histories. -/
inductive UnpackOp where
  | field (size : Nat) | string (numChars : Int) | bytes (n : Nat) | ints (n : Nat)
deriving DecidableEq, Repr

def unpackOp (p : State) : UnpackOp → Option State
  | .field n => (unpackFieldInt p n).map (·.2.2)
  | .string n => some (unpackString p n).2
  | .bytes n => (unpackElems 8 p n).map (·.2)
  | .ints n => (unpackElems 32 p n).map (·.2)

def unpackOps (p : State) (ops : List UnpackOp) : Option State := ops.foldlM unpackOp p

end Verif.Packer
