import Verif.Model.Packer
/-!
# Model of packing and unpacking lists with a size (src/uvm/base/uvm_packer.py)

`pack_bytes`/`unpack_bytes` (`w = 8`) and `pack_ints`/`unpack_ints` (`w = 32`) with their `size` argument; the default size is
in `Verif.Model.Packer`.
-/
namespace Verif.PackSize
open Verif.Packer

/-- uvm_packer.py 200-201, 248-249, 443-444, 494-495: a negative size stands for that of the whole list. -/
def effSize (w n : Nat) (size : Int) : Int := if size < 0 then (n * w : Nat) else size

/-- uvm_packer.py 197-214, 245-263: the packer and whether an error was reported; `none` is an exception. -/
def packSized (w : Nat) (p : State) (value : List Nat) (size : Int) : Option (State × Bool) :=
  if effSize w value.length size > (value.length * w : Nat) then some (p, true)
  else (packElems w p value).map fun q => (q, false)

/-- What an unpacking call returns: the list it was given, filled or not, or the value returned with the error about the
size (`[]` from `unpack_bytes`, `None` from `unpack_ints`). -/
inductive Got where
  | list (l : List Nat) | badSize
deriving DecidableEq, Repr

/-- uvm_packer.py 454-460, 505-511: all elements of the list are read, from bit 0. -/
def readAll (w : Nat) (p : State) (n : Nat) : Option (List Nat) := do
  let es ← (List.range n).mapM (fun b =>
    let e := (p.bits >>> (b * w)) &&& (2 ^ w - 1)
    if p.bigEndian then flip e w else some e)
  return (if p.bigEndian then es.reverse else es)

/-- uvm_packer.py 441-461, 492-512: what is returned, whether an error was reported, and the packer. -/
def unpackSized (w : Nat) (p : State) (value : List Nat) (size : Int) : Option (Got × Bool × State) :=
  if effSize w value.length size > (value.length * w : Nat) then some (.badSize, true, p)
  else if enoughBits p (effSize w value.length size).toNat then
    (readAll w p value.length).map fun l => (.list l, false, { p with count := p.count + (effSize w value.length size).toNat })
  else some (.list value, true, p)

end Verif.PackSize
