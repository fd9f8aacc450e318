import Verif.Model.SvText
/-!
# The texts of registers and fields: `UVMRegField.convert2string` (src/uvm/reg/uvm_reg_field.py) and `UVMReg.convert2string` (src/uvm/reg/uvm_reg.py)

Names, access texts and the chains of maps above a register are given; the chains are those of `Verif.Model.MapTree`.
-/
namespace Verif.RegText
open Verif.SvText (format sformatf Arg Out)
open Verif.Text (Str)

/-- `str(n)`. -/
def dec (n : Nat) : Str := Nat.toDigits 10 n

/-- An integer as an argument of `format`. -/
def num (n : Nat) : Arg := ⟨dec n, some ((Nat.toDigits 16 n).map Char.toUpper)⟩

/-- A text as an argument of `format`. -/
def txt (s : Str) : Arg := ⟨s, none⟩

/-- `str((n - 1) / 4 + 1)` (1433): a float, as the division is not an integer division. Simplified: exact quarters, which is so for every width below 2^53. -/
def quarters (n : Nat) : Str :=
  dec ((n + 3) / 4) ++ (match (n + 3) % 4 with
    | 0 => ['.', '0']
    | 1 => ['.', '2', '5']
    | 2 => ['.', '5']
    | _ => ['.', '7', '5'])

/-- What the texts show of a field. -/
structure Field where
  access : Str
  nBits : Nat
  lsb : Nat
  desired : Nat
  mirrored : Nat
  reading : Bool := false
  writing : Bool := false
  fname : Str := []
  lineno : Nat := 0

def Out.bind (o : Out) (f : Str → Out) : Out :=
  match o with
  | .text s => f s
  | o => o

/-- uvm_reg_field.py 1433. -/
def fmt (n : Nat) : Out := format [num n, txt (quarters n)] 0 0 "{}'h%{}h".toList

/-- 1435-1437: the note on the mirrored value. -/
def mirrorNote (f : Field) (fm : Str) : Out :=
  if f.desired ≠ f.mirrored then format [num f.mirrored] 0 0 (" (Mirror: ".toList ++ fm ++ ")".toList) else .text []

/-- 1447-1448, 1451-1452: where the access was started. -/
def origin (f : Field) : Str :=
  if f.fname ≠ [] ∧ f.lineno ≠ 0 then " from ".toList ++ f.fname ++ ":".toList ++ dec f.lineno else []

/-- 1446-1453: `res_str` of the read is still there for the write. -/
def progress (f : Field) : Str :=
  (if f.reading then "\ncurrently being read".toList ++ origin f else []) ++
  (if f.writing then "\n".toList ++ (if f.reading then origin f else []) ++ origin f ++ "currently being written".toList else [])

/-- 1418-1454: `UVMRegField.convert2string`; `reg` is the name of the register. -/
def fieldText (reg : Str) (f : Field) : Out :=
  Out.bind (fmt f.nBits) fun fm =>
  Out.bind (mirrorNote f fm) fun note =>
  Out.bind (format [txt [], txt f.access, txt reg, num (f.lsb + f.nBits - 1), num f.lsb, num f.desired, txt note] 0 0
    ("{} {} {}[{}:{}]=".toList ++ fm ++ "{}".toList)) fun s => .text (s ++ progress f)

/-- A map on the way from the register's map to the root: full name, bytes, endianness and offset (uvm_reg.py 2534-2540). -/
structure MapInfo where
  fullName : Str
  nBytes : Nat
  endian : Str
  offset : Nat

/-- uvm_reg.py 2533-2543: the lines for one map, and the indentation afterwards. -/
def chainLines : List MapInfo → Str → Str × Out
  | [], prefix_ => (prefix_, .text [])
  | m :: ms, prefix_ =>
    let p := prefix_ ++ "  ".toList
    let r := chainLines ms p
    (r.1, Out.bind (sformatf "%sMapped in '%s' -- %d bytes, %s, offset 'h%0h\n".toList [txt p, txt m.fullName, num m.nBytes, txt m.endian, num m.offset])
      fun s => Out.bind r.2 fun t => .text (s ++ t))

/-- 2530-2543: all maps; the indentation goes on growing from map to map. -/
def mapLines : List (List MapInfo) → Str → Out
  | [], _ => .text []
  | c :: cs, prefix_ =>
    let r := chainLines c prefix_
    Out.bind r.2 fun s => Out.bind (mapLines cs r.1) fun t => .text (s ++ t)

/-- 2546-2547. -/
def fieldLines (reg : Str) : List Field → Out
  | [] => .text []
  | f :: fs => Out.bind (fieldText reg f) fun x => Out.bind (sformatf "\n%s".toList [txt x]) fun s => Out.bind (fieldLines reg fs) fun t => .text (s ++ t)

/-- What the text shows of a register; `value` is `get()`. -/
structure Reg where
  name : Str
  fullName : Str
  nBytes : Nat
  value : Nat
  fields : List Field
  maps : List (List MapInfo)

/-- 2515-2547: `UVMReg.convert2string` of a register that is not being accessed. -/
def regText (r : Reg) : Out :=
  Out.bind (sformatf "Register %s -- %0d bytes, mirror value:'h%h".toList [txt r.fullName, num r.nBytes, num r.value]) fun a =>
  Out.bind (mapLines r.maps []) fun b =>
  Out.bind (fieldLines r.name r.fields) fun c =>
    .text (a ++ (if r.maps = [] then "  (unmapped)\n".toList else "\n".toList) ++ b ++ c)

end Verif.RegText
