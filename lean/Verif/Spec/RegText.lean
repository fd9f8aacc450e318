import Verif.Model.RegText
/-! # What the texts of registers and fields look like -/
namespace Verif.RegText
open Verif.Text (Str)

/-- The text between the equals sign and the value. -/
def unit (n : Nat) : Str := dec n ++ "'h%".toList ++ quarters n ++ ['h']

/-- The lines of a chain of maps, each indented two more than the one before. -/
def chainSpec (ind : Nat) : List MapInfo → Str
  | [] => []
  | m :: ms => List.replicate (ind + 2) ' ' ++ "Mapped in '".toList ++ m.fullName ++ "' -- ".toList ++ dec m.nBytes ++ " bytes, ".toList ++ m.endian ++
      ", offset 'h".toList ++ (Nat.toDigits 16 m.offset).map Char.toUpper ++ ['\n'] ++ chainSpec (ind + 2) ms

/-- The lines of several chains; the indentation is not reset. -/
def mapsSpec (ind : Nat) : List (List MapInfo) → Str
  | [] => []
  | c :: cs => chainSpec ind c ++ mapsSpec (ind + 2 * c.length) cs

/-- The place an access was started from: known only if both the file and the line are. -/
inductive Place (f : Field) : Str → Prop
  | known {n : Nat} : f.fname ≠ [] → f.lineno = n + 1 → Place f (" from ".toList ++ f.fname ++ ":".toList ++ dec (n + 1))
  | noFile : f.fname = [] → Place f []
  | noLine : f.lineno = 0 → Place f []

/-- The text of a field, as `C328_field_text` tells. -/
def fieldSpec (reg : Str) (f : Field) : Str :=
  ' ' :: f.access ++ ' ' :: reg ++ '[' :: dec (f.lsb + f.nBits - 1) ++ ':' :: dec f.lsb ++ ']' :: '=' :: unit f.nBits ++ dec f.desired ++ progress f

end Verif.RegText
