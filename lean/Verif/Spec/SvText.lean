import Verif.Model.SvText
/-! # Words for scanned and formatted texts -/
namespace Verif.SvText
open Verif.Text (Str)

/-- `c` is the digit for `d`; the digits above 9 can be written in both cases. -/
def IsDigit (c : Char) (d : Nat) : Prop := d < 16 ∧ (c = d.digitChar ∨ c = d.digitChar.toUpper)

/-- The numeral `s` stands for `n` in a base: the last digit counts one, the others the base more than without it. -/
inductive Denotes (base : Nat) : Str → Nat → Prop
  | one {c : Char} {d : Nat} : IsDigit c d → d < base → Denotes base [c] d
  | more {s : Str} {n : Nat} {c : Char} {d : Nat} : Denotes base s n → IsDigit c d → d < base → Denotes base (s ++ [c]) (n * base + d)

/-- The character for a format letter. -/
def Fmt.letter : Fmt → Char
  | .d => 'd' | .h => 'h' | .b => 'b' | .o => 'o' | .s => 's'

/-- A format text that asks for `ks`, with any text without `%` around the specifiers. -/
inductive Asks : List Fmt → Str → Prop
  | done {l : Str} : '%' ∉ l → Asks [] l
  | next {l r : Str} {k : Fmt} {ks : List Fmt} : '%' ∉ l → Asks ks r → Asks (k :: ks) (l ++ '%' :: k.letter :: r)

/-- A letter, a digit or an underscore. -/
def wordChar (c : Char) : Prop := c.isAlphanum ∨ c = '_'

/-- The text of one field and its value. Hexadecimal numbers are written with `0x`. -/
inductive Field : Fmt → Str → Val → Prop
  | d {s : Str} {n : Nat} : Denotes 10 s n → Field .d s (.int n)
  | h {s : Str} {n : Nat} : Denotes 16 s n → Field .h ('0' :: 'x' :: s) (.int n)
  | b {s : Str} {n : Nat} : Denotes 2 s n → Field .b s (.int n)
  | o {s : Str} {n : Nat} : Denotes 8 s n → Field .o s (.int n)
  | s {s : Str} : s ≠ [] → (∀ c ∈ s, wordChar c) → Field .s s (.str s)

/-- Fields separated by one character each that is not in a word. -/
inductive Fields : List Fmt → Str → List Val → Prop
  | one {k : Fmt} {s : Str} {v : Val} : Field k s v → Fields [k] s [v]
  | cons {k : Fmt} {s : Str} {v : Val} {c : Char} {ks : List Fmt} {t : Str} {vs : List Val} :
      Field k s v → ¬ wordChar c → c ≠ '\n' → Fields ks t vs → Fields (k :: ks) (s ++ c :: t) (v :: vs)

/-! ## Formatting -/

/-- A piece of a message: literal text, or one of the specifiers, which shows the next argument. -/
inductive Piece where
  | lit (s : Str) | show_ (w : String)
deriving DecidableEq, Repr

/-- The specifiers that show an argument as it is, and those that show it in hexadecimal. -/
def plainSpecs : List String := ["%b", "%0b", "%0d", "%d", "%s", "%0s", "%f", "%p", "%0t", "%t", "%x"]
def hexSpecs : List String := ["%h", "%0h"]

/-- Literal text has no percent sign and no brace. -/
def Piece.ok : Piece → Prop
  | .lit s => ∀ c ∈ s, c ≠ '%' ∧ c ≠ '{' ∧ c ≠ '}'
  | .show_ w => w ∈ plainSpecs ∨ w ∈ hexSpecs

/-- The message as it is written. -/
def written : List Piece → Str
  | [] => []
  | .lit s :: ps => s ++ written ps
  | .show_ w :: ps => w.toList ++ written ps

/-- The message with the arguments shown; `none` when there are too few, or one to be shown in hexadecimal is no integer. -/
def shown : List Piece → List Arg → Option Str
  | [], _ => some []
  | .lit s :: ps, args => (shown ps args).map (s ++ ·)
  | .show_ _ :: _, [] => none
  | .show_ w :: ps, a :: args =>
    if w ∈ hexSpecs then a.hex.bind fun x => (shown ps args).map (x ++ ·)
    else (shown ps args).map (a.plain ++ ·)

end Verif.SvText
