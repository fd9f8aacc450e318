import Verif.Model.Text
/-!
# Model of `sv.sscanf` and `sv.sformatf` (src/uvm/base/sv.py 174-248, 578-611) and of Python's `int(text, base)`

A Python string is a list of characters.  Letters and digits are the ASCII ones (Python's `\w`, `int` and `str.strip` know
more).  The limit Python puts on the number of digits of a decimal numeral is not modelled.  `%f` of `sscanf` is outside
the model, and so are the format specifications of `str.format` other than `{}` and `{:X}`.
-/
namespace Verif.SvText
open Verif.Text (Str)

/-! ## `int(text, base)` -/

/-- The value of a digit character, up to base 36. -/
def digitVal (c : Char) : Option Nat :=
  if '0'.toNat ≤ c.toNat ∧ c.toNat ≤ '9'.toNat then some (c.toNat - '0'.toNat)
  else if 'a'.toNat ≤ c.toNat ∧ c.toNat ≤ 'z'.toNat then some (c.toNat - 'a'.toNat + 10)
  else if 'A'.toNat ≤ c.toNat ∧ c.toNat ≤ 'Z'.toNat then some (c.toNat - 'A'.toNat + 10)
  else none

/-- The digits of a numeral; single underscores may stand between digits. `u`: no underscore may stand here, and the numeral
may not end here. -/
def digits (base : Nat) : Nat → Bool → Str → Option Nat
  | acc, u, [] => if u then none else some acc
  | acc, u, c :: s =>
    if c = '_' then if u then none else digits base acc true s
    else match digitVal c with
      | none => none
      | some d => if d < base then digits base (acc * base + d) false s else none

def isSpace (c : Char) : Bool := c = ' ' || c = '\t' || c = '\n' || c = '\r' || c.toNat = 11 || c.toNat = 12

/-- `str.strip()`. -/
def strip (s : Str) : Str := ((s.dropWhile isSpace).reverse.dropWhile isSpace).reverse

/-- The prefix `int` accepts for a base, and one underscore after it. -/
def dropPrefix (base : Nat) (s : Str) : Str :=
  match s with
  | '0' :: c :: r =>
    if (base = 2 ∧ (c = 'b' ∨ c = 'B')) ∨ (base = 8 ∧ (c = 'o' ∨ c = 'O')) ∨ (base = 16 ∧ (c = 'x' ∨ c = 'X')) then
      match r with
      | '_' :: r' => r'
      | _ => r
    else s
  | _ => s

/-- Python's `int(text, base)`; `none` is `ValueError`. -/
def pyInt (base : Nat) (s : Str) : Option Int :=
  match strip s with
  | '-' :: r => (digits base 0 true (dropPrefix base r)).map fun n => - (n : Int)
  | '+' :: r => (digits base 0 true (dropPrefix base r)).map fun n => (n : Int)
  | r => (digits base 0 true (dropPrefix base r)).map fun n => (n : Int)

/-! ## `sscanf` -/

/-- The supported format letters (sv.py 585-592). -/
inductive Fmt where
  | d | h | b | o | s
deriving DecidableEq, Repr

/-- The third entry of `RE_FORMATS`. -/
def Fmt.pre : Fmt → Str
  | .d => ['-'] | .h => ['0', 'x'] | .b => [] | .o => ['o'] | .s => []

def isDec (c : Char) : Bool := ('0'.toNat ≤ c.toNat && c.toNat ≤ '9'.toNat) || c = '_'
def isOct (c : Char) : Bool := ('0'.toNat ≤ c.toNat && c.toNat ≤ '7'.toNat) || c = '_'
def isHex (c : Char) : Bool :=
  isDec c || ('a'.toNat ≤ c.toNat && c.toNat ≤ 'f'.toNat) || ('A'.toNat ≤ c.toNat && c.toNat ≤ 'F'.toNat)
def isBin (c : Char) : Bool := c = '0' || c = '1' || c = '_'
def isWord (c : Char) : Bool :=
  isDec c || ('a'.toNat ≤ c.toNat && c.toNat ≤ 'z'.toNat) || ('A'.toNat ≤ c.toNat && c.toNat ≤ 'Z'.toNat)

def some1 (p : Char → Bool) (s : Str) : Bool := !s.isEmpty && s.all p

/-- The regular expressions of `RE_FORMATS` without their `$`. -/
def core : Fmt → Str → Bool
  | .d, s => match s with
    | '-' :: r => some1 isDec r
    | _ => some1 isDec s
  | .h, s => match s with
    | '0' :: 'x' :: r => some1 isHex r
    | _ => false
  | .b, s => some1 isBin s
  | .o, s => some1 isOct s
  | .s, s => some1 isWord s

/-- `re_list[0][0].match(acc)`; Python's `$` also matches before a newline at the end. -/
def full (k : Fmt) (s : Str) : Bool := core k s || (s.getLast? = some '\n' && core k s.dropLast)

inductive Val where
  | int (n : Int) | str (s : Str)
deriving DecidableEq, Repr

/-- The second entry of `RE_FORMATS`: the conversion; `none` when it raises. -/
def conv : Fmt → Str → Option Val
  | .d, s => (pyInt 10 s).map .int
  | .h, s => (pyInt 16 s).map .int
  | .b, s => (pyInt 2 s).map .int
  | .o, s => (pyInt 8 s).map .int
  | .s, s => some (.str s)

/-- sv.py 595-611: `get_regex_list`; `outside`: a `%f` occurs. -/
def fmtOf : Char → Option Fmt
  | 'd' => some .d | 's' => some .s | 'h' => some .h | 'b' => some .b | 'o' => some .o | _ => none

def regexLoop : Option Char → Str → Option (List Fmt)
  | _, [] => some []
  | none, c :: r => regexLoop (some c) r
  | some a, c :: r =>
    if a = '%' then
      if c = 'f' then none
      else match fmtOf c with
        | some k => (regexLoop none r).map (k :: ·)
        | none => regexLoop (some c) r
    else regexLoop (some c) r

def getRegexList (formats : Str) : Option (List Fmt) := regexLoop none formats

/-- The loop sv.py 194-210 and what follows it (213-222): `res` are the values so far; `none` when it raises. -/
def scanLoop : List Fmt → Str → Str → List Val → Str → Option (List Val)
  | ks, _, cur, res, [] =>
    if cur ≠ [] then
      match ks with
      | [] => none
      | k :: ks => match conv k cur with
        | none => none
        | some v => some (if ks = [] then res ++ [v] else [])
    else some (if ks = [] then res else [])
  | [], _, _, _, _ :: _ => none
  | k :: ks, acc, cur, res, c :: r =>
    let acc := acc ++ [c]
    if full k acc then scanLoop (k :: ks) acc (cur ++ [c]) res r
    else if cur ≠ [] then
      match conv k cur with
      | none => none
      | some v => if ks = [] then some (res ++ [v]) else scanLoop ks [] [] (res ++ [v]) r
    else if acc.length ≥ k.pre.length ∧ acc ≠ k.pre then scanLoop (k :: ks) [] cur res r
    else scanLoop (k :: ks) acc cur res r

/-- sv.py 178-222: `sscanf`; `none` when it raises (or a `%f` is in the format). -/
def sscanf (text formats : Str) : Option (List Val) :=
  match getRegexList formats with
  | none => none
  | some ks => scanLoop ks [] [] [] text

/-! ## `sformatf` -/

/-- `str.replace` of a nonempty text: from left to right, not overlapping.  `n`: characters of a replaced occurrence still to
be dropped. -/
def replaceFrom (pat by_ : Str) : Nat → Str → Str
  | _, [] => []
  | n + 1, _ :: s => replaceFrom pat by_ n s
  | 0, c :: s =>
    if pat.isPrefixOf (c :: s) then by_ ++ replaceFrom pat by_ (pat.length - 1) s
    else c :: replaceFrom pat by_ 0 s

def replace (pat by_ s : Str) : Str := replaceFrom pat by_ 0 s

/-- sv.py 175-176. -/
def formatList : List Str :=
  ["%b".toList, "%0b".toList, "%0d".toList, "%d".toList, "%s".toList, "%0s".toList, "%h".toList, "%0h".toList, "%f".toList, "%p".toList,
    "%0t".toList, "%t".toList, "%x".toList]

/-- One round of the loop sv.py 243-247. -/
def formatRound (msg s : Str) : Str :=
  if s = "%h".toList ∨ s = "%0h".toList then replace s "{:X}".toList msg else replace s "{}".toList msg

def substituted (msg : Str) : Str := formatList.foldl formatRound msg

/-- How an argument is shown by `{}` and by `{:X}` (`none`: not an integer, `ValueError`). -/
structure Arg where
  plain : Str
  hex : Option Str
deriving DecidableEq, Repr

inductive Out where
  | text (s : Str) | raised | outside
deriving DecidableEq, Repr

def Out.prepend (p : Str) : Out → Out
  | .text s => .text (p ++ s)
  | o => o

/-- `str.format`: `{{` and `}}` stand for a brace, `{}` and `{:X}` take the next argument, a single `}` and a `{` that is
not closed raise; anything else between braces is outside. `i`: number of the next argument; `n`: characters to skip. -/
def format (args : List Arg) : Nat → Nat → Str → Out
  | _, _, [] => .text []
  | i, n + 1, _ :: s => format args i n s
  | i, 0, c :: s =>
    if c = '{' then
      if "{".toList.isPrefixOf s then (format args i 1 s).prepend ['{']
      else if "}".toList.isPrefixOf s then
        match args[i]? with
        | none => .raised
        | some a => (format args (i + 1) 1 s).prepend a.plain
      else if ":X}".toList.isPrefixOf s then
        match args[i]? with
        | none => .raised
        | some a => match a.hex with
          | none => .raised
          | some x => (format args (i + 1) 3 s).prepend x
      else if '}' ∈ s then .outside
      else .raised
    else if c = '}' then
      if "}".toList.isPrefixOf s then (format args i 1 s).prepend ['}'] else .raised
    else (format args i 0 s).prepend [c]

/-- sv.py 224-248: `sformatf`. -/
def sformatf (msg : Str) (args : List Arg) : Out := format args 0 0 (substituted msg)

end Verif.SvText
