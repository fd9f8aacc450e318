/-!
# Model of the string helpers: uvm_globals.py `uvm_string_to_severity`, `uvm_string_to_action`, `uvm_is_match`,
`uvm_string_to_bits`; sv.py `uvm_glob_to_re`, `uvm_re_match`, `uvm_split_string`

A Python string is a list of characters.  Python's `re` is modelled for the patterns `parse` accepts: literal
characters, `\` followed by a character that is neither letter nor digit, `.`, and each of these followed by `*` or `+`.
The other special characters (`^ $ { } ( ) |` and an unescaped `[`, `]`, `?`) are outside: `parse` answers `none`.
-/
namespace Verif.Text

abbrev Str := List Char

/-- `str.split(c)` for a one-character separator. -/
def splitOn (c : Char) : Str → List Str
  | [] => [[]]
  | x :: s =>
    if x = c then [] :: splitOn c s
    else match splitOn c s with
      | [] => [[x]]
      | w :: ws => (x :: w) :: ws

/-- uvm_object_globals.py 220-223; uvm_globals.py 201-210. -/
def stringToSeverity (s : Str) : Int :=
  if s = "UVM_INFO".toList then 0
  else if s = "UVM_WARNING".toList then 1
  else if s = "UVM_ERROR".toList then 2
  else if s = "UVM_FATAL".toList then 3
  else -1

/-- One round of the loop 216-232 (flag values: uvm_object_globals.py 244-251). -/
def actionRound (action : Nat) (w : Str) : Nat :=
  let action := if w = "UVM_NO_ACTION".toList then action ||| 0 else action
  let action := if w = "UVM_DISPLAY".toList then action ||| 1 else action
  let action := if w = "UVM_LOG".toList then action ||| 2 else action
  let action := if w = "UVM_COUNT".toList then action ||| 4 else action
  let action := if w = "UVM_EXIT".toList then action ||| 8 else action
  let action := if w = "UVM_CALL_HOOK".toList then action ||| 16 else action
  let action := if w = "UVM_STOP".toList then action ||| 32 else action
  if w = "UVM_RM_RECORD".toList then action ||| 64 else action

/-- uvm_globals.py 213-233: `uvm_string_to_action`. -/
def stringToAction (s : Str) : Nat := (splitOn '|' s).foldl actionRound 0

/-- uvm_globals.py 265-275: `uvm_string_to_bits`, on the encoded bytes. -/
def bitsLoop : List Nat → Nat → Nat → Nat
  | [], result, _ => result
  | b :: bs, result, shift => bitsLoop bs ((result <<< shift) ||| b) (shift + 8)

def stringToBits (bytes : List Nat) : Nat := bitsLoop bytes 0 0

/-- `str.replace` of one character by a text. -/
def replace (c : Char) (by_ : Str) (s : Str) : Str := s.flatMap (fun x => if x = c then by_ else [x])

/-- sv.py 53-71: `uvm_glob_to_re`. -/
def globToRe (s : Str) : Str :=
  if s = [] then []
  else if s.head? = some '/' ∧ s.getLast? = some '/' then s
  else
    let res := replace '.' ['\\', '.'] s
    let res := replace '*' ['.', '*'] res
    let res := replace '[' ['\\', '['] res
    let res := replace ']' ['\\', ']'] res
    replace '?' ['.'] res

/-- What one character may be: a given one, or any but the newline. -/
inductive Atom where
  | lit (c : Char) | any
deriving DecidableEq, Repr

/-- A piece of a regular expression. -/
inductive Tok where
  | one (a : Atom) | star (a : Atom) | plus (a : Atom)
deriving DecidableEq, Repr

def Atom.ok : Atom → Char → Bool
  | .lit c, x => x == c
  | .any, x => x != '\n'

/-- Characters with a special meaning outside the modelled part. -/
def special (c : Char) : Bool := c ∈ ['^', '$', '{', '}', '(', ')', '|', '[', ']', '?', '*', '+', '\\', '.']

def alnum (c : Char) : Bool := c.isAlphanum

/-- The quantifier after an atom. -/
def quant (a : Atom) : Str → Tok × Str
  | '*' :: r => (.star a, r)
  | '+' :: r => (.plus a, r)
  | r => (.one a, r)

/-- Python's `re` syntax for the modelled part; `fuel` bounds the number of pieces (`length` suffices). -/
def parseN : Nat → Str → Option (List Tok)
  | _, [] => some []
  | 0, _ => none
  | n + 1, '\\' :: c :: r =>
    if alnum c then none
    else let q := quant (.lit c) r; (parseN n q.2).map (q.1 :: ·)
  | n + 1, '.' :: r => let q := quant .any r; (parseN n q.2).map (q.1 :: ·)
  | n + 1, c :: r =>
    if special c then none
    else let q := quant (.lit c) r; (parseN n q.2).map (q.1 :: ·)

def parse (s : Str) : Option (List Tok) := parseN s.length s

/-- `a*` followed by what `k` accepts. -/
def starLoop (a : Atom) (k : Str → Bool) : Str → Bool
  | [] => k []
  | x :: s => k (x :: s) || (a.ok x && starLoop a k s)

/-- `re.match`: some prefix of the text matches. -/
def matchHere : List Tok → Str → Bool
  | [], _ => true
  | .one a :: ts, s =>
    match s with
    | [] => false
    | x :: s => a.ok x && matchHere ts s
  | .star a :: ts, s => starLoop a (matchHere ts) s
  | .plus a :: ts, s =>
    match s with
    | [] => false
    | x :: s => a.ok x && starLoop a (matchHere ts) s

/-- `re.search`: some part of the text matches. -/
def searchToks (ts : List Tok) : Str → Bool
  | [] => matchHere ts []
  | x :: s => matchHere ts (x :: s) || searchToks ts s

/-- sv.py 46-50 (0 on a match); `none` outside the modelled part of `re`. -/
def reMatch (rex s : Str) : Option Nat :=
  (parse rex).map (fun ts => if searchToks ts s then 0 else 1)

/-- uvm_globals.py 240-250: `uvm_is_match`. -/
def isMatch (expr s : Str) : Option Bool := (reMatch (globToRe expr) s).map (· == 0)

end Verif.Text
