import Verif.Util.Loop
/-!
# Model of `UVMSpellChkr` (src/uvm/base/uvm_spell_chkr.py)

Strings are lists over an arbitrary character type.  List accesses out of range (which would raise
`IndexError`) are `none`.  The INFO messages are modelled by the list of alternatives they mention.
-/
namespace Verif.SpellChkr
variable {α : Type} [DecidableEq α]

/-- uvm_spell_chkr.py 187-197: `minimum`. -/
def minimum (a b c : Nat) : Nat := min (min a b) c

/-- Python `d[k] = v`. -/
def put (d : List Nat) (k v : Nat) : Option (List Nat) := if k < d.length then some (d.set k v) else none

/-- uvm_spell_chkr.py 173-180: Steps 5 and 6 for one cell. -/
def cell (s t : List α) (n i j : Nat) (d : List Nat) : Option (List Nat) := do
  let a ← s[i-1]?
  let b ← t[j-1]?
  let cost := if a ≠ b then 1 else 0
  let x ← d[(j-1)*n+i]?
  let y ← d[j*n+i-1]?
  let z ← d[(j-1)*n+i-1]?
  put d (j*n+i) (minimum (x+1) (y+1) (z+cost))

/-- uvm_spell_chkr.py 126-184: `levenshtein_distance`.  `some (-1)` for an empty argument. -/
def levenshteinDistance (s t : List α) : Option Int := do
  let n := s.length + 1
  let m := t.length + 1
  if n = 1 ∨ m = 1 then return -1
  let d := List.replicate (m * n) 0
  let d ← forRange 0 n (fun k d => put d k k) d
  let d ← forRange 0 m (fun k d => put d (k*n) k) d
  let d ← forRange 1 n (fun i d => forRange 1 m (fun j d => cell s t n i j d) d) d
  let r ← d[n*m-1]?
  return (r : Int)

/-- uvm_spell_chkr.py 31: `max_val`. -/
def maxVal : Int := 1

/-- Loop of `check`, lines 81-101, over the keys in dictionary order: current minimum and alternatives. -/
def checkLoop (s : List α) : List (List α) → Int × List (List α) → Option (Int × List (List α))
  | [], acc => some acc
  | key :: ks, (mn, mk) => do
    let distance ← levenshteinDistance key s
    if distance < 0 then checkLoop s ks (mn, mk)
    else if distance < mn then checkLoop s ks (distance, [key])
    else if distance = mn then checkLoop s ks (mn, mk ++ [key])
    else checkLoop s ks (mn, mk)

/-- uvm_spell_chkr.py 37-123: `check`: the returned flag and the alternatives suggested to the user
(lines 103-118; empty list = "no alternatives to suggest"). -/
def check (strtab : List (List α)) (s : List α) : Option (Bool × List (List α)) :=
  if s ∈ strtab then some (true, [])
  else do
    let (mn, mk) ← checkLoop s strtab (maxVal, [])
    if mn = maxVal then return (false, []) else return (false, mk)

end Verif.SpellChkr
