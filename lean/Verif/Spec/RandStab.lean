import Verif.Model.RandStab
/-! # What random stability means -/
namespace Verif.RandStab
variable {S V : Type}

/-- The first `n` values of an object whose values come from one state, each from what the last left. -/
def stream (solve : S → V × S) : Nat → S → List V
  | 0, _ => []
  | n + 1, s => (solve s).1 :: stream solve n (solve s).2

mutual
/-- Object `o` has no random sub-objects wherever it occurs in `x`, and all sub-objects are registered by name. -/
def leafIn (o : Nat) : Obj → Bool
  | .node i _ subs => (i != o || subs.isEmpty) && leafInAll o subs
def leafInAll (o : Nat) : List Obj → Bool
  | [] => true
  | e :: es => !e.byObject && leafIn o e && leafInAll o es
end

mutual
/-- How often `o` is randomized when `x` is: objects that are switched off are left out with all below. -/
def occ (mode : Nat → Bool) (o : Nat) : Obj → Nat
  | .node i _ subs => if mode i then occAll mode o subs + (if i = o then 1 else 0) else 0
def occAll (mode : Nat → Bool) (o : Nat) : List Obj → Nat
  | [] => 0
  | e :: es => occ mode o e + occAll mode o es
end

/-- The event leaves `o` alone, but for calls of `randomize()`. -/
def fair (o : Nat) : Ev S → Bool
  | .create x => x != o
  | .randomize x => leafIn o x
  | .randomizeWith x => x.id != o && leafIn o x
  | .use _ => true

/-- How often the event randomizes `o`. -/
def times (mode : Nat → Bool) (o : Nat) : Ev S → Nat
  | .create _ => 0
  | .randomize x => occ mode o x
  | .randomizeWith x => occ mode o x
  | .use _ => 0

end Verif.RandStab
