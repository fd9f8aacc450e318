/-!
# Model of the context of sequence items (src/uvm/seq/uvm_sequence_item.py)

Items and sequences are numbers.  Parent chains are followed with fuel; `none` = the fuel is used up (the code would loop).
Random seeds and `p_sequencer` (always the sequencer) are not modelled.
-/
namespace Verif.SeqItem

/-- 61-68. -/
structure State where
  parent : Nat → Option Nat := fun _ => none
  depth : Nat → Option Nat := fun _ => none        -- `none` is -1
  sqr : Nat → Option Nat := fun _ => none
  name : Nat → String
  sqrName : Nat → String                            -- full names of the sequencers

def upd {α : Type} (f : Nat → α) (i : Nat) (v : α) : Nat → α := fun j => if j = i then v else f j

/-- 235-256: `get_depth` (keeps what it computed). -/
def getDepth : Nat → State → Nat → Option (State × Nat)
  | 0, _, _ => none
  | fuel + 1, s, i =>
    match s.depth i with
    | some d => some (s, d)
    | none =>
      match s.parent i with
      | none => some ({ s with depth := upd s.depth i (some 1) }, 1)
      | some p =>
        match getDepth fuel s p with
        | none => none
        | some (s', d) => some ({ s' with depth := upd s'.depth i (some (d + 1)) }, d + 1)

/-- 131-133: the sequencer an item gets: the given one, else that of its parent. -/
def pickSqr (s : State) (i : Nat) (q : Option Nat) : Option Nat :=
  match q with
  | some q => some q
  | none => match s.parent i with
    | some p => s.sqr p
    | none => none

/-- 134-135: the depth of an item whose parent is known. -/
def setDepthFromParent (fuel : Nat) (s : State) (i : Nat) : Option State :=
  match s.parent i with
  | none => some s
  | some p => (getDepth fuel s p).map fun r => { r.1 with depth := upd r.1.depth i (some (r.2 + 1)) }

/-- 129-130: the parent is set unless None is given. -/
def setParent (s : State) (i : Nat) : Option Nat → State
  | some p => { s with parent := upd s.parent i (some p) }
  | none => s

/-- 118-136: `set_item_context(parent_seq, sequencer)`. -/
def setContext (fuel : Nat) (s : State) (i : Nat) (p : Option Nat) (q : Option Nat) : Option State :=
  let s := setParent s i p
  let s := { s with sqr := upd s.sqr i (pickSqr s i q) }
  setDepthFromParent fuel s i

/-- 271-288: `get_full_name`. -/
def fullName : Nat → State → Nat → Option String
  | 0, _, _ => none
  | fuel + 1, s, i =>
    let own := if s.name i ≠ "" then s.name i else "_item"
    match s.parent i with
    | some p => (fullName fuel s p).map fun n => n ++ "." ++ own
    | none => match s.sqr i with
      | some q => some (s.sqrName q ++ "." ++ own)
      | none => some own

/-- 315-332: the loop of `get_root_sequence`: the topmost sequence from `i` on. -/
def top : Nat → State → Nat → Option Nat
  | 0, _, _ => none
  | fuel + 1, s, i =>
    match s.parent i with
    | some p => top fuel s p
    | none => some i

/-- 315-332: `get_root_sequence`: None for an item without a parent. -/
def rootSequence (fuel : Nat) (s : State) (i : Nat) : Option (Option Nat) :=
  match s.parent i with
  | none => some none
  | some _ => (top fuel s i).map some

/-- 335-353: the loop of `get_sequence_path`. -/
def pathLoop : Nat → State → Nat → String → Option String
  | 0, _, _, _ => none
  | fuel + 1, s, i, acc =>
    match s.parent i with
    | some p => pathLoop fuel s p (s.name p ++ "." ++ acc)
    | none => some acc

/-- 335-353: `get_sequence_path`. -/
def sequencePath (fuel : Nat) (s : State) (i : Nat) : Option String := pathLoop fuel s i (s.name i)

end Verif.SeqItem
