import Verif.Model.Objection
/-! # Specification of objection counting -/
namespace Verif.Objection

/-- `a` is `o` or an object above it. -/
inductive Above (t : Tree) : Nat → Nat → Prop where
  | refl (o) : Above t o o
  | up {a o} : o ≠ 0 → Above t a (t.parent o) → Above t a o

/-- The drains that were scheduled and have not yet been passed on to the parent. -/
def pending (s : State) : List Ctx := s.sched.filterMap id ++ s.forked ++ s.fctx

/-- The counts held by the sources (numbered below `N`) at or below `a`. -/
def sumBelow (t : Tree) (N : Nat) (cnt : Nat → Int) (a : Nat) : Int :=
  ((List.range N).map fun o => if a ∈ chain t o then cnt o else 0).sum

/-- The counts that pending drains below `a` still hold at `a`. -/
def heldBelow (t : Tree) (l : List Ctx) (a : Nat) : Int :=
  (l.map fun c => if a ∈ (chain t c.obj).tail then c.count else 0).sum

/-- What a source count should be: raises add, drops that do not exceed it subtract, `clear` resets. -/
def specCount (cnt : Nat → Int) : Op → Nat → Int
  | .raise o n => fun x => if x = o then cnt o + n else cnt x
  | .drop o n => fun x => if x = o ∧ n ≤ cnt o then cnt o - n else cnt x
  | .clear => fun _ => 0
  | _ => cnt

/-- The drain of `a` is running (its delay or its callbacks). -/
def Draining (s : State) (a : Nat) : Prop := ∃ c ∈ s.fctx, c.obj = a

/-- The calls and steps the accounting theorems cover: objects numbered below `N`, no negative counts, no raise that meets a running
drain, no `clear` during a forked or running drain.  What happens otherwise is the subject of the `_fails` theorems. -/
def Allowed (t : Tree) (N : Nat) (s : State) : Op → Prop
  | .raise o n => o < N ∧ 0 ≤ n ∧ ∀ a ∈ chain t o, ¬ Draining s a
  | .drop o n => o < N ∧ 0 ≤ n
  | .clear => s.forked = [] ∧ s.fctx = []
  | _ => True

/-- `Reach t N ops s`: the allowed history `ops` leads from the initial state to `s`. -/
inductive Reach (t : Tree) (N : Nat) : List Op → State → Prop where
  | nil : Reach t N [] {}
  | snoc {ops s op} : Reach t N ops s → Allowed t N s op → Reach t N (ops ++ [op]) (step t s op).1

/-- Some coroutine can take this step. -/
def Enabled (s : State) : Op → Prop
  | .bg => s.ev = true
  | .start => 0 < s.toStart
  | .notify i => ∃ r, s.running[i]? = some r ∧ r.notified = false
  | .finish i => ∃ r, s.running[i]? = some r ∧ r.notified = true
  | _ => False

/-- `ops` are steps of coroutines that can be taken one after the other from `s`. -/
def EnabledRun (t : Tree) : State → List Op → Prop
  | _, [] => True
  | s, op :: ops => Enabled s op ∧ EnabledRun t (step t s op).1 ops

/-- Allowed histories in which, whenever the background process wakes up, at most one drain waits in the shared list. -/
inductive ReachOne (t : Tree) (N : Nat) : State → Prop where
  | nil : ReachOne t N {}
  | snoc {s op} : ReachOne t N s → Allowed t N s op → (op = .bg → s.sched.length ≤ 1) → ReachOne t N (step t s op).1

end Verif.Objection
