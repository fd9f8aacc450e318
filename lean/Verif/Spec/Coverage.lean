import Verif.Model.Coverage
import Verif.Spec.RegBlock
/-!
# Which coverage models are present and on after a history of calls
-/
namespace Verif.Coverage
open Verif.RegBlock (State Below Legal)

/-- Model `k` is one of those named by `m`. -/
def Names (m : Int) (k : Nat) : Prop := Int.testBit m k = true

/-- `y` is `x`, or `x` is a block and `y` is a block, register or memory within it, at any depth. -/
def Within (s : State) (x y : Node) : Prop :=
  match x, y with
  | .blk b, .blk d => Below s b d
  | .blk b, .reg r => ∃ d, Below s b d ∧ r ∈ (s.blk d).regs
  | .blk b, .mem m => ∃ d, Below s b d ∧ m ∈ (s.blk d).mems
  | x, y => x = y

/-- For each node and model: is it present, is it on. -/
structure Want where
  has : Node → Nat → Prop
  on : Node → Nat → Prop

/-- `add_coverage` makes models present.  `set_coverage` decides for everything within: on is what is named and
present.  Nothing else changes. -/
def want : State → Want → List Op → Want
  | _, w, [] => w
  | s, w, .tree op :: ops => want (RegBlock.step s op) w ops
  | s, w, .add x m :: ops => want s { w with has := fun y k => w.has y k ∨ (y = x ∧ Names m k) } ops
  | s, w, .set x m :: ops =>
    want s { w with on := fun y k => (Within s x y ∧ w.has y k ∧ Names m k) ∨ (¬ Within s x y ∧ w.on y k) } ops

/-- At first: present is what was named at construction; nothing is on. -/
def wantInit (h : Node → Int) : Want := ⟨fun y k => Names (h y) k, fun _ _ => False⟩

/-- The calls that build the tree are sensible (see `Verif.RegBlock.Legal`). -/
def LegalOps : State → List Op → Prop
  | _, [] => True
  | s, .tree op :: ops => Legal s op ∧ LegalOps (RegBlock.step s op) ops
  | s, .add _ _ :: ops => LegalOps s ops
  | s, .set _ _ :: ops => LegalOps s ops

/-- Everything named by `m` is in `P`. -/
def AllNamed (m : Int) (P : Nat → Prop) : Prop := ∀ k, Names m k → P k

end Verif.Coverage
