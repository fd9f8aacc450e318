import Verif.Model.RegBlock
/-!
# Which blocks are below which, and which histories of a register model are sensible
-/
namespace Verif.RegBlock

/-- `x` is `b` or a sub-block of a block below `b`. -/
inductive Below (s : State) (b : Nat) : Nat → Prop
  | refl : Below s b b
  | sub {y x : Nat} : Below s b y → x ∈ (s.blk y).blks → Below s b x

/-- A call on existing objects that gives a block, register or memory its place once: a block is not configured again
after it was placed, nor under one of its own sub-blocks; a register or memory is not placed twice. -/
def Legal (s : State) : Op → Prop
  | .configure c p => c < s.next ∧ (∀ b, c ∉ (s.blk b).blks) ∧ ∀ q, p = some q → q < s.next ∧ ¬ Below s c q
  | .reg r p => p < s.next ∧ ∀ b, r ∉ (s.blk b).regs
  | .mem m p => p < s.next ∧ ∀ b, m ∉ (s.blk b).mems
  | .lock _ b => b < s.next
  | .new _ => True

/-- Every call of the history is legal when it is made. -/
def LegalRun : State → List Op → Prop
  | _, [] => True
  | s, op :: ops => Legal s op ∧ LegalRun (step s op) ops

end Verif.RegBlock
