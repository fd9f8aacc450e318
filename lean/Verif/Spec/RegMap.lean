import Verif.Model.RegMap
/-! # Specification vocabulary for address maps and bus accesses -/
namespace Verif.RegMap

/-- A device with one memory cell per address. -/
def memBus : Bus (Nat → Nat) := fun s op =>
  match op.kind with
  | .write => (fun a => if a = op.addr then op.data else s a, 0, true)
  | .read => (s, s op.addr, true)

/-- A device whose address is a FIFO: writes push, reads pop. -/
def fifoBus : Bus (List Nat) := fun s op =>
  match op.kind with
  | .write => (s ++ [op.data], 0, true)
  | .read => match s with
    | [] => ([], 0, false)
    | x :: s => (s, x, true)

/-- A bus that also records the operations it was asked to perform. -/
def recorded {σ} (bus : Bus σ) : Bus (σ × List BusOp) := fun s op =>
  let r := bus s.1 op
  ((r.1, s.2 ++ [op]), r.2)

/-- Least number of words of `w` bytes that hold `n` bytes. -/
def IsWordCount (n w k : Nat) : Prop := n ≤ k * w ∧ ∀ j, n ≤ j * w → k ≤ j

/-- The addresses an item of `k` words should have in a map of its own: consecutive addressing units from `b`,
ascending, descending or constant. -/
def wordAddr (e : Endian) (b m k i : Nat) : Nat :=
  match e with
  | .little => b + i * m
  | .big => b + (k - 1 - i) * m
  | .littleFifo | .bigFifo => b
  | .none => 0

/-- What nesting should mean: each word of the submap is an item of the parent, at the submap's offset plus the word's
address scaled to parent words. -/
def physSpec : Map → (base memOff n : Nat) → List Nat
  | .root c b, base, memOff, n => (localAddrs c base memOff n).map (· + b)
  | .sub c off p, base, memOff, n =>
    (localAddrs c base memOff n).flatMap fun a => physSpec p (off + a * ratio c.nBytes p.cfg.nBytes) 0 c.nBytes

/-- Every parent is at least as wide as its child. -/
def Widening : Map → Prop
  | .root _ _ => True
  | .sub c _ p => c.nBytes ≤ p.cfg.nBytes ∧ Widening p

/-- Sum of the submap offsets on the way up, and the base address of the root. -/
def totalOffset : Map → Nat
  | .root _ b => b
  | .sub _ off p => off + totalOffset p

/-- The narrowest bus on the way from a map to the root. -/
def narrowest : Map → Nat
  | .root c _ => c.nBytes
  | .sub c _ p => min c.nBytes (narrowest p)

/-- All buses have at least one byte. -/
def Positive : Map → Prop
  | .root c _ => 1 ≤ c.nBytes
  | .sub c _ p => 1 ≤ c.nBytes ∧ Positive p

/-- No map two or more levels below the root has to split an access into several words. -/
def SplitNearRoot : Map → (n : Nat) → Prop
  | .root _ _, _ => True
  | .sub c _ (.root _ _), _ => 1 ≤ c.nBytes
  | .sub c _ p, n => 1 ≤ c.nBytes ∧ n ≤ c.nBytes ∧ SplitNearRoot p c.nBytes

/-- The statuses the bus gives when all of `ops` are performed one after the other. -/
def statuses {σ} (bus : Bus σ) : σ → List BusOp → List Bool
  | _, [] => []
  | s, op :: ops => (bus s op).2.2 :: statuses bus (bus s op).1 ops

/-- A transaction order policy only reorders. -/
def Reorders (order : Order) : Prop := ∀ l, (order l).Perm l

/-- One register claiming one address, seen with the accesses `acc`. -/
structure Claim where
  acc : Nat → RegField.Acc
  rg : Nat
  addr : Nat

/-- All claims, in the order in which they are made. -/
def claims (es : List Entry) : List Claim := es.flatMap fun e => e.addrs.map fun a => ⟨e.acc, e.rg, a⟩

end Verif.RegMap
