import Verif.Model.RegConc
import Verif.Spec.RegMap
/-! # Specification vocabulary for concurrent accesses -/
namespace Verif.RegConc
open Verif.RegMap

/-- A device whose addresses do not influence one another: an operation depends on and changes the state behind its own address only
(memories, FIFOs, bits cleared by reading, addresses that refuse ...). -/
def cellBus {γ : Type} (cell : Nat → γ → BusOp → γ × Nat × Bool) : Bus (Nat → γ) := fun s op =>
  let r := cell op.addr (s op.addr) op
  (fun a => if a = op.addr then r.1 else s a, r.2)

/-- The cell of a memory. -/
def memCell (_addr c : Nat) (op : BusOp) : Nat × Nat × Bool :=
  match op.kind with
  | .write => (op.data, 0, true)
  | .read => (c, c, true)

/-- What accesses to a variable return. -/
def asVariable (cur : Nat) : List Req → List Res
  | [] => []
  | .write v :: qs => .wrote true :: asVariable v qs
  | .read :: qs => .got cur true :: asVariable cur qs

/-- The accesses one after the other, each whole: what they return and what they leave. -/
def serial {σ} (bus : Bus σ) (p : Place) : List Req → σ → List Res × σ
  | [], s => ([], s)
  | .write v :: qs, s =>
    let r := busWrite bus p.order p.w p.nBits (2 ^ p.w - 1) 0 p.addrs [v] (s, true)
    let q := serial bus p qs r.1
    (.wrote r.2 :: q.1, q.2)
  | .read :: qs, s =>
    let r := busRead bus p.order p.w p.nBits (2 ^ p.w - 1) 0 p.addrs 1 (s, true)
    let q := serial bus p qs r.1
    (.got (r.2.1.headD 0) r.2.2 :: q.1, q.2)

/-- No two registers share an address, and the order policies only reorder. -/
structure Separate {n : Nat} (places : Fin n → Place) : Prop where
  reorders : ∀ i, Reorders (places i).order
  apart : ∀ i j, i ≠ j → ∀ a ∈ (places i).addrs, a ∉ (places j).addrs

/-- Nothing is running or waiting. -/
def Task.finished (t : Task) : Prop := t.queue = [] ∧ t.cur = none

end Verif.RegConc
