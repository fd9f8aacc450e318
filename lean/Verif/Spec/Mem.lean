import Verif.Model.Mem
import Verif.Spec.RegMap
/-! # What memory accesses should do -/
namespace Verif.Mem
open Verif.RegMap

/-- An access by the user. -/
inductive Op where
  | write (o v : Nat) (p : Path)
  | burst (o : Nat) (vs : List Nat) (p : Path)
  | read (o : Nat) (p : Path)

/-- What the user sees of an access. -/
structure Res where
  ok : Bool
  errs : List Err
  value : Option Nat

def exec {σ} (e : Env σ) (s : σ) : Op → Option (σ × Res)
  | .write o v p => (write e {} {} s o v p).map fun r => (r.dev, ⟨r.item.ok, r.errs, none⟩)
  | .burst o vs p => (burstWrite e {} {} s o vs p).map fun r => (r.dev, ⟨r.item.ok, r.errs, none⟩)
  | .read o p => (read e {} {} s o p).map fun r => (r.1.dev, ⟨r.1.item.ok, r.1.errs, some r.2⟩)

def execAll {σ} (e : Env σ) : σ → List Op → Option (σ × List Res)
  | s, [] => some (s, [])
  | s, op :: h => do
    let r ← exec e s op
    let q ← execAll e r.1 h
    return (q.1, r.2 :: q.2)

/-- What the access writes to word `o`. -/
def written (o : Nat) : Op → Option Nat
  | .write o' v _ => if o' = o then some v else none
  | .burst o' vs _ => if o' ≤ o then vs[o - o']? else none
  | .read _ _ => none

/-- The value written last to word `o`. -/
def lastWritten (o : Nat) : List Op → Option Nat
  | [] => none
  | op :: h => (lastWritten o h).or (written o op)

/-- The access goes through the front door: it is asked for, or the default of the block, or there is no back door. -/
def ViaFront {σ} (e : Env σ) (p : Path) : Prop := p = .front ∨ (p = .dflt ∧ e.dfltBack = false) ∨ (e.user = none ∧ e.hdl = none)

/-- The access is one the memory allows, through the front door: within its size, values of its width (`n` bytes), and no burst of words wider than the bus. -/
def Allowed {σ} (e : Env σ) (w n : Nat) : Op → Prop
  | .write o v p => o < e.size ∧ v < 2 ^ (8 * n) ∧ ViaFront e p
  | .burst o vs p => vs ≠ [] ∧ o + vs.length ≤ e.size ∧ (∀ v ∈ vs, v < 2 ^ (8 * n)) ∧ (vs.length ≤ 1 ∨ e.nBits ≤ 8 * w) ∧ ViaFront e p
  | .read o p => o < e.size ∧ ViaFront e p

end Verif.Mem
