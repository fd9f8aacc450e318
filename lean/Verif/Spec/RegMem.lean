import Verif.Model.RegMem
import Verif.Spec.RegChip
/-! # Specification vocabulary for registers and memories on one bus -/
namespace Verif.RegMem
open Verif.Reg Verif.RegAccess Verif.RegMap Verif.RegSystem

/-- A system of `m` memories and something else (with bus `a`): the address selects who is accessed. -/
def soc {m : Nat} {σ} (sel : Nat → Option (Fin m)) (a : Bus σ) : Bus (σ × (Fin m → Nat → Nat)) := fun s op =>
  match sel op.addr with
  | none => ((((a s.1 op).1), s.2), (a s.1 op).2)
  | some j => ((s.1, fun k => if k = j then (memBus (s.2 j) op).1 else s.2 k), (memBus (s.2 j) op).2)

/-- The memory with the same settings on another bus, with front-door accesses only. -/
def place {σ} (e : Mem.Env (Nat → Nat)) (bus : Bus σ) : Mem.Env σ where
  size := e.size
  nBits := e.nBits
  ro := e.ro
  dfltBack := e.dfltBack
  loc := e.loc.map fun l => { info := l.info, w := l.w, unmapped := l.unmapped }
  mapGiven := e.mapGiven
  bus := bus
  order := e.order

/-- The operations on memory `j`. -/
def opsOf {n m : Nat} (j : Fin m) (h : List (Op n m)) : List Mem.Op :=
  h.filterMap fun | .mem k o => if k = j then some o else none | .reg _ _ => none

/-- What the callers of the operations on memory `j` saw. -/
def resOf {n m : Nat} (j : Fin m) (h : List (Ans n m)) : List Mem.Res :=
  h.filterMap fun | .mem k o => if k = j then some o else none | .reg _ _ => none

/-- The operations on registers. -/
def regOps {n m : Nat} (h : List (Op n m)) : List (Fin n × RegAccess.Op) :=
  h.filterMap fun | .mem _ _ => none | .reg i o => some (i, o)

/-- What their callers saw. -/
def regOuts {n m : Nat} (h : List (Ans n m)) : List Out :=
  h.filterMap fun | .mem _ _ => none | .reg _ o => some o

/-- Who the operation is for. -/
def Op.of {n m : Nat} : Op n m → Fin n ⊕ Fin m
  | .reg i _ => .inl i
  | .mem j _ => .inr j

/-- Who answered. -/
def Ans.of {n m : Nat} : Ans n m → Fin n ⊕ Fin m
  | .reg i _ => .inl i
  | .mem j _ => .inr j

/-- The memory is reached under the addresses of its words. -/
def Selected {m : Nat} (sel : Nat → Option (Fin m)) (j : Fin m) (e : Mem.Env (Nat → Nat)) : Prop :=
  ∀ l, e.loc = some l → ∀ o, o < e.size → ∀ a ∈ memAddrs l.info o, sel a = some j

end Verif.RegMem
