import Verif.Model.Reg
import Verif.Model.RegMap
/-!
# Model of `UVMRegPredictor` (src/uvm/reg/uvm_reg_predictor.py)

Registers are numbers; `regs` gives their state (`Verif.Model.Reg`).  The pool `m_pending` is an association list in insertion order.
What the adapter's `bus2reg` leaves in the bus operation is the input.  Not modelled: the user's `pre_predict` (the default does nothing), coverage
sampling, informational messages, registers with an own `do_predict` (FIFO and indirect registers).  `none` is a raised exception.
-/
namespace Verif.RegPredictor
open Verif.Reg Verif.RegField

/-- What the adapter made of an observed transaction (152-153); `be` is −1 unless the adapter sets it. -/
structure Beat where
  read : Bool
  addr : Nat
  data : Nat
  be : Int := -1
deriving DecidableEq, Repr

/-- `UVMPredictS` (45-49) with the parts of its item that are used: kind, `value[0]`, the addresses seen. -/
structure Pend where
  read : Bool
  value : Nat
  addrs : List Nat
deriving DecidableEq, Repr

/-- What the predictor asks of the register model. -/
structure Conf where
  /-- `map.get_reg_by_offset(addr, read)` -/
  rg : Nat → Bool → Option Nat
  /-- `map_info.addr` -/
  addrs : Nat → List Nat
  /-- `map.get_n_bytes()` -/
  w : Nat
  rights : Nat → Rights
  /-- `local_map.get_check_on_read()` -/
  check : Nat → Bool

/-- What is reported: a prediction (written to `reg_ap`), a collision, a failed check, a failed lookup. -/
inductive Ev where
  | predicted (r : Nat) (read : Bool) (v : Nat)
  | collision (r : Nat)
  | mismatch (r : Nat)
  | internal (r : Nat)
deriving DecidableEq, Repr

def Ev.reg : Ev → Nat
  | .predicted r _ _ => r
  | .collision r => r
  | .mismatch r => r
  | .internal r => r

structure St where
  regs : Nat → Reg
  pend : List (Nat × Pend) := []
  log : List Ev := []

/-- `m_pending.delete(rg)`. -/
def del (l : List (Nat × Pend)) (r : Nat) : List (Nat × Pend) := l.filter fun q => q.1 != r

/-- `m_pending[rg]` after the entry was changed or put at the end. -/
def put (l : List (Nat × Pend)) (r : Nat) (p : Pend) : List (Nat × Pend) :=
  if (l.lookup r).isSome then l.map (fun q => if q.1 = r then (r, p) else q) else l ++ [(r, p)]

/-- 203-237: the last address was seen: check, predict, report, forget. -/
def finish (c : Conf) (s : St) (r : Nat) (p : Pend) (be : Int) : Option St :=
  match doPredict (s.regs r) p.value (if p.read then .read else .write) .front (c.rights r) be with   -- 225
  | none => none
  | some (g, _) => some
    { regs := fun x => if x = r then g else s.regs x
      pend := del s.pend r
      log := s.log
        ++ (if p.read && c.check r && !doCheck (s.regs r) (c.rights r) (getMirrored (s.regs r)) p.value then [.mismatch r] else [])  -- 210-213
        ++ [.predicted r p.read p.value] }

/-- 143-247: `write`. -/
def step (c : Conf) (s : St) (b : Beat) : Option St :=
  match c.rg b.addr b.read with                                             -- 157
  | none => some s
  | some r =>
    let p := (s.pend.lookup r).getD ⟨b.read, 0, []⟩                            -- 169-180
    let coll := p.addrs.contains b.addr                                     -- 182
    let log := if coll then s.log ++ [.collision r] else s.log
    match (c.addrs r).idxOf? b.addr with                                    -- 197-198
    | none => some { s with
        pend := if coll then del s.pend r else put s.pend r p
        log := log ++ [.internal r] }
    | some i =>
      let p : Pend := { p with
        value := p.value ||| (b.data <<< (i * c.w * 8))                       -- 200
        addrs := if coll then p.addrs else p.addrs ++ [b.addr] }               -- 201
      if p.addrs.length = (c.addrs r).length then finish c { s with log := log } r p b.be
      else some { s with
        pend := if coll then del s.pend r else put s.pend r p
        log := log }

def run (c : Conf) : St → List Beat → Option St
  | s, [] => some s
  | s, b :: l => match step c s b with
    | none => none
    | some s => run c s l

/-- 253-264: `check_phase`: the registers named in the error; no error if there is none. -/
def checkPhase (s : St) : List Nat := s.pend.map (·.1)

end Verif.RegPredictor
