import Verif.Model.TlmFifo
/-!
# Model of `UVMInOrderComparator` (src/uvm/comps/uvm_in_order_comparator.py) and
`UVMAlgorithmicComparator` (src/uvm/comps/uvm_algorithmic_comparator.py)

The comparator owns two analysis FIFOs (`Verif.Model.TlmFifo`, unbounded) and one coroutine, `run_phase`, which is
coroutine 0 of both.  One transition is a write to one of the exports, `flush`, or one atomic segment of
`run_phase`, up to the point where a `get` suspends.  `comp` is the comparison policy (`CompType.comp(b, a)`, for the
class comparator `b.compare(a)`, uvm_policies.py 44-48 and 95-98, both of which return a bool).  Report output is not
modelled; the observers of `pair_ap` are assumed not to call back into the comparator.
-/
namespace Verif.Comparator
open Verif

variable {α : Type}

/-- Where `run_phase` is: not started, in the first `get` (line 163), in the second (line 164, holding `b`). -/
inductive Pc (α : Type) where
  | notStarted
  | waitB
  | waitA (b : α)
deriving DecidableEq, Repr

/-- The two FIFOs, `m_matches`, `m_mismatches` (lines 127-130) and the position of `run_phase`. -/
structure State (α : Type) where
  before : TlmFifo.State α
  after : TlmFifo.State α
  nMatch : Nat
  nMismatch : Nat
  pc : Pc α

/-- One pair published on `pair_ap` (lines 185-189): `first` is from the after stream, `second` from the before
stream; `ok` records which branch of line 170 was taken. -/
structure Pair (α : Type) where
  first : α
  second : α
  ok : Bool
deriving DecidableEq, Repr

/-- `__init__` 116-130. -/
def init : State α := ⟨TlmFifo.initAnalysis, TlmFifo.initAnalysis, 0, 0, .notStarted⟩

/-- Lines 170-189: compare, count, publish. -/
def compareOne (comp : α → α → Bool) (s : State α) (b a : α) : State α × Pair α :=
  if comp b a = false then ({ s with nMismatch := s.nMismatch + 1 }, ⟨a, b, false⟩)
  else ({ s with nMatch := s.nMatch + 1 }, ⟨a, b, true⟩)

/-- Line 164 reached with `b`: `await m_after_fifo.get`, then the comparison; `next` is the next round of the loop. -/
def getAfter (comp : α → α → Bool) (next : State α → State α × List (Pair α)) (s : State α) (b : α) :
    State α × List (Pair α) :=
  let r := TlmFifo.step s.after (.callGet 0)
  match r.2 with
  | .gotten _ a =>
    let c := compareOne comp { s with after := r.1 } b a
    let k := next c.1
    (k.1, c.2 :: k.2)
  | _ => ({ s with after := r.1, pc := .waitA b }, [])

/-- Line 163 reached: `await m_before_fifo.get`.  `n` bounds the rounds of the `while True` loop made in one segment
(each takes a transaction from the before FIFO, so its fill level plus one suffices). -/
def getBefore (comp : α → α → Bool) : Nat → State α → State α × List (Pair α)
  | 0, s => (s, [])
  | n + 1, s =>
    let r := TlmFifo.step s.before (.callGet 0)
    match r.2 with
    | .gotten _ b => getAfter comp (getBefore comp n) { s with before := r.1 } b
    | _ => ({ s with before := r.1, pc := .waitB }, [])

/-- Transitions. -/
inductive Ev (α : Type) where
  | start                        -- the phase starts `run_phase`
  | resume                       -- the scheduler resumes `run_phase`
  | writeBefore (x : α)          -- before_export.write(x)
  | writeAfter (x : α)           -- after_export.write(x)
  | flush
deriving DecidableEq, Repr

/-- One transition; the result is the list of pairs published. -/
def step (comp : α → α → Bool) (s : State α) : Ev α → State α × List (Pair α)
  | .start =>
    match s.pc with
    | .notStarted => getBefore comp (s.before.m.queue.length + 1) s
    | _ => (s, [])
  | .resume =>
    match s.pc with
    | .notStarted => (s, [])
    | .waitB =>
      let r := TlmFifo.step s.before (.resume 0)
      match r.2 with
      | .gotten _ b => getAfter comp (getBefore comp (s.before.m.queue.length + 1)) { s with before := r.1 } b
      | _ => ({ s with before := r.1 }, [])
    | .waitA b =>
      let r := TlmFifo.step s.after (.resume 0)
      match r.2 with
      | .gotten _ a =>
        let c := compareOne comp { s with after := r.1 } b a
        let k := getBefore comp (s.before.m.queue.length + 1) c.1
        (k.1, c.2 :: k.2)
      | _ => ({ s with after := r.1 }, [])
  | .writeBefore x => ({ s with before := (TlmFifo.step s.before (.write x)).1 }, [])  -- 138, uvm_tlm_fifos.py 210
  | .writeAfter x => ({ s with after := (TlmFifo.step s.after (.write x)).1 }, [])     -- 139
  | .flush => ({ s with nMatch := 0, nMismatch := 0 }, [])                              -- 196-198

/-- Calls of the algorithmic comparator. -/
inductive AEv (α β : Type) where
  | start | resume
  | write (x : β)                -- write() of the before side
  | writeAfter (x : α)

/-- `UVMAlgorithmicComparator`: `write` transforms and forwards to the inner comparator's before export
(uvm_algorithmic_comparator.py 118-119), the after export is connected through (114-115). -/
def astep {β : Type} (comp : α → α → Bool) (transform : β → α) (s : State α) : AEv α β → State α × List (Pair α)
  | .start => step comp s .start
  | .resume => step comp s .resume
  | .write x => step comp s (.writeBefore (transform x))
  | .writeAfter x => step comp s (.writeAfter x)

end Verif.Comparator
