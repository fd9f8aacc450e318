import Init.Data.Rat.Basic
/-!
# Model of canonical times (src/uvm/tlm2/uvm_tlm2_time.py)

The numbers (Python floats and ints) are rational numbers: rounding is not modelled.
-/
namespace Verif.TlmTime

/-- 33-66: one object: `m_res` and `m_time`. -/
structure Time where
  res : Rat
  time : Rat
deriving Repr, DecidableEq

/-- What the reports say: `UVM/TLM/TIMENEG`, `UVM/TLM/BADSCALE` (fatal), `UVM/TLM/TOODECR`. -/
inductive Msg where
  | timeNeg | badScale | tooDecr
deriving Repr, DecidableEq

/-- What a call gives: the object afterwards, the reports, and whether it raised an exception. -/
structure Out where
  obj : Time
  msgs : List Msg
  raised : Bool
deriving Repr, DecidableEq

/-- 63-66: the constructor; `dflt`: the class attribute `m_resolution`. -/
def mkTime (dflt res : Rat) : Time := ⟨if res = 0 then dflt else res, 0⟩

/-- 76-77: `reset`. -/
def reset (o : Time) : Time := { o with time := 0 }

/-- 82-84: `_to_m_res`; `none`: ZeroDivisionError. -/
def toRes (o : Time) (t scaled secs : Rat) : Option Rat :=
  if scaled = 0 ∨ o.res = 0 then none else some (t / scaled * (secs / o.res))

/-- 98-99: `get_realtime`; `none`: ZeroDivisionError. -/
def getReal (o : Time) (scaled secs : Rat) : Option Rat :=
  if secs = 0 then none else some (o.time * scaled * (o.res / secs))

/-- 114-122: `incr`.  The fatal report of 119 does not return in a simulation that ends there; if it returns, 122 divides by zero: in both
cases the object stays as it is. -/
def incr (o : Time) (t scaled secs : Rat) : Out :=
  if t < 0 then ⟨o, [.timeNeg], false⟩
  else match toRes o t scaled secs with
    | none => ⟨o, if scaled = 0 then [.badScale] else [], true⟩
    | some d => ⟨{ o with time := o.time + d }, [], false⟩

/-- 136-148: `decr`. -/
def decr (o : Time) (t scaled secs : Rat) : Out :=
  if t < 0 then ⟨o, [.timeNeg], false⟩
  else match toRes o t scaled secs with
    | none => ⟨o, if scaled = 0 then [.badScale] else [], true⟩
    | some d =>
      let o1 : Time := { o with time := o.time - d }
      if o1.time < 0 then ⟨reset o1, [.tooDecr], false⟩ else ⟨o1, [], false⟩

/-- 160-161: `get_abstime`; `none`: ZeroDivisionError. -/
def getAbs (o : Time) (secs : Rat) : Option Rat :=
  if secs = 0 then none else some (o.time * o.res / secs)

/-- 173-174: `set_abstime`. -/
def setAbs (o : Time) (t secs : Rat) : Out :=
  if o.res = 0 then ⟨o, [], true⟩ else ⟨{ o with time := t * secs / o.res }, [], false⟩

/-- The calls of one object that can change it. -/
inductive Call where
  | reset
  | incr (t scaled secs : Rat)
  | decr (t scaled secs : Rat)
  | set (t secs : Rat)
deriving Repr, DecidableEq

/-- One call. -/
def call (o : Time) : Call → Out
  | .reset => ⟨reset o, [], false⟩
  | .incr t s u => incr o t s u
  | .decr t s u => decr o t s u
  | .set t u => setAbs o t u

/-- All times of a simulation and the class attribute `m_resolution` (36); the reports carry the object's number. -/
structure Sys where
  dflt : Rat
  objs : List Time
  log : List (Nat × Msg)

/-- What a test does. -/
inductive Act where
  | resolution (res : Rat)
  | new (res : Rat)
  | on (i : Nat) (c : Call)
deriving Repr, DecidableEq

/-- 36: at import, with a resolution of one picosecond. -/
def start : Sys := ⟨1 / 1000000000000, [], []⟩

/-- 52-53: `set_time_resolution`; the constructor; a call of the object `i`. -/
def step (s : Sys) : Act → Sys
  | .resolution r => { s with dflt := r }
  | .new r => { s with objs := s.objs ++ [mkTime s.dflt r] }
  | .on i c => match s.objs[i]? with
    | none => s
    | some o =>
      let x := call o c
      { s with objs := s.objs.set i x.obj, log := s.log ++ x.msgs.map (fun m => (i, m)) }

def run (as : List Act) : Sys := as.foldl step start

end Verif.TlmTime
