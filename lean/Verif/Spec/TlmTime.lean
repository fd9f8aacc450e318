import Verif.Model.TlmTime
/-!
# What a user expects of times: durations in seconds, with no resolution anywhere.
-/
namespace Verif.TlmTime.Spec

/-- The duration in seconds after one call. `scaled` is how many time units `t` counts a length of `secs` seconds as. -/
def after (d : Rat) : Call → Rat
  | .reset => 0
  | .incr t scaled secs => if t < 0 ∨ scaled = 0 then d else d + t / scaled * secs
  | .decr t scaled secs =>
    if t < 0 ∨ scaled = 0 then d else if d - t / scaled * secs < 0 then 0 else d - t / scaled * secs
  | .set t secs => t * secs

/-- What is reported about one call of a time that is `d` seconds. -/
def reports (d : Rat) : Call → List Msg
  | .reset => []
  | .incr t scaled _ => if t < 0 then [.timeNeg] else if scaled = 0 then [.badScale] else []
  | .decr t scaled secs =>
    if t < 0 then [.timeNeg] else if scaled = 0 then [.badScale] else if d - t / scaled * secs < 0 then [.tooDecr] else []
  | .set _ _ => []

/-- The reports of a list of calls. -/
def allReports : Rat → List Call → List Msg
  | _, [] => []
  | d, c :: cs => reports d c ++ allReports (after d c) cs

/-- How many times a history makes. -/
def count : List Act → Nat
  | [] => 0
  | .new _ :: as => count as + 1
  | _ :: as => count as

/-- The calls of the time number `i` in a history before which `n` times were made. -/
def callsOf (i : Nat) : Nat → List Act → List Call
  | _, [] => []
  | n, .new _ :: as => callsOf i (n + 1) as
  | n, .resolution _ :: as => callsOf i n as
  | n, .on j c :: as => if j = i ∧ i < n then c :: callsOf i n as else callsOf i n as

/-- All resolutions given are lengths of time (0 as the argument of the constructor: the default). -/
def Sane : List Act → Prop
  | [] => True
  | .new r :: as => 0 ≤ r ∧ Sane as
  | .resolution r :: as => 0 < r ∧ Sane as
  | .on _ _ :: as => Sane as

/-- A call that is given lengths of time only. -/
def Forward : Call → Prop
  | .reset => True
  | .incr _ scaled secs => 0 ≤ scaled ∧ 0 ≤ secs
  | .decr _ scaled secs => 0 ≤ scaled ∧ 0 ≤ secs
  | .set t secs => 0 ≤ t * secs

end Verif.TlmTime.Spec
