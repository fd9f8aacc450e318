import Verif.Model.Recording
/-! # What the record of transactions should look like -/
namespace Verif.Recording

/-- The recorder a line is about. -/
def Line.about : Line → Option Nat
  | .stream _ => none
  | .opn r _ _ => some r
  | .attr r _ _ => some r
  | .close r _ => some r
  | .free r => some r
  | .link _ _ => none

/-- The lines about recorder `r`. -/
def linesOf (r : Nat) (log : List Line) : List Line := log.filter fun l => l.about == some r

/-- Where a reader of the file is with a recorder. -/
inductive Stage where
  | unknown | opened | closed | freed
deriving DecidableEq, Repr

/-- Reading a line about a recorder; `again`: is it allowed to close a closed recorder?  `none`: the line is out of place. -/
def Stage.read (again : Bool) : Stage → Line → Option Stage
  | .unknown, .opn _ _ _ => some .opened
  | .opened, .attr _ _ _ => some .opened
  | .opened, .close _ _ => some .closed
  | .closed, .attr _ _ _ => some .closed
  | .closed, .close _ _ => if again then some .closed else none
  | .closed, .free _ => some .freed
  | _, _ => none

def readAll (again : Bool) : Stage → List Line → Option Stage
  | s, [] => some s
  | s, l :: ls => (s.read again l).bind (readAll again · ls)

/-- The user closes no recorder that is not open. -/
def Careful (w : World) : List Op → Prop
  | [] => True
  | o :: os => (∀ r t x, o = .close r t → w.recs[r]? = some x → x.st = .opened) ∧ ∀ w', step w o = some w' → Careful w' os

/-- The time a line tells. -/
def Line.time : Line → Option Nat
  | .opn _ _ t => some t
  | .close _ t => some t
  | _ => none

/-- The call gives no time of its own. -/
def Op.now : Op → Prop
  | .openRecorder _ t => t = 0
  | .close _ t => t = 0
  | .free _ t => t = 0
  | _ => True

end Verif.Recording
