import Verif.Model.SqrIds
/-! # Is a sequence known to a sequencer? Read off the history -/
namespace Verif.SqrIds

/-- The relation of one sequence to one sequencer: never used since its last start; in use; ended there. -/
inductive Status where
  | fresh | live | ended
deriving DecidableEq, Repr

/-- A start forgets everything and uses the sequencer it starts on; waiting for a grant uses the sequencer unless the
sequence has ended there; the end on this sequencer ends the use. Calls about other sequences or sequencers do not count. -/
def next (i q : Nat) (st : Status) : Op → Status
  | .start j r => if j = i then (if r = some q then .live else .fresh) else st
  | .register j r => if j = i ∧ r = q then (if st = .fresh then .live else st) else st
  | .exit j r => if j = i ∧ r = q then (if st = .live then .ended else st) else st
  | _ => st

/-- The status after a history. -/
def status (i q : Nat) (h : List Op) : Status := h.foldl (next i q) .fresh

/-- The id in the item that was sent. -/
def itemId : Out → Int
  | .sent n => n
  | _ => 0

/-- The id that `send_request` puts into an item after history `h`. -/
def sentId (h : List Op) (i q : Nat) : Int := itemId (step (runS step init h) (.send i q)).2

/-- What a response at sequencer `q` with sequence id `n` does after history `h`. -/
def answer (h : List Op) (q : Nat) (n : Int) : Out := (step (runS step init h) (.response q n)).2

end Verif.SqrIds
