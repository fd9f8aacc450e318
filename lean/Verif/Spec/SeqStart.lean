import Verif.Model.SeqStart
/-! # The documented life of a sequence -/
namespace Verif.SeqStart

/-- The documented order of the methods, and the state the sequence is in while each runs. -/
def documented (parent callPrePost : Bool) : List (Hook × St) :=
  [(.preStart, .preStart)]
  ++ (if callPrePost then [(.preBody, .preBody)] else [])
  ++ (if parent then [(.parentPreDo, if callPrePost then .preBody else .preStart), (.parentMidDo, if callPrePost then .preBody else .preStart)] else [])
  ++ [(.body, .body)]
  ++ (if parent then [(.parentPostDo, .ended)] else [])
  ++ (if callPrePost then [(.postBody, .postBody)] else [])
  ++ [(.postStart, .postStart)]

/-- The objection a sequence is to hold while it runs: on its starting phase, if it was told to object. -/
def objection (q : Seq) : List Nat := if q.apo then q.phase.toList else []

/-- May be started: new or at the end of an earlier run, and nobody has used the settings yet. -/
def Idle (q : Seq) : Prop := q.state = .created ∨ q.state = .stopped ∨ q.state = .finished

instance (q : Seq) : Decidable (Idle q) := inferInstanceAs (Decidable (_ ∨ _))

/-- No method raises an exception. -/
def Calm (sc : Hook → Script) : Prop := ∀ h, (sc h).raises = false

end Verif.SeqStart
