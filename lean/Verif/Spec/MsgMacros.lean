import Verif.Spec.Report
import Verif.Spec.RootSettings
import Verif.Model.MsgMacros
/-! # What the message macros promise -/
namespace Verif.MsgMacros
open Verif.Report

/-- A report object after a history of settings, with its queue of callbacks. -/
def after (ops : List HOp) (q : List Entry) : Reporter := ⟨settings ops, q⟩

/-- The message is dropped: nothing changes and nothing is seen. -/
def dropped (w : World) : Out := ⟨w, [], none⟩

/-- The message is passed on with severity, action and file found in the settings of the reporter, through its catchers. -/
def passedOn (w : World) (ops : List HOp) (q : List Entry) (s : Sev) (i t : String) (v : Int) : Out :=
  process w (settings ops) q (handlerProcess (settings ops) ⟨s, i, t, v, 0, 0⟩)

/-- What should happen to a message with this verbosity at an object with these settings: it is passed on exactly if the limit set for it admits its verbosity. -/
def filtered (w : World) (ops : List HOp) (q : List Entry) (s : Sev) (i t : String) (v : Int) : Out :=
  if v ≤ specVerb ops s i then passedOn w ops q s i t v else dropped w

/-- The setting does not concern verbosities. -/
def quiet : HOp → Bool
  | .setVerbosityLevel _ | .setIdVerbosity _ _ | .setSevIdVerbosity _ _ _ | .reset => false
  | _ => true

/-- A component is created, the level of all components is set from the root, or something else than a verbosity is set. -/
def levelOnly : RootSettings.Op → Bool
  | .new _ => true
  | .hier c (.setVerbosityLevel _) => c == 0
  | .hier _ op => quiet op
  | .one _ op => quiet op

end Verif.MsgMacros
