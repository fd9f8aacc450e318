import Verif.Model.Cmdline
import Verif.Spec.Text
/-! # Specification vocabulary for the command line -/
namespace Verif.Cmdline
open Verif.Text

/-- The remainder of an argument that starts with `m`. -/
def remainder (m a : Str) : Option Str := if m <+: a then some (a.drop m.length) else none

/-- A report setting as the user writes it: four fields. -/
structure Setting where
  comp : Str
  id : Str
  sev : Str
  last : Str

/-- The text after `+uvm_set_action=` etc. -/
def Setting.text (s : Setting) : Str := joinWith ',' [s.comp, s.id, s.sev, s.last]

/-- No field contains the separator. -/
def Setting.clean (s : Setting) : Prop := ',' ∉ s.comp ∧ ',' ∉ s.id ∧ ',' ∉ s.sev ∧ ',' ∉ s.last

/-- The severities a severity field selects. -/
def selected (sev : Str) : List Int := if sev = allStr then [0, 1, 2, 3] else [stringToSeverity sev]

/-- What an action setting is meant to do to the component `name`: nothing unless the component matches; else set the
action for the severities selected, for all ids or for the given id. -/
def wantAction (mt : Str → Str → Bool) (name : Str) (s : Setting) : List SetCall :=
  if mt s.comp name = false then []
  else if s.id = allStr then (selected s.sev).map (fun v => .sevAction v (stringToAction s.last))
  else if s.sev = allStr then [.idAction s.id (stringToAction s.last)]
  else (selected s.sev).map (fun v => .sevIdAction v s.id (stringToAction s.last))

/-- What a severity setting is meant to do. -/
def wantSev (mt : Str → Str → Bool) (name : Str) (s : Setting) : List SetCall :=
  if mt s.comp name = false then []
  else if s.id = allStr then (selected s.sev).map (fun v => .sevOver v (stringToSeverity s.last))
  else (selected s.sev).map (fun v => .sevIdOver v s.id (stringToSeverity s.last))

/-- What a verbosity setting `comp,id,verbosity,phase` is meant to do when its phase is build (or empty). -/
def wantVerb (mt : Str → Str → Bool) (name : Str) (s : Setting) : List SetCall :=
  if mt s.comp name = false then []
  else if s.id = allStr then [.verb (convertVerb s.sev)] else [.idVerb s.id (convertVerb s.sev)]

/-- The verbosity each name stands for. -/
def verbosities : List (Str × Int) :=
  [("NONE".toList, 0), ("UVM_NONE".toList, 0), ("LOW".toList, 100), ("UVM_LOW".toList, 100),
   ("MEDIUM".toList, 200), ("UVM_MEDIUM".toList, 200), ("HIGH".toList, 300), ("UVM_HIGH".toList, 300),
   ("FULL".toList, 400), ("UVM_FULL".toList, 400), ("DEBUG".toList, 500), ("UVM_DEBUG".toList, 500)]

end Verif.Cmdline
