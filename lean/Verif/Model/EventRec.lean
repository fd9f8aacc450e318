import Verif.Model.Recording
/-!
# Model of `record_error_tr` and `record_event_tr` of `UVMComponent` (src/uvm/base/uvm_component.py 1950-2052)

The two functions differ only in the default of `label`, so both are `recordEvent`.  The kind passed to the recorder ("Event" or "Event, Link") is left out, as in
`Verif.Model.Recording`, on which this builds.
-/
namespace Verif.Recording

/-- 1966-1971, 2027-2032: the stream; unlike in `m_begin_tr` the main stream is also used when it is open already. -/
def eventStream (w : World) (c : Comp) (name : String) : World × Comp × Option Nat :=
  if name = "" ∨ name = "main" then
    match c.mainStream with
    | none => match openStream w with
      | (w, some s) => (w, { c with mainStream := some s }, some s)
      | (w, none) => (w, c, none)
    | some s => (w, c, some s)
  else getTrStream w c name

/-- 1978-1983: `record_string` of a text unless it is empty. -/
def recordText (w : World) (r : Nat) (name text : String) : World := if text = "" then w else recordString w r name text

/-- 1973-1991, 2034-2052: the recorder is opened, filled, closed, and freed or kept. -/
def writeEvent (w : World) (s : Nat) (label desc : String) (t : Nat) (info : List (String × String)) (keep : Bool) : Option (World × Nat) :=
  match openRecorder w s t with
  | (w, none) => some (w, 0)
  | (w, some r) => do
    let w := recordText w r "label" label
    let w := recordText w r "desc" desc
    let w := recordAll w r info
    let w ← close w r t
    if keep then
      let q := getHandle w r
      return (q.1, q.2)
    else
      let w ← free w r 0
      return (w, 0)

/-- 1950-1991, 2011-2052: `record_error_tr` and `record_event_tr`; `info` gives what the object records. -/
def recordEvent (w : World) (c : Comp) (name label desc : String) (t : Nat) (info : List (String × String)) (keep : Bool) : Option (World × Comp × Nat) :=
  let t' := timeOf w t
  match eventStream w c name with
  | (w, c, none) => some (w, c, 0)
  | (w, c, some s) => (writeEvent w s label desc t' info keep).map fun q => (q.1, c, q.2)

end Verif.Recording
