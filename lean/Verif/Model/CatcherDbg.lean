import Verif.Model.ReportText
import Verif.Model.Callback
/-!
# Model of the debugging aids of report catchers and of callback iterators

src/uvm/base/uvm_report_catcher.py (`debug_report_catcher`, `process_all_report_catchers`, `process_report_catcher`,
`get_report_catcher`, `print_catcher`, `summarize`) and src/uvm/base/uvm_callback.py (`UVMCallbackIter`).

Messages are those of `Verif.Model.ReportText` (with elements); what `catch` does to the message it is given is a function.
Messages that a catcher issues itself are left out here (they are in `Verif.Model.Report`); so are the counters, which
`Verif.Model.Report` has too.
-/
namespace Verif.CatcherDbg
open Verif.ReportText

/-- uvm_report_catcher.py 59-64: what `catch` returns; `raises` is an exception of the user's code. -/
inductive Ret where
  | throw | caught | raises
deriving DecidableEq, Repr

/-- A catcher: is it enabled, and what does `catch` do. -/
structure Catcher where
  enabled : Bool
  catch_ : Msg → Msg × Ret

/-- uvm_report_catcher.py 141-142: the bits of `m_debug_flags`. -/
structure Flags where
  noCatch : Bool
  noModify : Bool
deriving DecidableEq, Repr

/-- 150: `what & DO_NOT_CATCH`, `what & DO_NOT_MODIFY`. -/
def flags (what : Nat) : Flags := ⟨what % 2 = 1, what / 2 % 2 = 1⟩

inductive Verdict where
  | thrown | caught | raised
deriving DecidableEq, Repr

/-- The message, the messages that the catchers were given (in order), and how it ended. -/
structure Res where
  msg : Msg
  seen : List Msg
  verdict : Verdict
deriving DecidableEq, Repr

/-- 564-570: `act` is `get_report_action` of the report object for an id nobody uses (see `Verif.Report.adjust`). -/
def adjust (act : Sev → Nat) (prev : Sev) (m : Msg) : Msg :=
  if m.sev ≠ prev ∧ m.action = act prev then { m with action := act m.sev } else m

/-- 609-610: with DO_NOT_MODIFY everything is copied back from the clone `orig`; `none` is an exception. -/
def restore (f : Flags) (orig m : Msg) : Option Msg := if f.noModify then copy orig else some m

/-- 612-614. -/
def thrown (f : Flags) : Ret → Bool
  | .caught => f.noCatch
  | _ => true

/-- 549-580 with 601-614. -/
def loop (f : Flags) (act : Sev → Nat) (orig : Msg) : List Catcher → Msg → Res
  | [], m => ⟨m, [], .thrown⟩
  | c :: q, m =>
    if c.enabled = false then loop f act orig q m
    else if (c.catch_ m).2 = .raises then ⟨(c.catch_ m).1, [m], .raised⟩
    else
      match restore f orig (c.catch_ m).1 with
      | none => ⟨(c.catch_ m).1, [m], .raised⟩
      | some m' =>
        if thrown f (c.catch_ m).2 then
          { loop f act orig q (adjust act m.sev m') with
            seen := m :: (loop f act orig q (adjust act m.sev m')).seen }
        else ⟨adjust act m.sev m', [m], .caught⟩

/-- 518-595: the clone is made if there is an enabled catcher (536-544). -/
def process (f : Flags) (act : Sev → Nat) (q : List Catcher) (m : Msg) : Res :=
  if f.noModify && q.any (·.enabled) then
    match copy m with
    | none => ⟨m, [], .raised⟩
    | some orig => loop f act orig q m
  else loop f act m q m

/-- 514, 527-530, 593: `in_catcher` stays set when an exception leaves the loop. -/
def report (f : Flags) (act : Sev → Nat) (q : List Catcher) (inCatcher : Bool) (m : Msg) : Bool × Res :=
  if inCatcher then (true, ⟨m, [], .thrown⟩)
  else ((process f act q m).verdict = .raised, process f act q m)

/-- A history of reports. -/
def reports (f : Flags) (act : Sev → Nat) (q : List Catcher) : Bool → List Msg → List Res
  | _, [] => []
  | b, m :: ms => (report f act q b m).2 :: reports f act q (report f act q b m).1 ms

/-! ## Iterators -/

/-- uvm_callback.py 1226-1227. -/
structure Iter where
  mi : Nat
  cb : Option Nat
deriving DecidableEq, Repr

inductive IterOp where
  | first | last | next | prev
deriving DecidableEq, Repr

/-- 1216-1229. -/
def newIter : Iter := ⟨0, none⟩

/-- 1231-1275; the result of the call is `cb`, which is also what `get_cb` (1277-1284) returns. -/
def iterStep (isa : Nat → Nat → Bool) (s : Callback.State) (o k : Option Nat) (it : Iter) : IterOp → Iter
  | .first => ⟨(Callback.getFirst isa s o k it.mi).2, (Callback.getFirst isa s o k it.mi).1⟩
  | .last => ⟨(Callback.getLast isa s o k it.mi).2, (Callback.getLast isa s o k it.mi).1⟩
  | .next => ⟨(Callback.getNext isa s o k it.mi).2, (Callback.getNext isa s o k it.mi).1⟩
  | .prev => ⟨(Callback.getPrev isa s o k it.mi).2, (Callback.getPrev isa s o k it.mi).1⟩

/-- Several calls on one iterator; the callbacks do not change meanwhile. -/
def iterate (isa : Nat → Nat → Bool) (s : Callback.State) (o k : Option Nat) (ops : List IterOp) : Iter :=
  ops.foldl (iterStep isa s o k) newIter

/-! ## Looking catchers up -/

/-- The loop of 346-350: `fuel` bounds the steps (the iterator moves on at each). -/
def findLoop (isa : Nat → Nat → Bool) (s : Callback.State) (name : Nat → Txt) (n : Txt) : Nat → Iter → Option Nat
  | 0, _ => none
  | fuel + 1, it =>
    match it.cb with
    | none => none
    | some c => if name c = n then some c else findLoop isa s name n fuel (iterStep isa s none none it .next)

/-- 342-350: the iterator is made for the object `None`, without a class. -/
def getReportCatcher (isa : Nat → Nat → Bool) (s : Callback.State) (name : Nat → Txt) (n : Txt) : Option Nat :=
  findLoop isa s name n ((Callback.getQ s none).length + 1) (iterStep isa s none none newIter .first)

/-- The loop of 368-375: one line, the name and the mode, for each. -/
def printLoop (isa : Nat → Nat → Bool) (s : Callback.State) (name : Nat → Txt) : Nat → Iter → List (Txt × Bool)
  | 0, _ => []
  | fuel + 1, it =>
    match it.cb with
    | none => []
    | some c => (name c, s.enabled c) :: printLoop isa s name fuel (iterStep isa s none none it .next)

/-- 358-380, without head and foot. -/
def printCatcher (isa : Nat → Nat → Bool) (s : Callback.State) (name : Nat → Txt) : List (Txt × Bool) :=
  printLoop isa s name ((Callback.getQ s none).length + 1) (iterStep isa s none none newIter .first)

end Verif.CatcherDbg
