/-!
# Model of the report machinery

* `UVMReportHandler` (src/uvm/base/uvm_report_handler.py): settings and look-ups,
* `UVMReportObject.uvm_report` (src/uvm/base/uvm_report_object.py 109-145),
* `UVMReportServer` (src/uvm/base/uvm_report_server.py): counters and execution,
* `UVMReportCatcher` (src/uvm/base/uvm_report_catcher.py): the catcher chain.

Simplifications.  A severity is one of the four `UVM_SEVERITY_LEVELS` (uvm_object_globals.py 220-224), so the
dictionaries that `initialize` / `reset_severity_counts` fill for all four severities are total functions; other
dictionaries are partial functions (their order is not observable through the modelled calls).  An action is its
integer value, a file handle a natural number with 0 the integer `0`.  Message texts are strings; element
containers, contexts, time stamps and the layout of the composed text are not modelled.
-/
namespace Verif.Report

/-- uvm_object_globals.py 220-224. -/
inductive Sev where
  | info | warning | error | fatal
deriving DecidableEq, Repr

/-- The integer value of a severity, uvm_object_globals.py 220-223 (used by `<`, uvm_report_catcher.py 584-590). -/
def Sev.rank : Sev → Nat
  | .info => 0 | .warning => 1 | .error => 2 | .fatal => 3

/-- uvm_object_globals.py 244-251. -/
def NO_ACTION : Nat := 0
def DISPLAY : Nat := 1
def LOG : Nat := 2
def COUNT : Nat := 4
def EXIT : Nat := 8
def CALL_HOOK : Nat := 16
def STOP : Nat := 32
def RM_RECORD : Nat := 64

/-- Python truth of `action & flags`. -/
def has (action flags : Nat) : Bool := action &&& flags != 0

/-- `d[k] = v`. -/
def upd {κ α : Type} [DecidableEq κ] (f : κ → α) (k : κ) (v : α) : κ → α := fun x => if x = k then v else f x

/-! ## The report handler -/

structure Handler where
  sevAct : Sev → Nat
  idAct : String → Option Nat
  sevIdAct : Sev → String → Option Nat
  maxVerb : Int
  idVerb : String → Option Int
  sevIdVerb : Sev → String → Option Int
  dflFile : Nat
  sevFile : Sev → Nat
  idFile : String → Option Nat
  sevIdFile : Sev → String → Option Nat
  sevOvr : Sev → Option Sev
  /-- `sev_id_overrides`: id to (severity to severity); `none` when the id has no entry. -/
  idOvr : String → Option (Sev → Option Sev)

/-- The actions set by `initialize`, uvm_report_handler.py 366-369. -/
def initAction : Sev → Nat
  | .info => DISPLAY
  | .warning => DISPLAY
  | .error => DISPLAY ||| COUNT
  | .fatal => DISPLAY ||| EXIT

/-- uvm_report_handler.py 358-374 (UVM_MEDIUM = 200); the id tables are left alone. -/
def initHandler (h : Handler) : Handler :=
  { h with dflFile := 0, maxVerb := 200, sevAct := initAction, sevFile := fun _ => 0 }

/-- uvm_report_handler.py 55-74. -/
def newHandler : Handler :=
  initHandler ⟨fun _ => 0, fun _ => none, fun _ _ => none, 0, fun _ => none, fun _ _ => none, 1, fun _ => 0,
    fun _ => none, fun _ _ => none, fun _ => none, fun _ => none⟩

inductive HOp where
  | setSevAction (s : Sev) (a : Nat)
  | setIdAction (i : String) (a : Nat)
  | setSevIdAction (s : Sev) (i : String) (a : Nat)
  | setVerbosityLevel (v : Int)
  | setIdVerbosity (i : String) (v : Int)
  | setSevIdVerbosity (s : Sev) (i : String) (v : Int)
  | setDefaultFile (f : Nat)
  | setSevFile (s : Sev) (f : Nat)
  | setIdFile (i : String) (f : Nat)
  | setSevIdFile (s : Sev) (i : String) (f : Nat)
  | setSevOverride (s t : Sev)
  | setSevIdOverride (s : Sev) (i : String) (t : Sev)
  | reset
deriving DecidableEq, Repr

/-- The setters, uvm_report_handler.py 399-405 and 485-582; `reset` is `UVMReportObject.reset_report_handler`
(uvm_report_object.py 457-462), i.e. `initialize`. -/
def hstep (h : Handler) : HOp → Handler
  | .setSevAction s a => { h with sevAct := upd h.sevAct s a }
  | .setIdAction i a => { h with idAct := upd h.idAct i (some a) }
  | .setSevIdAction s i a => { h with sevIdAct := upd h.sevIdAct s (upd (h.sevIdAct s) i (some a)) }
  | .setVerbosityLevel v => { h with maxVerb := v }
  | .setIdVerbosity i v => { h with idVerb := upd h.idVerb i (some v) }
  | .setSevIdVerbosity s i v => { h with sevIdVerb := upd h.sevIdVerb s (upd (h.sevIdVerb s) i (some v)) }
  | .setDefaultFile f => { h with dflFile := f }
  | .setSevFile s f => { h with sevFile := upd h.sevFile s f }
  | .setIdFile i f => { h with idFile := upd h.idFile i (some f) }
  | .setSevIdFile s i f => { h with sevIdFile := upd h.sevIdFile s (upd (h.sevIdFile s) i (some f)) }
  | .setSevOverride s t => { h with sevOvr := upd h.sevOvr s (some t) }
  | .setSevIdOverride s i t =>
    { h with idOvr := upd h.idOvr i (some (upd ((h.idOvr i).getD fun _ => none) s (some t))) }
  | .reset => initHandler h

/-- A handler after a history of settings. -/
def settings (ops : List HOp) : Handler := ops.foldl hstep newHandler

/-- uvm_report_handler.py 430-452. -/
def getAction (h : Handler) (s : Sev) (i : String) : Nat :=
  match h.sevIdAct s i with
  | some a => a
  | none =>
    match h.idAct i with
    | some a => a
    | none => h.sevAct s

/-- uvm_report_handler.py 407-428. -/
def getVerbosity (h : Handler) (s : Sev) (i : String) : Int :=
  match h.sevIdVerb s i with
  | some v => v
  | none =>
    match h.idVerb i with
    | some v => v
    | none => h.maxVerb

/-- uvm_report_handler.py 376-397. -/
def getSevIdFile (h : Handler) (s : Sev) (i : String) : Nat :=
  match h.sevIdFile s i with
  | some f => f
  | none =>
    match h.idFile i with
    | some f => f
    | none => h.sevFile s

/-- uvm_report_handler.py 454-482. -/
def getFile (h : Handler) (s : Sev) (i : String) : Nat :=
  if getSevIdFile h s i ≠ 0 then getSevIdFile h s i
  else if (h.idFile i).getD 0 ≠ 0 then (h.idFile i).getD 0
  else if h.sevFile s ≠ 0 then h.sevFile s
  else h.dflFile

/-- The severity after overrides, uvm_report_handler.py 304-317. -/
def override (h : Handler) (s : Sev) (i : String) : Sev :=
  match h.idOvr i with
  | some f => (f s).getD s
  | none => (h.sevOvr s).getD s

structure Msg where
  sev : Sev
  id : String
  text : String
  verb : Int
  action : Nat
  file : Nat
deriving DecidableEq, Repr

/-- `UVMReportHandler.process_report_message` before it calls the server, uvm_report_handler.py 302-320. -/
def handlerProcess (h : Handler) (m : Msg) : Msg :=
  { m with
    sev := override h m.sev m.id
    file := getFile h (override h m.sev m.id) m.id
    action := getAction h (override h m.sev m.id) m.id }

/-! ## The report server -/

structure Server where
  sevCount : Sev → Nat
  /-- `m_id_count`; an absent id reads as 0 (lines 295-298). -/
  idCount : String → Nat
  quit : Nat
  maxQuit : Nat
  overridable : Bool
  recordAll : Bool
  showVerb : Bool

/-- uvm_report_server.py 55-73 (`max_quit_overridable` starts True, line 57). -/
def newServer : Server := ⟨fun _ => 0, fun _ => 0, 0, 0, true, false, false⟩

/-- Exceptions: `finish` UVMFinishError from `UVMRoot.die` (uvm_root.py 340-358, raise_exception_on_die being True),
`stop` the exception of the STOP action, `key` KeyError, `type` TypeError, `attr` AttributeError, `user` an exception
raised by a catcher's own code. -/
inductive Exc where
  | finish | stop | key | type | attr | user
deriving DecidableEq, Repr

/-- Observable effects.  `exec m` is a ghost mark: `execute_report_message` was entered with message `m`.
`display m` is a line given to the logger, `log f m` a line written to file `f`. -/
inductive Fx where
  | exec (m : Msg) | display (m : Msg) | log (f : Nat) (m : Msg)
deriving DecidableEq, Repr

structure Res where
  srv : Server
  fx : List Fx
  exc : Option Exc

/-- uvm_report_server.py 273-278 and 310-315. -/
def bumpCounts (s : Server) (m : Msg) : Server :=
  { s with sevCount := upd s.sevCount m.sev (s.sevCount m.sev + 1), idCount := upd s.idCount m.id (s.idCount m.id + 1) }

/-- uvm_report_server.py 420-421. -/
def execAction (s : Server) (m : Msg) : Nat := if s.recordAll then m.action ||| RM_RECORD else m.action

/-- uvm_report_server.py 455-467. -/
def printed (a : Nat) (m : Msg) : List Fx :=
  (if has a DISPLAY then [.display m] else []) ++ (if has a LOG && m.file != 0x80000001 then [.log m.file m] else [])

/-- uvm_report_server.py 224-228 and 470-472. -/
def countQuit (s : Server) (a : Nat) : Server :=
  if has a COUNT && s.maxQuit != 0 then { s with quit := s.quit + 1 } else s

/-- uvm_report_server.py 237-245 and 474-475: this message makes the server end the simulation. -/
def quitReached (s : Server) (a : Nat) : Bool :=
  has a COUNT && s.maxQuit != 0 && decide ((countQuit s a).quit ≥ s.maxQuit)

/-- `execute_report_message`, uvm_report_server.py 404-486.  With UVM_RM_RECORD set, `self.m_streams[...]` on line 447
indexes a dictionary nobody ever fills: KeyError. -/
def execute (s : Server) (m : Msg) : Res :=
  if has (execAction s m) RM_RECORD then ⟨bumpCounts s m, [.exec m], some .key⟩
  else if quitReached s (execAction s m) || has (execAction s m) EXIT then
    ⟨countQuit (bumpCounts s m) (execAction s m), .exec m :: printed (execAction s m) m, some .finish⟩
  else if has (execAction s m) STOP then
    ⟨countQuit (bumpCounts s m) (execAction s m), .exec m :: printed (execAction s m) m, some .stop⟩
  else ⟨countQuit (bumpCounts s m) (execAction s m), .exec m :: printed (execAction s m) m, none⟩

/-- Composing (when the action displays or logs) and executing a message, uvm_report_server.py 388-397.  With
`show_verbosity`, line 532 adds an integer to a string: TypeError. -/
def compose (s : Server) (m : Msg) : Res :=
  if has m.action (LOG ||| DISPLAY) && s.showVerb then ⟨s, [], some .type⟩ else execute s m

/-- Executing unless the action is UVM_NO_ACTION: uvm_report_server.py 385-397, uvm_report_catcher.py 480-493 and
507-511. -/
def emit (s : Server) (m : Msg) : Res :=
  if m.action = NO_ACTION then ⟨s, [], none⟩ else compose s m

/-! ## Report catchers -/

/-- What the code of a catcher's `catch` can do with the message being processed, uvm_report_catcher.py 256-293
(setters), 456-493 (`report`: a new message executed at once, not seen by catchers) and 502-511 (`issue`). -/
inductive CatAct where
  | setSeverity (s : Sev) | setAction (a : Nat) | setId (i : String) | setMessage (t : String) | setVerbosity (v : Int)
  | issue | report (s : Sev) (i t : String) (v : Int)
deriving DecidableEq, Repr

inductive Ret where
  | throw | caught | unknown | raises
deriving DecidableEq, Repr

/-- An entry of the callback queue of the report object: a callback, which may or may not be a `UVMReportCatcher`. -/
structure Entry where
  isCatcher : Bool
  enabled : Bool
  catch_ : Msg → List CatAct × Ret

/-- A message made by a catcher, uvm_report_catcher.py 470-489 (no severity override).  The check against the root's
verbosity (line 467) is left out: a filtered message is one the catcher does not report. -/
def catcherMsg (h : Handler) (s : Sev) (i t : String) (v : Int) : Msg :=
  ⟨s, i, t, v, getAction h s i, getFile h s i⟩

structure Acts where
  srv : Server
  msg : Msg
  fx : List Fx
  exc : Option Exc

def actResult (r : Res) (m : Msg) : Acts := ⟨r.srv, m, r.fx, r.exc⟩

/-- One statement of `catch`. -/
def act (h : Handler) (s : Server) (m : Msg) : CatAct → Acts
  | .setSeverity v => ⟨s, { m with sev := v }, [], none⟩
  | .setAction a => ⟨s, { m with action := a }, [], none⟩
  | .setId i => ⟨s, { m with id := i }, [], none⟩
  | .setMessage t => ⟨s, { m with text := t }, [], none⟩
  | .setVerbosity v => ⟨s, { m with verb := v }, [], none⟩
  | .issue => actResult (emit s m) m
  | .report v i t w => actResult (emit s (catcherMsg h v i t w)) m

/-- The statements of `catch` in order; an exception ends them. -/
def acts (h : Handler) (s : Server) (m : Msg) : List CatAct → Acts
  | [] => ⟨s, m, [], none⟩
  | a :: as =>
    match (act h s m a).exc with
    | some x => ⟨(act h s m a).srv, (act h s m a).msg, (act h s m a).fx, some x⟩
    | none =>
      { acts h (act h s m a).srv (act h s m a).msg as with
        fx := (act h s m a).fx ++ (acts h (act h s m a).srv (act h s m a).msg as).fx }

/-- The id no user sets, uvm_report_catcher.py 567. -/
def probeId : String := "*@&*^*^*#"

/-- uvm_report_catcher.py 564-570.  `m_set_action_called` on the class is never set: `set_action` (line 293) sets it on
the instance, so the test only looks at severity and action. -/
def adjust (h : Handler) (prev : Sev) (m : Msg) : Msg :=
  if m.sev ≠ prev ∧ m.action = getAction h prev probeId then { m with action := getAction h m.sev probeId } else m

inductive Verdict where
  | thrown | caught | raised (x : Exc)
deriving DecidableEq, Repr

structure Chain where
  srv : Server
  msg : Msg
  fx : List Fx
  verdict : Verdict

/-- What `process_report_catcher` does after `catch` returned, uvm_report_catcher.py 604-614: an UNKNOWN_ACTION is
reported as an error and then thrown; `noCatch` is the DO_NOT_CATCH debug flag. -/
def afterCatch (h : Handler) (noCatch : Bool) (prev : Sev) (r : Acts) : Ret → Chain
  | .raises => ⟨r.srv, r.msg, r.fx, .raised .user⟩
  | .throw => ⟨r.srv, adjust h prev r.msg, r.fx, .thrown⟩
  | .caught => ⟨r.srv, adjust h prev r.msg, r.fx, if noCatch then .thrown else .caught⟩
  | .unknown =>
    match (emit r.srv (catcherMsg h .error "RPTCTHR" "must return THROW or CAUGHT" 0)).exc with
    | some x =>
      ⟨(emit r.srv (catcherMsg h .error "RPTCTHR" "must return THROW or CAUGHT" 0)).srv, r.msg,
        r.fx ++ (emit r.srv (catcherMsg h .error "RPTCTHR" "must return THROW or CAUGHT" 0)).fx, .raised x⟩
    | none =>
      ⟨(emit r.srv (catcherMsg h .error "RPTCTHR" "must return THROW or CAUGHT" 0)).srv, adjust h prev r.msg,
        r.fx ++ (emit r.srv (catcherMsg h .error "RPTCTHR" "must return THROW or CAUGHT" 0)).fx, .thrown⟩

/-- One catcher: `process_report_catcher` and the adjustment of the action, uvm_report_catcher.py 557-570, 601-614. -/
def oneCatcher (h : Handler) (noCatch : Bool) (e : Entry) (s : Server) (m : Msg) : Chain :=
  match (acts h s m (e.catch_ m).1).exc with
  | some x =>
    ⟨(acts h s m (e.catch_ m).1).srv, (acts h s m (e.catch_ m).1).msg, (acts h s m (e.catch_ m).1).fx, .raised x⟩
  | none => afterCatch h noCatch m.sev (acts h s m (e.catch_ m).1) (e.catch_ m).2

/-- The loop of `process_all_report_catchers`, uvm_report_catcher.py 549-580.  `get_next` is called without a class, so
it returns every callback of the queue; one that is not a catcher has no `process_report_catcher`: AttributeError. -/
def chain (h : Handler) (noCatch : Bool) : List Entry → Server → Msg → Chain
  | [], s, m => ⟨s, m, [], .thrown⟩
  | e :: q, s, m =>
    if e.enabled = false then chain h noCatch q s m
    else if e.isCatcher = false then ⟨s, m, [], .raised .attr⟩
    else
      match (oneCatcher h noCatch e s m).verdict with
      | .thrown =>
        { chain h noCatch q (oneCatcher h noCatch e s m).srv (oneCatcher h noCatch e s m).msg with
          fx := (oneCatcher h noCatch e s m).fx ++
            (chain h noCatch q (oneCatcher h noCatch e s m).srv (oneCatcher h noCatch e s m).msg).fx }
      | .caught => oneCatcher h noCatch e s m
      | .raised _ => oneCatcher h noCatch e s m

/-- `UVMReportCb.get_first`: the first enabled callback that is a catcher, uvm_callback.py 976-985 with CB given. -/
def fromFirst (q : List Entry) : List Entry := q.dropWhile fun e => !(e.isCatcher && e.enabled)

structure World where
  srv : Server
  inCatcher : Bool
  noCatch : Bool
  /-- `m_caught_*` and `m_demoted_*`; there is none for UVM_INFO, whose count stays 0. -/
  caught : Sev → Nat
  demoted : Sev → Nat

/-- uvm_report_catcher.py 132-145, 514. -/
def newWorld : World := ⟨newServer, false, false, fun _ => 0, fun _ => 0⟩

/-- uvm_report_catcher.py 572-579. -/
def countCaught (v : Verdict) (orig : Sev) (c : Sev → Nat) : Sev → Nat :=
  if v = .caught ∧ orig ≠ .info then upd c orig (c orig + 1) else c

/-- uvm_report_catcher.py 583-591. -/
def countDemoted (orig final : Sev) (c : Sev → Nat) : Sev → Nat :=
  if orig ≠ .info ∧ final.rank < orig.rank then upd c orig (c orig + 1) else c

structure Out where
  world : World
  fx : List Fx
  exc : Option Exc

/-- `UVMReportServer.process_report_message`, uvm_report_server.py 373-397 with `process_all_report_catchers`,
uvm_report_catcher.py 518-595.  `q` is the callback queue of the report object, `h` its handler.  `in_catcher` is
reset on line 593 only: an exception leaves it set. -/
def process (w : World) (h : Handler) (q : List Entry) (m : Msg) : Out :=
  if w.inCatcher then ⟨{ w with srv := (emit w.srv m).srv }, (emit w.srv m).fx, (emit w.srv m).exc⟩
  else
    match (chain h w.noCatch (fromFirst q) w.srv m).verdict with
    | .raised x =>
      ⟨{ w with srv := (chain h w.noCatch (fromFirst q) w.srv m).srv, inCatcher := true },
        (chain h w.noCatch (fromFirst q) w.srv m).fx, some x⟩
    | .caught =>
      ⟨{ w with
          srv := (chain h w.noCatch (fromFirst q) w.srv m).srv
          caught := countCaught .caught m.sev w.caught
          demoted := countDemoted m.sev (chain h w.noCatch (fromFirst q) w.srv m).msg.sev w.demoted },
        (chain h w.noCatch (fromFirst q) w.srv m).fx, none⟩
    | .thrown =>
      ⟨{ w with
          srv := (emit (chain h w.noCatch (fromFirst q) w.srv m).srv (chain h w.noCatch (fromFirst q) w.srv m).msg).srv
          caught := countCaught .thrown m.sev w.caught
          demoted := countDemoted m.sev (chain h w.noCatch (fromFirst q) w.srv m).msg.sev w.demoted },
        (chain h w.noCatch (fromFirst q) w.srv m).fx ++
          (emit (chain h w.noCatch (fromFirst q) w.srv m).srv (chain h w.noCatch (fromFirst q) w.srv m).msg).fx,
        (emit (chain h w.noCatch (fromFirst q) w.srv m).srv (chain h w.noCatch (fromFirst q) w.srv m).msg).exc⟩

/-- `UVMReportObject.uvm_report`, uvm_report_object.py 127-145 (the verbosity given explicitly): the check, the message
(`set_report_message`; its action and file are set by the handler), the handler and the server. -/
def report (w : World) (h : Handler) (q : List Entry) (s : Sev) (i t : String) (v : Int) : Out :=
  if getVerbosity h s i ≥ v then process w h q (handlerProcess h ⟨s, i, t, v, 0, 0⟩) else ⟨w, [], none⟩

/-! ## Histories -/

/-- Calls on the server, interleaved with reports.  Every report comes with the handler and the callback queue of its
report object, so both may change between reports, and a catcher may behave differently every time. -/
inductive Op where
  | report (h : Handler) (q : List Entry) (s : Sev) (i t : String) (v : Int)
  | setMaxQuit (n : Int) (overridable : Bool)
  | setQuit (n : Int)
  | resetQuit
  | setSevCount (s : Sev) (n : Int)
  | resetSevCounts
  | setIdCount (i : String) (n : Int)
  | setRecordAll (b : Bool)
  | setShowVerbosity (b : Bool)
  | debugNoCatch (b : Bool)

/-- uvm_report_server.py 193-203 (the information message about a refused setting is not modelled), 214-222, 230-235,
266-270, 280-288, 301-305. -/
def serverOp (s : Server) : Op → Server
  | .setMaxQuit n o => if s.overridable = false then s else { s with overridable := o, maxQuit := n.toNat }
  | .setQuit n => { s with quit := n.toNat }
  | .resetQuit => { s with quit := 0 }
  | .setSevCount v n => { s with sevCount := upd s.sevCount v n.toNat }
  | .resetSevCounts => { s with sevCount := fun _ => 0 }
  | .setIdCount i n => { s with idCount := upd s.idCount i n.toNat }
  | .setRecordAll b => { s with recordAll := b }
  | .setShowVerbosity b => { s with showVerb := b }
  | .report .. => s
  | .debugNoCatch _ => s

def step (w : World) : Op → World × (List Fx × Option Exc)
  | .report h q s i t v => ((report w h q s i t v).world, (report w h q s i t v).fx, (report w h q s i t v).exc)
  | .debugNoCatch b => ({ w with noCatch := b }, [], none)
  | .setMaxQuit n o => ({ w with srv := serverOp w.srv (.setMaxQuit n o) }, [], none)
  | .setQuit n => ({ w with srv := serverOp w.srv (.setQuit n) }, [], none)
  | .resetQuit => ({ w with srv := serverOp w.srv .resetQuit }, [], none)
  | .setSevCount v n => ({ w with srv := serverOp w.srv (.setSevCount v n) }, [], none)
  | .resetSevCounts => ({ w with srv := serverOp w.srv .resetSevCounts }, [], none)
  | .setIdCount i n => ({ w with srv := serverOp w.srv (.setIdCount i n) }, [], none)
  | .setRecordAll b => ({ w with srv := serverOp w.srv (.setRecordAll b) }, [], none)
  | .setShowVerbosity b => ({ w with srv := serverOp w.srv (.setShowVerbosity b) }, [], none)

end Verif.Report
