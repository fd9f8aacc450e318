import Verif.Model.Pool
/-!
# Model of report texts: composing, copying, the summary, the lists of severities and ids

src/uvm/base/uvm_report_message.py (elements, `do_copy`) and src/uvm/base/uvm_report_server.py (`compose_report_message`,
`get_severity_set`, `get_id_set`, the counters, `get_summary_string`).  Texts are lists of characters.  The time stamp is a
parameter, so is what the printer makes of the element container itself (see `Verif.Model.Printer`).  `show_verbosity` is
off (C103).  A line number is the text `str` gives.
-/
namespace Verif.ReportText

abbrev Txt := List Char

/-- uvm_object_globals.py 220-224. -/
inductive Sev where
  | info | warning | error | fatal
deriving DecidableEq, Repr

/-- uvm_report_server.py 19-40: `ename`. -/
def ename : Sev → Txt
  | .info => ['U', 'V', 'M', '_', 'I', 'N', 'F', 'O']
  | .warning => ['U', 'V', 'M', '_', 'W', 'A', 'R', 'N', 'I', 'N', 'G']
  | .error => ['U', 'V', 'M', '_', 'E', 'R', 'R', 'O', 'R']
  | .fatal => ['U', 'V', 'M', '_', 'F', 'A', 'T', 'A', 'L']

/-- uvm_report_message.py 40-42, 136-141: an element; an entry of the list can also be `None` (73-74, 85-86). -/
structure Elem where
  name : Txt
  val : Txt
  action : Nat
deriving DecidableEq, Repr

/-- uvm_report_message.py 182-198 (report object, server and file left out: they are handles that `do_copy` assigns). -/
structure Msg where
  sev : Sev
  id : Txt
  text : Txt
  verbosity : Int
  file : Txt
  line : Txt
  ctx : Txt
  action : Nat
  handler : Option Txt
  elems : List (Option Elem)
deriving DecidableEq, Repr

/-- uvm_report_message.py 545-554, 136-141. -/
def add (m : Msg) (name val : Txt) (action : Nat) : Msg := { m with elems := m.elems ++ [some ⟨name, val, action⟩] }

/-- uvm_report_message.py 73-74, 85-86: `clone` of an element returns what `do_clone` returns: `None`. -/
def cloneElem (_ : Option Elem) : Option Elem := none

/-- uvm_report_message.py 245-262 and 153-164: `copy`; `none` is an exception (`None.clone()`). -/
def copy (m : Msg) : Option Msg :=
  if m.elems.any (·.isNone) then none else some { m with elems := m.elems.map cloneElem }

/-- uvm_report_message.py 143-146, 62-64, 76-77: what the elements add to the print: nothing, or an exception for `None`. -/
def printElems (es : List (Option Elem)) : Option Txt := if es.any (·.isNone) then none else some []

/-- uvm_report_server.py 488-556.  `shown`: what the printer shows of the container itself. -/
def compose (term : Bool) (time shown : Txt) (m : Msg) : Option Txt :=
  let sevS := ename m.sev
  let fileS := if m.file ≠ [] then m.file ++ ['('] ++ m.line ++ [')', ' '] else []
  let ctxS := if m.ctx ≠ [] then ['@', '@'] ++ m.ctx else []
  let termS := if term then [' ', '-'] ++ sevS else []
  let body := if m.elems.length = 0 then some m.text else (printElems m.elems).map fun e => m.text ++ ['\n'] ++ shown ++ e
  let name := m.handler.getD ['N', 'O', '_', 'R', 'E', 'P', 'O', 'R', 'T', '_', 'O', 'B', 'J', 'E', 'C', 'T']
  body.map fun b =>
    sevS ++ [' '] ++ fileS ++ ['@', ' '] ++ time ++ [':', ' '] ++ name ++ ctxS ++ [' ', '['] ++ m.id ++ [']', ' '] ++ b ++ termS

/-- The counters of the server (58-71). -/
structure Server where
  sevs : Pool.State Sev Nat
  ids : Pool.State Txt Nat
  quit : Nat
  maxQuit : Nat
  idSummary : Bool

/-- 280-288. -/
def resetSevs (p : Pool.State Sev Nat) : Pool.State Sev Nat :=
  [Sev.info, .warning, .error, .fatal].foldl (fun p s => { p with items := Pool.assign p.items s 0 }) p

def newServer : Server := ⟨resetSevs Pool.init, Pool.init, 0, 0, true⟩

/-- 273-278, 310-315. -/
def incr {K} [DecidableEq K] (p : Pool.State K Nat) (k : K) : Pool.State K Nat :=
  match Pool.lookup p.items k with
  | some v => { p with items := Pool.assign p.items k (v + 1) }
  | none => { p with items := Pool.assign p.items k 1 }

/-- 346-348, 350-352: the loop `while has_next: q.append(next())`; every turn moves the pointer, which bounds the turns. -/
def collect {K} [DecidableEq K] : Nat → Pool.State K Nat → Pool.State K Nat × List K
  | 0, p => (p, [])
  | n + 1, p =>
    match Pool.next p with
    | (p', .key k) => let r := collect n p'; (r.1, k :: r.2)
    | (p', _) => (p', [])

/-- 346-352. -/
def getSet {K} [DecidableEq K] (p : Pool.State K Nat) : Pool.State K Nat × List K := collect (p.items.length + 1) p

/-- What happens to the counters. -/
inductive Op where
  | message (s : Sev) (id : Txt)   -- 417-418
  | idSet                          -- 350-352
  | sevSet                         -- 346-348
deriving DecidableEq, Repr

/-- One operation; the second and the third are the lists of ids and severities obtained. -/
def step (s : Server) : Op → Server × List Txt × List Sev
  | .message v i => ({ s with sevs := incr s.sevs v, ids := incr s.ids i }, [], [])
  | .idSet => let r := getSet s.ids; ({ s with ids := r.1 }, r.2, [])
  | .sevSet => let r := getSet s.sevs; ({ s with sevs := r.1 }, [], r.2)

def run (s : Server) (ops : List Op) : Server := ops.foldl (fun s o => (step s o).1) s

/-- A line of the summary. -/
inductive Line where
  | head | reached | quit (n m : Nat) | bySev | sev (s : Sev) (n : Nat) | byId | id (i : Txt) (n : Nat)
deriving DecidableEq, Repr

/-- 570-599: the lines of `get_summary_string` (`get` of a key that is there). -/
def summary (s : Server) : List Line :=
  [.head] ++
  (if s.maxQuit ≠ 0 then (if s.quit ≥ s.maxQuit then [.reached] else []) ++ [.quit s.quit s.maxQuit] else []) ++
  [.bySev] ++ (Pool.keys s.sevs.items).map (fun k => .sev k ((Pool.lookup s.sevs.items k).getD 0)) ++
  (if s.idSummary then [.byId] ++ (Pool.keys s.ids.items).map (fun k => .id k ((Pool.lookup s.ids.items k).getD 0)) else [])

end Verif.ReportText
