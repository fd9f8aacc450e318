/-!
# Model of transaction recording

`src/uvm/base/uvm_recorder.py` (R), `uvm_tr_stream.py` (S), `uvm_tr_database.py` (D), `uvm_links.py` (L), `uvm_transaction.py` (T) and the
recording interface of `uvm_component.py` (C), with the text database, all under `src/uvm/base`.

Streams and recorders are numbered in the order they are made; the handle of recorder `r` (its instance number, 384) is `r + 1`.  The file of the
database is the list of its lines; opening the file succeeds.  Times are natural numbers, 0 meaning "now" as in the code.  A raised exception is
`none`.  The values a transaction records with `record` are given with it (`fields`), as strings.
-/
namespace Verif.Recording

/-- `m_is_opened` / `m_is_closed` of a recorder that was opened: `1/False`, `0/1`, `0/0`.  (A recorder that no stream opened is not
modelled: `False/False`.) -/
inductive St where
  | opened | closed | freed
deriving DecidableEq, Repr

structure Rec where
  stream : Nat
  openTime : Nat
  closeTime : Nat := 0
  st : St := .opened
deriving DecidableEq, Repr

/-- `m_is_opened` of the database: `False`, `True`, `0`. -/
inductive Db where
  | fresh | opened | closed
deriving DecidableEq, Repr

/-- A line of the database file. -/
inductive Line where
  | stream (s : Nat)
  | opn (r s t : Nat)
  | attr (r : Nat) (name val : String)
  | close (r t : Nat)
  | free (r : Nat)
  | link (l r : Nat)
deriving DecidableEq, Repr

structure World where
  now : Nat := 0
  db : Db := .fresh
  streams : Nat := 0
  recs : List Rec := []
  /-- `m_recorders_by_id` (R 346, 392): the recorders that can be found by their handle. -/
  reg : List Nat := []
  log : List Line := []
deriving DecidableEq, Repr

/-- D 92-94: `open_db`. `0 is False` is false, so a database that was closed stays closed. -/
def openDb (w : World) : World × Bool :=
  match w.db with
  | .fresh => ({ w with db := .opened }, true)
  | .opened => (w, true)
  | .closed => (w, false)

/-- D 112-115: `close_db`; streams and recorders are left as they are.  The value returned is `m_is_opened == 0`. -/
def closeDb (w : World) : World × Bool :=
  match w.db with
  | .opened => ({ w with db := .closed }, true)
  | _ => (w, true)

/-- D 165-183 with S 286-305, 595-603: `open_stream`. -/
def openStream (w : World) : World × Option Nat :=
  let q := openDb w
  if q.2 then ({ q.1 with streams := q.1.streams + 1, log := q.1.log ++ [.stream q.1.streams] }, some q.1.streams)
  else (q.1, none)

/-- A time argument: 0 is now (R 199, S 364, T 217, 363, 533). -/
def timeOf (w : World) (t : Nat) : Nat := if t = 0 then w.now else t

/-- R 386-394: entering the recorder into the table. -/
def enter (r : Nat) (reg : List Nat) : List Nat := if r ∈ reg then reg else reg ++ [r]

/-- S 363-384 with S 648, R 327-337, R 808-813: `open_recorder` of an open stream. -/
def openRecorder (w : World) (s t : Nat) : World × Option Nat :=
  let q := openDb w
  if q.2 then
    let r := w.recs.length
    let t' := timeOf w t
    ({ q.1 with recs := q.1.recs ++ [{ stream := s, openTime := t' }], reg := enter r q.1.reg, log := q.1.log ++ [.opn r s t'] }, some r)
  else (q.1, none)

/-- A line about recorder `r` is written (R 809, 825, 839, 926: `if open_db()`, and the line has `get_handle()` in it). -/
def put (w : World) (r : Nat) (l : Line) : World :=
  let q := openDb w
  if q.2 then { q.1 with reg := enter r q.1.reg, log := q.1.log ++ [l] } else q.1

def setRec (w : World) (r : Nat) (x : Rec) : World := { w with recs := w.recs.set r x }

/-- R 506-509, 924-930: `record_string`; a freed recorder has no stream (a warning). -/
def recordString (w : World) (r : Nat) (name val : String) : World :=
  match w.recs[r]? with
  | none => w
  | some x => if x.st = .freed then w else put w r (.attr r name val)

/-- R 199-209, 825-830: `close`.  `is_open() is False` is not true of `0`, so the early return is taken only by recorders never opened;
a freed recorder has no `m_text_db` (844): AttributeError. -/
def close (w : World) (r t : Nat) : Option World :=
  match w.recs[r]? with
  | none => some w
  | some x =>
    if x.st = .freed then none
    else
      let t' := timeOf w t
      some (setRec (put w r (.close r t')) r { x with st := .closed, closeTime := t' })

/-- R 234-257 after the closing: `do_free` (839-844), then the state is cleared and the handle removed. -/
def release (w : World) (r : Nat) : World :=
  match w.recs[r]? with
  | none => w
  | some x =>
    let w := put w r (.free r)
    { setRec w r { x with st := .freed } with reg := w.reg.filter (· != r) }

/-- R 234-257: `free`. -/
def free (w : World) (r t : Nat) : Option World :=
  match w.recs[r]? with
  | none => some w
  | some x =>
    match x.st with
    | .freed => some w
    | .opened => (close w r t).map (release · r)
    | .closed => some (release w r)

/-- R 381-394: `get_handle` of a recorder that was opened: `is_open() is False` is never true of it. -/
def getHandle (w : World) (r : Nat) : World × Nat := ({ w with reg := enter r w.reg }, r + 1)

/-- R 423-427: `get_recorder_from_handle`. -/
def fromHandle (w : World) (h : Nat) : Option Nat := if h = 0 then none else if h - 1 ∈ w.reg then some (h - 1) else none

/-- The calls a user makes; `tick`: simulation time passes. -/
inductive Op where
  | tick (n : Nat)
  | openStream
  | openRecorder (s t : Nat)
  | record (r : Nat) (name val : String)
  | close (r t : Nat)
  | free (r t : Nat)
  | handle (r : Nat)
  | closeDb
deriving Repr

def step (w : World) : Op → Option World
  | .tick n => some { w with now := w.now + n }
  | .openStream => some (openStream w).1
  | .openRecorder s t => some (if s < w.streams then (openRecorder w s t).1 else w)
  | .record r n v => some (recordString w r n v)
  | .close r t => close w r t
  | .free r t => free w r t
  | .handle r => some (if r < w.recs.length then (getHandle w r).1 else w)
  | .closeDb => some (closeDb w).1

def run (w : World) : List Op → Option World
  | [] => some w
  | o :: os => (step w o).bind (run · os)

/-! ## Links -/

/-- What a link may hold on a side. -/
inductive End where
  | null | stream (s : Nat) | recorder (r : Nat)
deriving DecidableEq, Repr

/-- D 223-294: `establish_link`: the number of warnings.  253: neither a stream nor a recorder is both. -/
def establishLink (l r : End) : Option Nat :=
  match l, r with
  | .null, .null => some 2
  | .null, _ => none            -- 257: `lhs.get_type_name()`
  | _, .null => some 1
  | _, _ => some 1

/-! ## Transactions -/

/-- What happens around a transaction, in order. -/
inductive Call where
  | doAccept | accepted | doBegin | begun | doEnd | ended
deriving DecidableEq, Repr

structure Tr where
  acceptTime : Int := -1
  beginTime : Int := -1
  endTime : Int := -1
  /-- `stream_handle`. -/
  stream : Option Nat := none
  recorder : Option Nat := none
  fields : List (String × String) := []
  calls : List Call := []
deriving DecidableEq, Repr

/-- T 215-225. -/
def accept (w : World) (tr : Tr) (t : Nat) : Tr :=
  { tr with acceptTime := timeOf w t, calls := tr.calls ++ [.doAccept, .accepted] }

/-- `record` of the transaction on recorder `r`. -/
def recordAll (w : World) (r : Nat) (fs : List (String × String)) : World := fs.foldl (fun w f => recordString w r f.1 f.2) w

/-- T 361-376: `end_tr`. -/
def endTr (w : World) (tr : Tr) (t : Nat) (freeHandle : Bool) : Option (World × Tr) :=
  let t' := timeOf w t
  let tr' := { tr with endTime := (t' : Int), recorder := none, calls := tr.calls ++ [.doEnd, .ended] }
  match tr.stream, tr.recorder with
  | some _, some r => do
    let w ← close (recordAll w r tr.fields) r t'
    let w ← if freeHandle then free w r 0 else some w
    return (w, tr')
  | _, _ => some (w, tr')

/-- T 546-579: opening the recorder, if recording is enabled. -/
def startTr (w : World) (tr : Tr) (t' : Nat) : World × Tr × Nat :=
  let tr := { tr with endTime := -1, beginTime := (t' : Int), calls := tr.calls ++ [Call.doBegin, Call.begun] }
  match tr.stream with
  | none => (w, { tr with recorder := none }, 0)
  | some s =>
    match openRecorder w s t' with
    | (w, some r) => let q := getHandle w r; (q.1, { tr with recorder := some r }, q.2)
    | (w, none) => (w, { tr with recorder := none }, 0)

/-- T 530-579: `m_begin_tr`. -/
def beginTr (w : World) (tr : Tr) (t : Nat) : Option (World × Tr × Nat) :=
  let t' := timeOf w t
  match tr.recorder with
  | some _ => (endTr w tr t' true).map fun q => startTr q.1 q.2 t'
  | none => some (startTr w tr t')

/-- T 434. -/
def isActive (tr : Tr) : Bool := tr.endTime == -1

/-! ## Components -/

structure Comp where
  /-- `recording_detail != UVM_NONE`. -/
  detail : Bool := true
  mainStream : Option Nat := none
  /-- `m_streams` by name, for the empty type name. -/
  streams : List (String × Nat) := []
  /-- `m_tr_h`: the recorders of transactions, by the transaction's number. -/
  trH : List (Nat × Nat) := []
deriving DecidableEq, Repr

/-- C 2070-2076: `get_tr_stream`.  If the database cannot be opened `None` is stored; this is left out (`none` is not stored). -/
def getTrStream (w : World) (c : Comp) (name : String) : World × Comp × Option Nat :=
  match c.streams.find? (fun p => p.1 == name) with
  | some p => (w, c, some p.2)
  | none =>
    match openStream w with
    | (w, some s) => (w, { c with streams := c.streams ++ [(name, s)] }, some s)
    | (w, none) => (w, c, none)

/-- C 2288-2293: the stream used; 2291: `stream` is assigned only when the main stream is opened. -/
def pickStream (w : World) (c : Comp) (name : String) : World × Comp × Option Nat :=
  if name = "" ∨ name = "main" then
    match c.mainStream with
    | none => match openStream w with
      | (w, some s) => (w, { c with mainStream := some s }, some s)
      | (w, none) => (w, c, none)
    | some _ => (w, c, none)
  else getTrStream w c name

/-- C 2301-2313: the links of the new recorder: to the parent (a warning), and to the transaction's own recorder (`UVMRelatedLink` does not define
`do_set_lhs`, L 358-437: NotImplementedError). -/
def linkUp (parent : Option Nat) (own : Option Nat) (r : Nat) : Option Nat := do
  let n ← match parent with
    | none => some 0
    | some p => establishLink (.recorder p) (.recorder r)
  match own with
  | none => some n
  | some _ => none

/-- C 2295-2317: opening the recorder of the component. -/
def openIn (w : World) (c : Comp) (k : Nat) (s : Option Nat) (label : String) (t : Nat) (parent own : Option Nat) : Option (World × Comp × Nat) :=
  match s with
  | none => some (w, c, 0)
  | some s =>
    match openRecorder w s t with
    | (w, none) => some (w, c, 0)
    | (w, some r) => do
      let w := if label = "" then w else recordString w r "label" label
      let _ ← linkUp parent own r
      let q := getHandle w r
      return (q.1, { c with trH := (k, r) :: c.trH.filter (fun p => p.1 != k) }, q.2)

/-- C 2233-2323: `m_begin_tr` for transaction number `k`; `parent`: the recorder found from the parent handle or the parent sequence. -/
def compBegin (w : World) (c : Comp) (k : Nat) (tr : Tr) (name label : String) (t : Nat) (parent : Option Nat) : Option (World × Comp × Tr × Nat) := do
  let q ← beginTr w tr t
  let own := fromHandle q.1 q.2.2
  if c.detail then
    let p := pickStream q.1 c name
    let o ← openIn p.1 p.2.1 k p.2.2 label t parent own
    return (o.1, o.2.1, q.2.1, o.2.2)
  else return (q.1, c, q.2.1, 0)

/-- C 1894-1916: `end_tr`. -/
def compEnd (w : World) (c : Comp) (k : Nat) (tr : Tr) (t : Nat) (freeHandle : Bool) : Option (World × Comp × Tr) := do
  let q ← endTr w tr t freeHandle
  if c.detail then
    match c.trH.find? (fun p => p.1 == k) with
    | none => return (q.1, c, q.2)
    | some p =>
      let c := { c with trH := c.trH.filter (fun x => x.1 != k) }
      let w ← close (recordAll (getHandle q.1 p.2).1 p.2 tr.fields) p.2 t
      let w ← if freeHandle then free w p.2 0 else some w
      return (w, c, q.2)
  else return (q.1, c, q.2)

end Verif.Recording
