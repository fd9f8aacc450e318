/-!
# Model of objections

`src/uvm/base/uvm_objection.py` (UVMObjection).  One objection object; `m_scheduled_list` is shared by all objections, so it may also
hold contexts of others (`none`).  Objects are numbers, 0 is the root (`m_top`), and a parent has a smaller number than its
children (`Tree`): this stands for `m_get_parent` (336-349), assumed not to change while objections are held.

The coroutines are modelled by the steps between their suspension points: the background process (`bg`), the start of a forked drain
(`start`), the end of its delay with the `all_dropped` callbacks (`notify`) and the rest of the drain (`finish`); they may be
interleaved with the calls of the user in any order.  `m_prop_mode` is 1 (nothing sets it to anything else).
Left out: user hooks called from `raised`/`dropped`/`all_dropped` that raise or drop themselves, tracing, `m_scheduled_contexts`
(written together with `m_forked_list`, never read), `m_drain_proc` (always empty), `wait_for`, printing.
-/
namespace Verif.Objection

/-- `m_get_parent` (336-349): every object but the root has a parent nearer to the root. -/
structure Tree where
  parent : Nat → Nat
  lt : ∀ o, o ≠ 0 → parent o < o

/-- The object, its parent, ..., the root: the objects `m_propagate` (366-372) visits. `fuel` bounds the walk. -/
def chainF (t : Tree) : Nat → Nat → List Nat
  | 0, _ => []
  | fuel + 1, o => if o = 0 then [0] else o :: chainF t fuel (t.parent o)

def chain (t : Tree) (o : Nat) : List Nat := chainF t (o + 1) o

/-- 1172-1187: UVMObjectionContextObject. -/
structure Ctx where
  obj : Nat
  src : Nat
  count : Int
  deriving DecidableEq, Repr

/-- A coroutine inside `m_forked_drain`: it holds the values of its context; `alive`: the context is still its own (a re-raise clears
and recycles it, 563-564); `notified`: `all_dropped` has been called. -/
structure Run where
  ctx : Ctx
  alive : Bool := true
  notified : Bool := false
  deriving DecidableEq, Repr

/-- 215-251. `ev`: `m_scheduled_list_not_empty_event` is set; `toStart`: forked coroutines that have not run yet; `fctx`:
`m_forked_contexts`. -/
structure State where
  srcC : Nat → Option Int := fun _ => none
  tot : Nat → Option Int := fun _ => none
  sched : List (Option Ctx) := []
  ev : Bool := false
  forked : List Ctx := []
  toStart : Nat := 0
  fctx : List Ctx := []
  running : List Run := []
  cleared : Bool := false
  topAllDropped : Bool := false

/-- What can be observed: the hooks called, a fatal report, an exception. -/
inductive Out where
  | raised (obj src : Nat) (count : Int)
  | dropped (obj src : Nat) (count : Int)
  | allDropped (obj src : Nat) (count : Int)
  | fatal (obj : Nat)
  | crash
  deriving DecidableEq, Repr

/-- 1017-1026: `get_objection_count`. -/
def State.count (s : State) (o : Nat) : Int := (s.srcC o).getD 0

/-- 1028-1043: `get_objection_total`. -/
def State.total (s : State) (o : Nat) : Int := (s.tot o).getD 0

/-- `d[o] += n`, or `d[o] = n` if absent (467-476). -/
def bump (d : Nat → Option Int) (o : Nat) (n : Int) : Nat → Option Int :=
  fun x => if x = o then some ((d o).getD 0 + n) else d x

def isAt (o : Nat) : Option Ctx → Bool
  | some c => c.obj == o
  | none => false

/-- 485-515: the pending context of `o`, taken out of the scheduled list, the forked list or the running drains.  The drain of the last
case is *not* stopped (520-525 are commented out). -/
def takeCtx (s : State) (o : Nat) : Option Ctx × State :=
  match s.sched.find? (isAt o) with
  | some (some c) => (some c, { s with sched := s.sched.eraseP (isAt o) })
  | _ =>
    match s.forked.find? (·.obj == o) with
    | some c => (some c, { s with forked := s.forked.eraseP (·.obj == o) })
    | none =>
      match s.fctx.find? (·.obj == o) with
      | some c => (some c, { s with
          fctx := s.fctx.eraseP (·.obj == o)
          running := s.running.map fun r => if r.ctx.obj = o then { r with alive := false } else r })
      | none => (none, s)

/-- 467-476 and 650-659: the counts of `o`, the source count only at the source. -/
def addCounts (s : State) (o src : Nat) (n : Int) : State :=
  { s with
    tot := bump s.tot o n
    srcC := if o = src then bump s.srcC o n else s.srcC }

/-- 673-696: a new context at the end of the shared list, and the event set. -/
def schedule (s : State) (c : Ctx) : State := { s with sched := s.sched ++ [some c], ev := true }

/-- 635-696: `m_drop(obj, source_obj, count)`; the list is `obj` and the objects above it. -/
def mDrop : List Nat → Nat → Int → State → State × List Out
  | [], _, _, s => (s, [])
  | o :: up, src, n, s =>
    if n = 0 then (s, [])
    else if (s.tot o).isNone || n > s.total o then (if s.cleared then (s, []) else (s, [.fatal o]))
    else if o = src && ((s.srcC o).isNone || n > s.count o) then (if s.cleared then (s, []) else (s, [.fatal o]))
    else if (addCounts s o src (-n)).total o ≠ 0 then
      let r := mDrop up src n (addCounts s o src (-n))
      (r.1, .dropped o src n :: r.2)
    else (schedule (addCounts s o src (-n)) ⟨o, src, n⟩, [.dropped o src n])

/-- 459-564: `m_raise(obj, source_obj, count)`; the list is `obj` and the objects above it. -/
def mRaise : List Nat → Nat → Int → State → State × List Out
  | [], _, _, s => (s, [])
  | o :: up, src, n, s =>
    if n = 0 then (s, [])
    else
      let k := takeCtx (addCounts s o src n) o
      let r := match k.1 with
        | none => mRaise up src n k.2
        | some c =>
          if n - c.count > 0 then mRaise up src (n - c.count) k.2
          else if n - c.count < 0 then mDrop up src (-(n - c.count)) k.2
          else (k.2, [])
      (r.1, .raised o src n :: r.2)

/-- 710-766: `clear`.  A forked or running drain makes it raise an exception (748: a context has no `remove`; 753: `m_drain_proc` is
empty). -/
def clear (s : State) : State × List Out :=
  let s' := { s with srcC := fun _ => none, tot := fun _ => none, sched := s.sched.filter (·.isNone) }
  if s.forked ≠ [] ∨ s.fctx ≠ [] then (s', [.crash])
  else ({ s' with topAllDropped := false, cleared := true }, [])

/-- `del d[o]` if it is 0 (865-869). -/
def delZero (d : Nat → Option Int) (o : Nat) : Nat → Option Int :=
  fun x => if x = o ∧ d o = some 0 then none else d x

/-- 860-874, 825-836: the end of a drain.  When its context was taken back meanwhile, `del m_forked_contexts[None]` (832) raises; if the
context object has been reused since, another entry is deleted instead (not modelled).  `up` are the objects above the drain's object. -/
def finish (s : State) (i : Nat) (r : Run) (up : List Nat) : State × List Out :=
  let s := { s with srcC := delZero s.srcC r.ctx.obj, tot := delZero s.tot r.ctx.obj }
  let d := mDrop up r.ctx.src r.ctx.count s
  let s := { d.1 with running := d.1.running.eraseIdx i }
  if r.alive then ({ s with fctx := s.fctx.eraseP (·.obj == r.ctx.obj) }, d.2)
  else (s, d.2 ++ [.crash])

/-- The calls of the user, what other objections do to the shared list, and the steps of the coroutines. -/
inductive Op where
  | raise (o : Nat) (n : Int)
  | drop (o : Nat) (n : Int)
  | clear
  | foreign
  | foreignRemove (i : Nat)
  | bg
  | start
  | notify (i : Nat)
  | finish (i : Nat)
  deriving DecidableEq, Repr

def step (t : Tree) (s : State) : Op → State × List Out
  -- 450-456
  | .raise o n => mRaise (chain t o) o n { s with cleared := false, topAllDropped := false }
  -- 626-631
  | .drop o n => mDrop (chain t o) o n s
  | .clear => clear s
  -- another objection schedules a drain (695-696)
  | .foreign => ({ s with sched := s.sched ++ [none], ev := true }, [])
  -- another objection takes its context back (493, 737)
  | .foreignRemove i => if s.sched[i]? = some none then ({ s with sched := s.sched.eraseIdx i }, []) else (s, [])
  -- 773-793: wakes up if the event is set, takes *one* context
  | .bg =>
    if s.ev then
      match s.sched with
      | [] => ({ s with ev := false }, [])
      | none :: q => ({ s with ev := false, sched := q }, [])
      | some c :: q => ({ s with ev := false, sched := q, forked := s.forked ++ [c], toStart := s.toStart + 1 }, [])
    else (s, [])
  -- 799-823 up to the delay
  | .start =>
    if s.toStart = 0 then (s, [])
    else match s.forked with
      | [] => ({ s with toStart := s.toStart - 1 }, [])
      | c :: q => ({ s with
          toStart := s.toStart - 1
          forked := q
          fctx := s.fctx.filter (fun d => d.obj != c.obj) ++ [c]
          running := s.running ++ [{ ctx := c }] }, [])
  -- 850-858
  | .notify i =>
    match s.running[i]? with
    | none => (s, [])
    | some r =>
      if r.notified then (s, [])
      else ({ s with
          running := s.running.set i { r with notified := true }
          topAllDropped := s.topAllDropped || r.ctx.obj = 0 }, [.allDropped r.ctx.obj r.ctx.src r.ctx.count])
  | .finish i =>
    match s.running[i]? with
    | none => (s, [])
    | some r => if r.notified then finish s i r (chain t r.ctx.obj).tail else (s, [])

/-- 899-902: `set_drain_time(obj, drain)`; the result is the new table. -/
def setDrainTime (d : Nat → Option Nat) (obj : Option Nat) (drain : Nat) : Nat → Option Nat :=
  match obj with
  | none => fun x => if x = 0 then some drain else d x
  | some _ => d

end Verif.Objection
