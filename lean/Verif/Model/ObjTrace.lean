import Verif.Model.Objection
/-!
# Model of tracing, displaying and waiting for objections

`src/uvm/base/uvm_objection.py`: `trace_mode`, `m_report`, `m_display_objections` with `get_name_depth` and `get_leaf_name`, `wait_for`.
Counts and propagation are those of `Verif.Objection`.
-/
namespace Verif.ObjTrace
open Verif.Objection (Tree State Out Op addCounts step)

/-! ## Tracing -/

/-- 253-271: `trace_mode(mode)`: the new mode and the returned one. -/
def traceMode (cur : Bool) (mode : Int) : Bool × Bool :=
  (if mode = 0 then false else if mode = 1 then true else cur, cur)

/-- What is seen: what the objection does, a trace message (object, amount, count, total), an exception thrown to the caller (or ending
the coroutine). -/
inductive Ev where
  | out (o : Out)
  | message (obj : Nat) (n count total : Int)
  | exception
deriving DecidableEq, Repr

/-- 277-329: `m_report` when messages are enabled and the mode is on.  For the source itself the message is given (295-297) and then
329 uses `sname`, which only the other branch binds; for another object 303 calls a method `len` that strings do not have. -/
def report (s : State) (obj src : Nat) (n : Int) : List Ev :=
  if obj = src then [.message obj n (s.count obj) (s.total obj), .exception] else [.exception]

/-- The steps of `Verif.Objection` with the calls of `m_report` at 478, 661 and 854.  `on`: the trace mode is on and messages with the
identifier `OBJTN_TRC` are enabled (284). -/
def stepT (on : Bool) (t : Tree) (s : State) (op : Op) : State × List Ev :=
  if on then
    match op with
    | .raise o n =>                                                          -- 453-479
      let s := { s with cleared := false, topAllDropped := false }
      if n = 0 then (s, [])
      else let s := addCounts s o o n; (s, report s o o n)
    | .drop o n =>                                                           -- 638-662
      if n = 0 then (s, [])
      else if (s.tot o).isNone || n > s.total o then (s, if s.cleared then [] else [.out (.fatal o)])
      else if (s.srcC o).isNone || n > s.count o then (s, if s.cleared then [] else [.out (.fatal o)])
      else let s := addCounts s o o (-n); (s, report s o o n)
    | .notify i =>                                                           -- 850-855
      match s.running[i]? with
      | none => (s, [])
      | some r =>
        if r.notified then (s, [])
        else ({ s with running := s.running.eraseIdx i }, report s r.ctx.obj r.ctx.src r.ctx.count)
    | op => ((step t s op).1, (step t s op).2.map .out)
  else ((step t s op).1, (step t s op).2.map .out)

/-! ## Displaying -/

abbrev Str := List Char

/-- 66-72. -/
def nameDepth : Str → Nat
  | [] => 0
  | c :: cs => if c = '.' then nameDepth cs + 1 else nameDepth cs

/-- 75-82: what follows the last dot; the loop from the end is a search in the reversed name. -/
def leafName (s : Str) : Str := (s.reverse.takeWhile (· != '.')).reverse

/-- One line of the table (1117-1118): source count, total count, depth of the indentation, name.  The blanks are cut from a string of
83 (1064), so that the indentation is at most that; this is not modelled. -/
structure Row where
  src : Int
  tot : Int
  depth : Nat
  name : Str
deriving DecidableEq, Repr

/-- `m_total_count` in the order of its keys, `m_source_count`, and the full names of the objects; object 0 is the root. -/
structure View where
  tot : List (Nat × Int)
  src : Nat → Option Int
  name : Nat → Str

def View.total (v : View) (o : Nat) : Int := ((v.tot.find? (·.1 == o)).map (·.2)).getD 0

/-- Item assignment of an ordered dictionary. -/
def assign (k : Str) (o : Nat) : List (Str × Nat) → List (Str × Nat)
  | [] => [(k, o)]
  | (k', o') :: l => if k' = k then (k, o) :: l else (k', o') :: assign k o l

/-- 1074-1077: the pool of the objects with a positive total, by name. -/
def pool (v : View) : List (Str × Nat) :=
  (v.tot.filter (fun x => x.2 > 0)).foldl (fun l x => assign (v.name x.1) x.1 l) []

/-- 1100-1118: the line of the object `o` under the name `n`. -/
def row (v : View) (n : Str) (o : Nat) : Row where
  src := (v.src o).getD 0
  tot := v.total o
  depth := if n = [] then nameDepth n else nameDepth n + 1
  name := if n = [] then "uvm_top".toList else leafName n

/-- 1096-1123: from the current name, with the keys `next()` will still give: a line, and the next key unless there is none or the
current name does not begin with the one asked for.  `none`: the name is not in the pool (`IndexError`). -/
def rows (v : View) (p : List (Str × Nat)) (this cur : Str) : List Str → Option (List Row)
  | [] => (p.find? (·.1 == cur)).map fun x => [row v cur x.2]
  | k :: ks =>
    match p.find? (·.1 == cur) with
    | none => none
    | some x => if cur.take this.length = this then (rows v p this k ks).map (row v cur x.2 :: ·) else some [row v cur x.2]

/-- 1063-1127: `m_display_objections(obj)`: the total and the lines of the table (`[]` also when there is no table, 1085-1086).
The pointer of the pool is before its first key, so that `next()` starts there. -/
def display (v : View) (obj : Nat) : Option (Int × List Row) :=
  if v.total obj = 0 then some (0, [])
  else (rows v (pool v) (v.name obj) (v.name obj) ((pool v).map (·.1))).map fun r => (v.total obj, r)

/-! ## Waiting for an event of one object -/

inductive Kind where
  | raised | dropped | allDropped
deriving DecidableEq, Repr

/-- 54-60: `UVMObjectionEvents`: the flags of the three events and the number of waiters. -/
structure Entry where
  flags : Kind → Bool := fun _ => false
  waiters : Nat := 0

/-- A task in `wait_for`: which task, for which event, and whether the scheduler may resume it. -/
structure Waiter where
  task : Nat
  kind : Kind
  ready : Bool
deriving DecidableEq, Repr

/-- `m_events[obj]` and the tasks inside `wait_for` for this object. -/
structure WState where
  entry : Option Entry := none
  inside : List Waiter := []

/-- An event of the object (917-919, 935-936, 956-957), a call of `wait_for`, the scheduler resuming a task, a task being killed. -/
inductive WOp where
  | fire (k : Kind)
  | call (t : Nat) (k : Kind)
  | resume (t : Nat)
  | kill (t : Nat)
deriving DecidableEq, Repr

/-- The result of a step: the task that returned from `wait_for`, if one did. -/
def wstep (s : WState) : WOp → WState × Option Nat
  | .fire k =>
    match s.entry with
    | none => (s, none)
    | some e => ({ entry := some { e with flags := fun j => if j = k then true else e.flags j }
                   inside := s.inside.map fun w => if w.kind = k then { w with ready := true } else w }, none)
  | .call t k =>                                                             -- 987-996
    if s.inside.any (·.task == t) then (s, none)
    else
      let e := s.entry.getD {}
      ({ entry := some { e with waiters := e.waiters + 1 }, inside := s.inside ++ [⟨t, k, e.flags k⟩] }, none)
  | .resume t =>                                                             -- 998-1001
    match s.inside.find? (·.task == t) with
    | some w =>
      if w.ready then
        ({ entry := match s.entry with
            | none => none
            | some e => if e.waiters - 1 = 0 then none else some { e with waiters := e.waiters - 1 }
           inside := s.inside.eraseP (·.task == t) }, some t)
      else (s, none)
    | none => (s, none)
  | .kill t => ({ s with inside := s.inside.eraseP (·.task == t) }, none)

/-- A history and the tasks that returned, in order. -/
def wrun (s : WState) : List WOp → WState × List Nat
  | [] => (s, [])
  | o :: os =>
    let r := wstep s o
    let q := wrun r.1 os
    (q.1, r.2.toList ++ q.2)

end Verif.ObjTrace
