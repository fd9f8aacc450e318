import Verif.Model.RegMap
/-!
# Concurrent accesses through one map: `UVMRegMap.do_bus_write` and `do_bus_read` word by word (src/uvm/reg/uvm_reg_map.py)

An access of several words gives up control at every word (`await rw.parent.start_item`, `finish_item`, `end_event.wait_on`:
1423-1429 and 1572-1578), so words of accesses to different registers may be mixed on the bus in any order.  Accesses to one register
wait for each other (`XatomicX`, uvm_reg.py 1416 and 1585, see `Verif.Model.RegAtomic`): here each register has a queue of accesses.
The user's hooks and the prediction are in `Verif.Model.RegAccess`.
-/
namespace Verif.RegConc
open Verif.RegMap

/-- An access asked for. -/
inductive Req where
  | write (v : Nat) | read
deriving DecidableEq, Repr

/-- What the caller gets. -/
inductive Res where
  | wrote (ok : Bool) | got (v : Nat) (ok : Bool)
deriving DecidableEq, Repr

/-- The local variables of a running `do_bus_write` or `do_bus_read`: the accesses still to be made (1411, 1560), `rw.value[0]` of a read and
`rw.status`. -/
structure Flight where
  dir : Dir
  todo : List BusOp
  value : Nat
  ok : Bool
deriving DecidableEq, Repr

/-- The accesses to one register. -/
structure Task where
  queue : List Req
  cur : Option Flight := none
  log : List Res := []
deriving DecidableEq, Repr

/-- How a register is placed on the bus. -/
structure Place where
  order : Order
  w : Nat
  nBits : Int
  addrs : List Nat

/-- 1326-1408 and 1473-1557: up to the first word nothing is awaited. -/
def start (p : Place) : Req → Flight
  | .write v => ⟨.write, p.order (mkAccesses .write p.w v p.nBits (2 ^ p.w - 1) 0 p.addrs), 0, true⟩
  | .read => ⟨.read, p.order (mkAccesses .read p.w 0 p.nBits (2 ^ p.w - 1) 0 p.addrs), 0, true⟩

/-- 1411-1458 and 1560-1605: one word; a refused word ends the loop. -/
def beat {σ} (bus : Bus σ) (w : Nat) (f : Flight) (op : BusOp) (ops : List BusOp) (s : σ) : Flight × σ :=
  match f.dir with
  | .write =>
    let r := bus s op
    (⟨.write, if r.2.2 then ops else [], f.value, r.2.2⟩, r.1)
  | .read =>
    let r := bus s { op with data := 0 }
    (⟨.read, if r.2.2 then ops else [], if r.2.2 then f.value ||| ((r.2.1 &&& (2 ^ (w * 8) - 1)) <<< (op.data * 8)) else f.value, r.2.2⟩, r.1)

/-- What the caller is given when the loop is over. -/
def Flight.res (f : Flight) : Res :=
  match f.dir with
  | .write => .wrote f.ok
  | .read => .got f.value f.ok

/-- The accesses of one register go on to the next point where they give up control. -/
def Task.step {σ} (bus : Bus σ) (p : Place) (t : Task) (s : σ) : Task × σ :=
  match t.cur with
  | none => match t.queue with
    | [] => (t, s)
    | q :: qs => ({ t with queue := qs, cur := some (start p q) }, s)
  | some f => match f.todo with
    | [] => ({ t with cur := none, log := t.log ++ [f.res] }, s)
    | op :: ops =>
      let r := beat bus p.w f op ops s
      ({ t with cur := some r.1 }, r.2)

/-- The registers and what is behind the bus. -/
structure State (n : Nat) (σ : Type) where
  tasks : Fin n → Task
  dev : σ

/-- Register `i` goes on. -/
def step {n : Nat} {σ} (bus : Bus σ) (places : Fin n → Place) (st : State n σ) (i : Fin n) : State n σ :=
  let r := (st.tasks i).step bus (places i) st.dev
  ⟨fun j => if j = i then r.1 else st.tasks j, r.2⟩

/-- A schedule: which register goes on next. -/
def run {n : Nat} {σ} (bus : Bus σ) (places : Fin n → Place) (st : State n σ) (sched : List (Fin n)) : State n σ :=
  sched.foldl (step bus places) st

end Verif.RegConc
