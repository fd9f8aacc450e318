import Verif.Model.RegSystem
import Verif.Model.RegConc
/-!
# Processes that access the registers of a block at the same time (src/uvm/reg/uvm_reg.py, uvm_reg_map.py)

`UVMReg.write`, `read`, `update`, `mirror` cut at the points where they give up control: what comes before the bus
(uvm_reg.py 852-915 and 1389-1503, 918-965 and 1579-1705, 1011-1055, 1065-1135), the words on the bus
(`Verif.Model.RegConc`), and what comes after it (1507-1553, 1709-1757, 1138-1146).  Front-door accesses; the user's hooks do not
give up control.  Accesses to one register wait for each other (`XatomicX`, `Verif.Model.RegAtomic`): here they are made in the order in
which they were asked for; `Verif.Model.RegParSet` adds what changes a register while one of its accesses is under way.
-/
namespace Verif.RegPar
open Verif.Reg Verif.RegField Verif.RegAccess Verif.RegMap Verif.RegSystem Verif.RegConc

/-- Where an operation is when it first gives up control: over, or waiting for the bus. -/
inductive Next where
  | done (r : Reg) (o : Out)
  | ask (r : Reg) (q : Req)

/-- The rights of a register in its map. -/
def rights (p : Port) : Rights :=
  match p.cfg.route with
  | .front rt => rt
  | _ => .RW

/-- uvm_reg.py 1389-1503: `do_write` up to the bus. -/
def beginWrite (p : Port) (r : Reg) (v : Nat) (out : Bool → Out) : Next :=
  let w := preWrite p.preW r v
  if w.1.ok = false then .done r (out false) else .ask r (.write w.1.value)

/-- 1579-1705: `do_read` up to the bus. -/
def beginRead (p : Port) (r : Reg) (out : Nat → Out) : Next :=
  let w := preRead p.preR r
  if w.1.ok = false then .done r (out w.1.value) else .ask r .read

/-- An operation up to the bus. -/
def begin (p : Port) (r : Reg) : RegAccess.Op → Next
  | .set v => .done (Reg.set r v) .done
  | .setField i v => .done (Reg.step r (.fieldOp i (.set v))) .done
  | .write v => beginWrite p (Reg.set r v) v .wrote                                       -- 898
  | .read => beginRead p r fun v => .got v false false
  | .update =>
    if needsUpdate r = false then .done r (.updated [])                                  -- 1054-1055
    else beginWrite p (Reg.set r (updateValue r)) (updateValue r) fun ok => .updated [ok]
  | .mirror b => beginRead p r fun v => .mirrored [false] (b && !(doCheck r p.rt (getMirrored r) v))

/-- 1507-1553: `do_write` after the bus. -/
def endWrite (p : Port) (r : Reg) (v : Nat) (ok : Bool) : Option (Reg × Bool) := do
  let r1 ← if p.cfg.auto then predict p.cfg r v .write .front (rights p) else some r
  return (r1, (postWrite p.postW r1 ⟨v, ok⟩).1.ok)

/-- 1709-1757: `do_read` after the bus: status, and whether `check_on_read` reported a mismatch; `seen`: the register before the bus, whose
desired value is what is compared (1695, 1715). -/
def endRead (p : Port) (seen r : Reg) (v : Nat) (ok : Bool) : Option (Reg × Bool × Bool) := do
  let err := p.cfg.auto && p.cfg.check && ok && !(doCheck r (rights p) (Reg.get seen) v)
  let r1 ← if p.cfg.auto then predict p.cfg r v .read .front (rights p) else some r
  return (r1, (postRead p.postR r1 ⟨v, ok⟩).1.ok, err)

/-- An operation after the bus, given the register before the bus (1133, 1695), what it asked of the bus and what came back; `none`: exception. -/
def finish (p : Port) (seen r : Reg) : RegAccess.Op → Req → Res → Option (Reg × Out)
  | .write _, .write v, .wrote ok => (endWrite p r v ok).map fun x => (x.1, .wrote x.2)
  | .update, .write v, .wrote ok => (endWrite p r v ok).map fun x => (x.1, .updated [x.2])
  | .read, .read, .got v ok => (endRead p seen r v ok).map fun x => (x.1, .got v x.2.1 x.2.2)
  | .mirror b, .read, .got v ok => (endRead p seen r v ok).map fun x =>
      (x.1, .mirrored [x.2.1] (b && !(doCheck x.1 p.rt (getMirrored seen) v)))
  | _, _, _ => none

/-- An operation waiting for the bus. -/
structure Stage where
  op : RegAccess.Op
  seen : Reg
  req : Req
  flight : Flight

/-- A register with the operations under way: those waiting, the one on the bus, and what the others returned; `dead`: one of them ended with an exception
and, its `XatomicX(False)` being skipped, the register cannot be accessed any more. -/
structure Task where
  reg : Reg
  queue : List RegAccess.Op := []
  cur : Option Stage := none
  log : List Out := []
  dead : Bool := false

/-- The operations of one register go on to the next point where they give up control. -/
def Task.step {σ} (bus : Bus σ) (order : Order) (w : Nat) (p : Port) (t : Task) (s : σ) : Task × σ :=
  if t.dead then (t, s)
  else match t.cur with
    | none => match t.queue with
      | [] => (t, s)
      | op :: ops => match begin p t.reg op with
        | .done r o => ({ t with reg := r, queue := ops, log := t.log ++ [o] }, s)
        | .ask r q => ({ t with reg := r, queue := ops, cur := some ⟨op, r, q, start ⟨order, w, t.reg.nBits, p.addrs⟩ q⟩ }, s)
    | some g => match g.flight.todo with
      | [] => match finish p g.seen t.reg g.op g.req g.flight.res with
        | none => ({ t with dead := true }, s)
        | some x => ({ t with reg := x.1, cur := none, log := t.log ++ [x.2] }, s)
      | op :: ops =>
        let r := beat bus w g.flight op ops s
        ({ t with cur := some { g with flight := r.1 } }, r.2)

/-- The registers and what is behind the bus. -/
structure State (n : Nat) (σ : Type) where
  tasks : Fin n → Task
  dev : σ

/-- A process asks for an operation on a register, or a register goes on. -/
inductive Ev (n : Nat) where
  | ask (i : Fin n) (op : RegAccess.Op)
  | go (i : Fin n)

def step {n : Nat} {σ} (bus : Bus σ) (order : Order) (w : Nat) (ports : Fin n → Port) (st : State n σ) : Ev n → State n σ
  | .ask i op => { st with tasks := fun j => if j = i then { st.tasks i with queue := (st.tasks i).queue ++ [op] } else st.tasks j }
  | .go i =>
    let r := (st.tasks i).step bus order w (ports i) st.dev
    ⟨fun j => if j = i then r.1 else st.tasks j, r.2⟩

/-- A history of requests under a schedule. -/
def run {n : Nat} {σ} (bus : Bus σ) (order : Order) (w : Nat) (ports : Fin n → Port) (st : State n σ) (evs : List (Ev n)) : State n σ :=
  evs.foldl (step bus order w ports) st

end Verif.RegPar
