import Verif.Model.RegMap
/-!
# Bus accesses through adapter, sequencer and driver (src/uvm/reg/uvm_reg_map.py 1317-1611, uvm_reg_adapter.py)

`do_bus_write` and `do_bus_read` with the plumbing that `Verif.Model.RegMap` leaves out: the adapter makes a bus item of every bus operation, the parent
sequence starts and finishes it on the sequencer, the driver executes it, and the adapter copies back what came of it.  The user's hooks of the parent
sequence (`pre_do`, `mid_do`, `post_do`) are recorded; they change nothing.  `end_event.wait_on` (1429, 1578) returns at once: `finish_item` has called
`end_tr`, which triggers it (uvm_sequence_base.py 1060, uvm_component.py 1897, uvm_transaction.py 376).  What other sequences do between two items is
left out.
-/
namespace Verif.RegAdapter
open Verif.RegMap

/-- `uvm_status_e`. -/
inductive Status where
  | isOk | notOk | hasX
deriving DecidableEq, Repr

/-- uvm_reg_adapter.py 64-164: what the user's extension defines.  `bus2reg b op`: the data and status it leaves in `op` given the item `b`; `reg2bus` may
forget to return an item. -/
structure Adapter (β : Type) where
  reg2bus : BusOp → Option β
  bus2reg : β → BusOp → Nat × Status
  responses : Bool := false

/-- The driver and what is behind it: executes an item, which it may change; `answers`: it sends a response for it. -/
structure Driver (σ β : Type) where
  exec : σ → β → σ × β
  answers : σ → β → Bool := fun _ _ => false

/-- What the parent sequence and the driver see of an access: `rw` is the register item. -/
inductive Ev (β : Type) where
  | preDo | midRw | midDo (b : β) | sent (b : β) | postDo (b : β) | postRw
deriving DecidableEq, Repr

/-- How a call ends: it returns, raises, or waits for ever. -/
inductive Res (ρ : Type) where
  | done (x : ρ) | raised | waits
deriving DecidableEq, Repr

variable {σ β : Type}

/-- 1412-1440 and 1565-1587: one bus operation.  No item: `uvm_fatal`, then 1422 raises.  With responses `get_base_response(None)` takes a response from the
queue, waiting until there is one, and raises on `None.append` (uvm_sequence_base.py 1269-1270). -/
def word (A : Adapter β) (D : Driver σ β) (first : Bool) (op : BusOp) (s : σ) : σ × List (Ev β) × Res (Nat × Status) :=
  match A.reg2bus op with
  | none => (s, [], .raised)
  | some b =>
    let r := D.exec s b
    let evs := [.preDo] ++ (if first then [.midRw] else []) ++ [.midDo b, .sent b, .postDo r.2]
    if A.responses then (r.1, evs, if D.answers s b then .raised else .waits)
    else (r.1, evs, .done (A.bus2reg r.2 op))

/-- 1411-1458: the operations of a write; `n` is the number of addresses, `i` the index of the next operation, `st` the status so far. -/
def writes (A : Adapter β) (D : Driver σ β) (n : Nat) : Nat → List BusOp → σ × Status → σ × List (Ev β) × Res Status
  | _, [], (s, st) => (s, [], .done st)
  | i, op :: ops, (s, _) =>
    match word A D (i = 0) op s with
    | (s', evs, .raised) => (s', evs, .raised)
    | (s', evs, .waits) => (s', evs, .waits)
    | (s', evs, .done (_, st)) =>
      let evs := if i + 1 = n then evs ++ [.postRw] else evs
      if st = .notOk then (s', evs, .done st)
      else
        let z := writes A D n (i + 1) ops (s', st)
        (z.1, evs ++ z.2.1, z.2.2)

/-- 1560-1605: the operations of a read, or-ing the data into `v`. -/
def reads (A : Adapter β) (D : Driver σ β) (w n : Nat) : Nat → List BusOp → σ × Nat × Status → σ × List (Ev β) × Res (Nat × Status)
  | _, [], (s, v, st) => (s, [], .done (v, st))
  | i, op :: ops, (s, v, _) =>
    match word A D (i = 0) { op with data := 0 } s with
    | (s', evs, .raised) => (s', evs, .raised)
    | (s', evs, .waits) => (s', evs, .waits)
    | (s', evs, .done (d, st)) =>
      if st = .notOk then (s', evs, .done (v, st))
      else
        let evs := if i + 1 = n then evs ++ [.postRw] else evs
        let z := reads A D w n (i + 1) ops (s', v ||| ((d &&& (2 ^ (w * 8) - 1)) <<< (op.data * 8)), st)
        (z.1, evs ++ z.2.1, z.2.2)

/-- 1317-1461: `do_bus_write` of the values of a register (one value) or a memory burst. -/
def busWrite (A : Adapter β) (D : Driver σ β) (order : Order) (w : Nat) (nBits : Int) (be stride : Nat) :
    List Nat → List Nat → σ × Status → σ × List (Ev β) × Res Status
  | _, [], (s, st) => (s, [], .done st)
  | addrs, v :: vs, s =>
    match writes A D addrs.length 0 (order (mkAccesses .write w v nBits be 0 addrs)) s with
    | (s', evs, .done st) =>
      let z := busWrite A D order w nBits be stride (addrs.map (· + stride)) vs (s', st)
      (z.1, evs ++ z.2.1, z.2.2)
    | r => r

/-- 1464-1611: `do_bus_read`, for `cnt` values. -/
def busRead (A : Adapter β) (D : Driver σ β) (order : Order) (w : Nat) (nBits : Int) (be stride : Nat) :
    List Nat → Nat → σ × Status → σ × List (Ev β) × Res (List Nat × Status)
  | _, 0, (s, st) => (s, [], .done ([], st))
  | addrs, cnt + 1, (s, st) =>
    match reads A D w addrs.length 0 (order (mkAccesses .read w 0 nBits be 0 addrs)) (s, 0, st) with
    | (s', evs, .done (v, st')) =>
      let z := busRead A D order w nBits be stride (addrs.map (· + stride)) cnt (s', st')
      (z.1, evs ++ z.2.1, match z.2.2 with | .done (vs, x) => .done (v :: vs, x) | .raised => .raised | .waits => .waits)
    | (s', evs, .raised) => (s', evs, .raised)
    | (s', evs, .waits) => (s', evs, .waits)

end Verif.RegAdapter
