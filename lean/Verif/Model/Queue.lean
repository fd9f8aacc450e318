/-!
# Model of `UVMQueue` (src/uvm/base/uvm_queue.py)

The state is the Python list `self.queue`; element type is arbitrary.  Warnings are part of the result.
-/
namespace Verif.Queue

/-- Results of the calls.  `warned` is the path that reports a warning and ignores
the request (for `get`: returns the default 0, lines 92-97). -/
inductive Out (α : Type) where
  | unit
  | val (a : α)
  | nothing            -- Python `None`
  | warned             -- uvm_report_warning, request ignored (get returns the literal 0)
  | raised             -- Python exception
  | int (n : Int)
  | list (l : List α)
deriving DecidableEq, Repr

inductive Op (α : Type) where
  | get (i : Int) | size | setItem (i : Int) (x : α) | getItem (i : Int)
  | insert (i : Int) (x : α) | delete (i : Int) | popFront | front | back | popBack
  | pushFront (x : α) | pushBack (x : α) | findWith (f : α → Bool) | findFirstIndex (f : α → Bool)

/-- Python `l[i]` for an int `i`: negative indices count from the end, out of
range raises (`none`). -/
def pyGet {α} (l : List α) (i : Int) : Option α :=
  if 0 ≤ i then l[i.toNat]? else if -(l.length : Int) ≤ i then l[(l.length + i).toNat]? else none

/-- Python `l[i] = x`: same index rule; `none` is IndexError. -/
def pySet {α} (l : List α) (i : Int) (x : α) : Option (List α) :=
  if 0 ≤ i then (if i < l.length then some (l.set i.toNat x) else none)
  else if -(l.length : Int) ≤ i then some (l.set (l.length + i).toNat x) else none

/-- uvm_queue.py 80-98. -/
def get {α} (q : List α) (i : Int) : Out α :=
  if i ≥ q.length ∨ i < 0 then .warned
  else match pyGet q i with
    | some a => .val a
    | none => .raised

/-- uvm_queue.py 116-128 (`__setitem__`). -/
def setItem {α} (q : List α) (i : Int) (x : α) : List α × Out α :=
  if i < q.length then
    match pySet q i x with
    | some q' => (q', .unit)
    | none => (q, .raised)
  else (q, .raised)

/-- uvm_queue.py 131-149 (`__getitem__`, integer index; the slice branch 139-144 is not modelled). -/
def getItem {α} (q : List α) (i : Int) : Out α :=
  if i < q.length then
    match pyGet q i with
    | some a => .val a
    | none => .raised
  else .raised

/-- uvm_queue.py 151-165.  `list.insert(i, x)` for `0 ≤ i < len`. -/
def insert {α} (q : List α) (i : Int) (x : α) : List α × Out α :=
  if i ≥ q.length ∨ i < 0 then (q, .warned)
  else (q.take i.toNat ++ x :: q.drop i.toNat, .unit)

/-- uvm_queue.py 167-184. -/
def delete {α} (q : List α) (i : Int) : List α × Out α :=
  if i ≥ q.length ∨ i < -1 then (q, .warned)
  else if i = -1 then ([], .unit)
  else (q.take i.toNat ++ q.drop (i.toNat + 1), .unit)

/-- uvm_queue.py 186-200. -/
def popFront {α} (q : List α) : List α × Out α :=
  match q with
  | [] => ([], .raised)
  | a :: q => (q, .val a)

/-- uvm_queue.py 202-205. -/
def front {α} (q : List α) : Out α :=
  match q with
  | [] => .nothing
  | a :: _ => .val a

/-- uvm_queue.py 207-210. -/
def back {α} (q : List α) : Out α :=
  if q.length > 0 then
    match q[q.length - 1]? with
    | some a => .val a
    | none => .raised
  else .nothing

/-- uvm_queue.py 212-220: `list.pop()`, which raises on an empty list. -/
def popBack {α} (q : List α) : List α × Out α :=
  match q.getLast? with
  | some a => (q.dropLast, .val a)
  | none => (q, .raised)

/-- uvm_queue.py 222-230. -/
def pushFront {α} (q : List α) (x : α) : List α := x :: q

/-- uvm_queue.py 232-240. -/
def pushBack {α} (q : List α) (x : α) : List α := q ++ [x]

/-- uvm_queue.py 261-273: the loop pushing matching elements to a fresh queue. -/
def findWith {α} (f : α → Bool) (acc : List α) : List α → List α
  | [] => acc
  | e :: es => if f e then findWith f (pushBack acc e) es else findWith f acc es

/-- uvm_queue.py 275-282: the loop with index `i`. -/
def findFirstIndex {α} (f : α → Bool) (i : Nat) : List α → Int
  | [] => -1
  | e :: es => if f e then i else findFirstIndex f (i + 1) es

/-- One API call. -/
def step {α} (q : List α) : Op α → List α × Out α
  | .get i => (q, get q i)
  | .size => (q, .int q.length)
  | .setItem i x => setItem q i x
  | .getItem i => (q, getItem q i)
  | .insert i x => insert q i x
  | .delete i => delete q i
  | .popFront => popFront q
  | .front => (q, front q)
  | .back => (q, back q)
  | .popBack => popBack q
  | .pushFront x => (pushFront q x, .unit)
  | .pushBack x => (pushBack q x, .unit)
  | .findWith f => (q, .list (findWith f [] q))
  | .findFirstIndex f => (q, .int (findFirstIndex f 0 q))

end Verif.Queue
