/-!
# Model of the callback facility (src/uvm/base/uvm_callback.py, src/uvm/macros/uvm_callback_defines.py)

Objects and callbacks are numbers (compared by identity in the code); `isa c k` says that callback `c` is an instance of
callback class `k`.

Which class attributes the code reads matters:
* type-wide callbacks are appended to `UVMTypedCallbacks.m_t_inst.m_tw_cb_q` (lines 326-334): `tw` below;
* `UVMCallbacks.m_t_inst` is an instance that has no `m_tw_cb_q` of its own (lines 601-607), so
  `cls.m_t_inst.m_tw_cb_q` on lines 728, 762, 767 and 940 is the class attribute of line 221, a list nobody adds to:
  `classQ` below;
* instance queues live in `cls.m_base_inst.m_pool`, a pool made by `m_initialize` for `UVMCallbacks` (line 117) if
  `UVMCallbacks.get` is the first `get` to run, and otherwise (a report was processed first, through `UVMReportCb.get`) the
  pool of `UVMCallbacksBase` (line 103).  In the second case, `shared` below, it is also the pool that `m_add_tw_cbs` looks at.

Not modelled: tracing messages, the duplicate-name warnings, `display`, the registration table (`check_registration`
always succeeds, lines 126-127, 154).
-/
namespace Verif.Callback

/-- Is the pool of the instance queues the one `m_add_tw_cbs` reads? -/
structure State where
  shared : Bool
  /-- `UVMTypedCallbacks.m_t_inst.m_tw_cb_q`. -/
  tw : List Nat
  /-- `m_pool`: the instance queues. -/
  pool : Nat → Option (List Nat)
  /-- Is the pool not empty? -/
  anyInst : Bool
  /-- `m_enabled` of every callback. -/
  enabled : Nat → Bool

/-- `UVMTypedCallbacks.m_tw_cb_q`, line 221. -/
def classQ : List Nat := []

/-- The state after the first `get` (lines 585-617); a callback starts enabled (line 1328). -/
def init (shared : Bool) : State := ⟨shared, [], fun _ => none, false, fun _ => true⟩

def upd {α : Type} (f : Nat → α) (k : Nat) (v : α) : Nat → α := fun x => if x = k then v else f x

/-- Lines 331-334, 351-354, 777-780: `UVM_APPEND` or not. -/
def insert (append : Bool) (q : List Nat) (c : Nat) : List Nat := if append then q ++ [c] else c :: q

inductive Out where
  | ok | raised | mode (b : Bool) | cb (c : Option Nat) (i : Nat) | ran (l : List Nat) | ranRet (l : List Nat) (r : Int)
deriving DecidableEq, Repr

/-- `UVMCallbacks.add(None, cb, ordering)`, lines 727-741 and 311-363: with a shared pool that has an entry,
`m_pool.get_first()` on line 337 is not a method of `UVMPool`: AttributeError, after the type-wide queue has changed.
With an unshared pool that pool is always empty; there are no derived types. -/
def addType (s : State) (c : Nat) (append : Bool) : State × Out :=
  if c ∈ classQ then (s, .ok)
  else
    ({ s with tw := if c ∈ s.tw then s.tw else insert append s.tw c },
      if s.shared && s.anyInst then .raised else .ok)

/-- The queue found or created for an object, lines 748-768: a new (or empty) one gets the class-level queue, once for a
report object and once for every object. -/
def instQ (s : State) (o : Nat) : List Nat :=
  match s.pool o with
  | some [] => classQ ++ classQ
  | some q => q
  | none => classQ ++ classQ

/-- `UVMCallbacks.add(obj, cb, ordering)`, lines 743-780. -/
def addInst (s : State) (o c : Nat) (append : Bool) : State :=
  { s with
    pool := upd s.pool o (some (if c ∈ instQ s o then instQ s o else insert append (instQ s o) c))
    anyInst := true }

/-- `m_get_q`, lines 922-948; the object `none` is Python's None. -/
def getQ (s : State) (o : Option Nat) : List Nat :=
  match o with
  | none => classQ
  | some o =>
    match s.pool o with
    | some q => q
    | none => s.tw

/-- The test on lines 980-984 (and 1020, 1060, 1104): with a class, an enabled instance of it; without, anything. -/
def accepts (isa : Nat → Nat → Bool) (s : State) (k : Option Nat) (c : Nat) : Bool :=
  match k with
  | some k => isa c k && s.enabled c
  | none => true

/-- The loop over increasing indices: the first accepted entry of `q` from index `i`, with its index; when there is none,
the iterator index is that of the last entry looked at. -/
def scanUp (p : Nat → Bool) : List Nat → Nat → Nat → Option Nat × Nat
  | [], _, last => (none, last)
  | c :: q, i, _ => if p c then (some c, i) else scanUp p q (i + 1) i

/-- `get_first`, lines 951-985. -/
def getFirst (isa : Nat → Nat → Bool) (s : State) (o k : Option Nat) (mi : Nat) : Option Nat × Nat :=
  scanUp (accepts isa s k) (getQ s o) 0 mi

/-- `get_next`, lines 1028-1065. -/
def getNext (isa : Nat → Nat → Bool) (s : State) (o k : Option Nat) (mi : Nat) : Option Nat × Nat :=
  scanUp (accepts isa s k) ((getQ s o).drop (mi + 1)) (mi + 1) mi

/-- The loop over decreasing indices; the list is the reversed prefix of the queue. -/
def scanDown (p : Nat → Bool) : List Nat → Nat → Nat → Option Nat × Nat
  | [], _, last => (none, last)
  | c :: q, i, _ => if p c then (some c, i) else scanDown p q (i - 1) i

/-- `get_last`, lines 990-1025. -/
def getLast (isa : Nat → Nat → Bool) (s : State) (o k : Option Nat) (mi : Nat) : Option Nat × Nat :=
  scanDown (accepts isa s k) (getQ s o).reverse ((getQ s o).length - 1) mi

/-- `get_prev`, lines 1069-1109, for an index inside the queue. -/
def getPrev (isa : Nat → Nat → Bool) (s : State) (o k : Option Nat) (mi : Nat) : Option Nat × Nat :=
  scanDown (accepts isa s k) ((getQ s o).take mi).reverse (mi - 1) mi

/-- The rest of the loop of `uvm_do_obj_callbacks` (uvm_callback_defines.py 179-185) with `n` bounding the number of
callbacks left; the callback methods do not use the callback facility themselves. -/
def doLoop (isa : Nat → Nat → Bool) (s : State) (o k : Option Nat) : Nat → Option Nat × Nat → List Nat
  | 0, _ => []
  | _ + 1, (none, _) => []
  | n + 1, (some c, i) => c :: doLoop isa s o k n (getNext isa s o k i)

/-- `uvm_do_obj_callbacks`, uvm_callback_defines.py 174-185. -/
def doCallbacks (isa : Nat → Nat → Bool) (s : State) (o k : Option Nat) : List Nat :=
  doLoop isa s o k ((getQ s o).length + 1) (getFirst isa s o k 0)

/-- The rest of the loop of `uvm_do_obj_callbacks_exit_on` (uvm_callback_defines.py 300-311); `ret c` is what the method of
callback `c` returns. -/
def exitLoop (isa : Nat → Nat → Bool) (ret : Nat → Int) (v : Int) (s : State) (o k : Option Nat) :
    Nat → Option Nat × Nat → List Nat × Int
  | 0, _ => ([], 1 - v)
  | _ + 1, (none, _) => ([], 1 - v)
  | n + 1, (some c, i) =>
    if ret c = v then ([c], v)
    else (c :: (exitLoop isa ret v s o k n (getNext isa s o k i)).1, (exitLoop isa ret v s o k n (getNext isa s o k i)).2)

/-- `uvm_do_obj_callbacks_exit_on`, uvm_callback_defines.py 295-312. -/
def doExitOn (isa : Nat → Nat → Bool) (ret : Nat → Int) (v : Int) (s : State) (o k : Option Nat) : List Nat × Int :=
  exitLoop isa ret v s o k ((getQ s o).length + 1) (getFirst isa s o k 0)

inductive Op where
  | addType (c : Nat) (append : Bool)
  | addInst (o c : Nat) (append : Bool)
  | delete (o : Option Nat) (c : Nat)
  | mode (c : Nat) (on : Int)
deriving DecidableEq, Repr

/-- `callback_mode`, lines 1330-1355: 0 disables, 1 enables, anything else only reads. -/
def setMode (s : State) (c : Nat) (on : Int) : State :=
  if on = 0 then { s with enabled := upd s.enabled c false }
  else if on = 1 then { s with enabled := upd s.enabled c true }
  else s

/-- The calls.  `delete` (lines 840-885) is a comment in the Python code: AttributeError. -/
def step (s : State) : Op → State × Out
  | .addType c a => addType s c a
  | .addInst o c a => (addInst s o c a, .ok)
  | .delete _ _ => (s, .raised)
  | .mode c on => (setMode s c on, .mode (s.enabled c))

end Verif.Callback
