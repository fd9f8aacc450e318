import Verif.Util.Machine
/-!
# Model of the data access policies (src/uvm/dap)

`none` is Python's `None` (the initial `m_value`).  An error report is the output `error` (set) or the flag of `got`.
`try_set` and (except for `uvm_set_before_get_dap`) `try_get` are not defined in the subclasses, so the base class
method that raises `NotImplementedError` runs (uvm_set_get_dap_base.py 66-67, 86-87).
-/
namespace Verif.Dap

variable {α : Type}

/-- Calls. -/
inductive Op (α : Type) where
  | set (v : α) | get | lock | unlock | isLocked | trySet (v : α) | tryGet (l : List (Option α))
deriving DecidableEq, Repr

/-- Results. `got v e`: the value returned and whether an error was reported; `tried ok l`: the result and the caller's
list afterwards. -/
inductive Out (α : Type) where
  | done | error | got (v : Option α) (err : Bool) | bool (b : Bool) | tried (ok : Bool) (l : List (Option α))
  | notImplemented | noSuchMethod | valueError
deriving DecidableEq, Repr

/-- `m_locked` and `m_value`. -/
structure LockState (α : Type) where
  locked : Bool
  value : Option α
deriving DecidableEq, Repr

def lockInit : LockState α := ⟨false, none⟩

/-- uvm_get_to_lock_dap.py: `set` 67-71, `get` 94-96. -/
def g2lStep (s : LockState α) : Op α → LockState α × Out α
  | .set v => if s.locked = true then (s, .error) else ({ s with value := some v }, .done)
  | .get => ({ s with locked := true }, .got s.value false)
  | .trySet _ | .tryGet _ => (s, .notImplemented)
  | _ => (s, .noSuchMethod)

/-- uvm_simple_lock_dap.py: `set` 62-66, `get` 88-89, `lock` 107, `unlock` 113, `is_locked` 123. -/
def lockStep (s : LockState α) : Op α → LockState α × Out α
  | .set v => if s.locked then (s, .error) else ({ s with value := some v }, .done)
  | .get => (s, .got s.value false)
  | .lock => ({ s with locked := true }, .done)
  | .unlock => ({ s with locked := false }, .done)
  | .isLocked => (s, .bool s.locked)
  | .trySet _ | .tryGet _ => (s, .notImplemented)

/-- `m_set` and `m_value`. -/
structure SetState (α : Type) where
  isSet : Bool
  value : Option α
deriving DecidableEq, Repr

def setInit : SetState α := ⟨false, none⟩

/-- uvm_set_before_get_dap.py: `set` 96-98, `get` 115-118, `try_get` 127-133 (the output argument is a list;
`uvm_check_output_args`, uvm_globals.py 442-456, raises `ValueError` unless it is empty). -/
def sbgStep (s : SetState α) : Op α → SetState α × Out α
  | .set v => (⟨true, some v⟩, .done)
  | .get => (s, .got s.value (s.isSet == false))
  | .tryGet l =>
    if l.isEmpty = false then (s, .valueError)
    else if s.isSet = false then (s, .tried false l) else (s, .tried true (l ++ [s.value]))
  | .trySet _ => (s, .notImplemented)
  | _ => (s, .noSuchMethod)

end Verif.Dap
