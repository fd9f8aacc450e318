import Verif.Util.Machine
import Verif.Model.Callback
/-!
# Model of callback methods that use the callback facility while they run
(src/uvm/base/uvm_callback.py, src/uvm/macros/uvm_callback_defines.py)

`Model/Callback.lean` runs callbacks that leave the queues alone.  Here the method of a callback may itself call `add`, `callback_mode` and so on: the loop of
`uvm_do_obj_callbacks` keeps only an index into the queue, and reads the queue again for every callback.
-/
namespace Verif.CbRun
open Verif.Callback

/-- What the methods do: `eff i c` are the calls of the facility made by the method of callback `c` when it is the `i`-th one called in this run. -/
abbrev Effect := Nat → Nat → List Op

/-- The loop of `uvm_do_obj_callbacks` (uvm_callback_defines.py 179-185), also that of the `async` version (192-198), for at most `n` callbacks: the callbacks whose method
was called, the state reached, and whether the loop ended.  `cur` is what `cb_iter` returned last, with its index.
An exception raised in a method ends the loop in the code; the theorems are about methods that raise none. -/
def dynLoop (isa : Nat → Nat → Bool) (o k : Option Nat) (eff : Effect) : Nat → Nat → State → Option Nat × Nat → List Nat × State × Bool
  | _, _, s, (none, _) => ([], s, true)
  | 0, _, s, (some _, _) => ([], s, false)
  | n + 1, i, s, (some c, j) =>
    let s' := runS step s (eff i c)
    let r := dynLoop isa o k eff n (i + 1) s' (getNext isa s' o k j)
    (c :: r.1, r.2)

/-- `uvm_do_obj_callbacks`, uvm_callback_defines.py 174-185, for at most `n` callbacks. -/
def dynCallbacks (isa : Nat → Nat → Bool) (o k : Option Nat) (eff : Effect) (n : Nat) (s : State) : List Nat × State × Bool :=
  dynLoop isa o k eff n 0 s (getFirst isa s o k 0)

end Verif.CbRun
