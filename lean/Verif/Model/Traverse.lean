/-!
# Model of the traversals of the component tree

src/uvm/base/uvm_topdown_phase.py 56-109 and src/uvm/base/uvm_bottomup_phase.py 54-100 (`traverse`),
src/uvm/base/uvm_task_phase.py 79-172 (`m_traverse`), src/uvm/base/uvm_root.py 424-489 (`find_all`),
src/uvm/base/uvm_component.py 343-373, 2565-2569 (the iteration over children through `child_ptr`).

Components are numbers in order of creation.  What is done for a component (executing the phase, or `phase_started`,
`phase_ended`, ...) is a function `ex` on the state, which can create components and move the iteration pointers; `act`
says for which components it is done (those in the domain of the phase; 84).  `fuel` bounds the recursion and `m` the number
of iterations of each loop; the answer is `none` when they run out, else the components for which `ex` was done, in order.
-/
namespace Verif.Traverse

/-- `m_children_ordered`, `child_ptr + 1`, and the number of the next component. -/
structure State where
  kids : Nat → List Nat
  ptr : Nat → Nat
  next : Nat

def setPtr (s : State) (c q : Nat) : State := { s with ptr := fun d => if d = c then q else s.ptr d }

/-- uvm_component.py 353-373: `get_first_child`. -/
def getFirst (s : State) (c : Nat) : State × Option Nat := (setPtr s c 1, (s.kids c)[0]?)

/-- 343-351: `get_next_child`. -/
def getNext (s : State) (c : Nat) : State × Option Nat := (setPtr s c (s.ptr c + 1), (s.kids c)[s.ptr c]?)

/-- 2568-2569: `has_next_child`. -/
def hasNext (s : State) (c : Nat) : Bool := (s.kids c).length > s.ptr c

/-- uvm_topdown_phase.py 107-109, uvm_bottomup_phase.py 72-74: the loop over the children. -/
def loop (rec : Nat → State → Option (State × List Nat)) (c : Nat) :
    Nat → Option Nat → State → Option (State × List Nat)
  | _, none, s => some (s, [])
  | 0, some _, _ => none
  | m + 1, some d, s =>
    match rec d s with
    | none => none
    | some x =>
      let y := getNext x.1 c
      match loop rec c m y.2 y.1 with
      | none => none
      | some z => some (z.1, x.2 ++ z.2)

/-- uvm_topdown_phase.py 56-109. -/
def topdown (ex : Nat → State → State) (act : Nat → Bool) (m : Nat) : Nat → Nat → State → Option (State × List Nat)
  | 0, _, _ => none
  | n + 1, c, s =>
    let s := if act c then ex c s else s
    let own := if act c then [c] else []
    if (s.kids c).isEmpty then some (s, own)
    else
      let y := getFirst s c
      match loop (topdown ex act m n) c m y.2 y.1 with
      | none => none
      | some z => some (z.1, own ++ z.2)

/-- uvm_bottomup_phase.py 54-100. -/
def bottomup (ex : Nat → State → State) (act : Nat → Bool) (m : Nat) : Nat → Nat → State → Option (State × List Nat)
  | 0, _, _ => none
  | n + 1, c, s =>
    let x := if (s.kids c).isEmpty then some (s, [])
      else
        let y := getFirst s c
        loop (bottomup ex act m n) c m y.2 y.1
    match x with
    | none => none
    | some z => some (if act c then (ex c z.1, z.2 ++ [c]) else z)

/-- uvm_task_phase.py 98-172: the order in which the phase is started for the components; the children are listed first
(`get_children`), so `child_ptr` plays no part, and no component is created in a task phase (C47). -/
def taskOrder (kids : Nat → List Nat) (act : Nat → Bool) : Nat → Nat → Option (List Nat)
  | 0, _ => none
  | n + 1, c =>
    ((kids c).foldl (fun acc d => acc.bind fun l => (taskOrder kids act n d).map fun l' => l ++ l') (some [])).map
      fun l => l ++ if act c then [c] else []

/-- uvm_root.py 482-487: the loop of `m_find_all_recurse`. -/
def findLoop (rec : Nat → State → Option (State × List Nat)) (c : Nat) :
    Nat → Option Nat → State → Option (State × List Nat)
  | 0, _, _ => none
  | _ + 1, none, _ => none                    -- `None` has no children: AttributeError; does not happen
  | m + 1, some d, s =>
    match rec d s with
    | none => none
    | some x =>
      if hasNext x.1 c then
        let y := getNext x.1 c
        match findLoop rec c m y.2 y.1 with
        | none => none
        | some z => some (z.1, x.2 ++ z.2)
      else some x

/-- uvm_root.py 467-489: `m_find_all_recurse`; `act` says which components match (by name, and having one). -/
def findAll (act : Nat → Bool) (m : Nat) : Nat → Nat → State → Option (State × List Nat)
  | 0, _, _ => none
  | n + 1, c, s =>
    let x := if (s.kids c).isEmpty then some (s, [])
      else
        let y := getFirst s c
        findLoop (findAll act m n) c m y.2 y.1
    match x with
    | none => none
    | some z => some (z.1, z.2 ++ if act c then [c] else [])

end Verif.Traverse
