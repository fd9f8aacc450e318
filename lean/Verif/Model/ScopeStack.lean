/-!
# Model of `UVMScopeStack` (src/uvm/base/uvm_scope_stack.py)

Strings are lists of characters.  `m_stack` is bottom first.  `m_arg` is a string, except after
`set_arg_element`, which stores a Python *set* in it (lines 96-98).
-/
namespace Verif.ScopeStack

abbrev Str := List Char

/-- The value of `m_arg`: a string, or the set stored by `set_arg_element`. -/
inductive Arg where
  | str (s : Str)
  | pyset
deriving DecidableEq, Repr

structure State where
  stack : List Str
  arg : Arg
deriving DecidableEq, Repr

/-- uvm_scope_stack.py 25-27. -/
def init : State := ⟨[], .str []⟩

/-- What `get()` gives: a value (string or set), or `TypeError` (string + set). -/
inductive GetOut where
  | str (s : Str)
  | pyset
  | typeError
deriving DecidableEq, Repr

/-- The test `v != "" and (v[0] == "[" or v[0] == "(" or v[0] == "{")` of lines 40 and 83. -/
def bracketed : Str → Bool
  | [] => false
  | c :: _ => c == '[' || c == '(' || c == '{'

/-- uvm_scope_stack.py 38-43: the loop over `m_stack[1:]`. -/
def joinLoop (acc : Str) : List Str → Str
  | [] => acc
  | v :: vs => if bracketed v then joinLoop (acc ++ v) vs else joinLoop (acc ++ ['.'] ++ v) vs

/-- uvm_scope_stack.py 32-50: `get`. -/
def get (s : State) : GetOut :=
  match s.stack with
  | [] => match s.arg with
    | .str a => .str a
    | .pyset => .pyset
  | b :: vs =>
    let g := joinLoop b vs
    match s.arg with
    | .str a => if a ≠ [] then (if g ≠ [] then .str (g ++ ['.'] ++ a) else .str a) else .str g
    | .pyset => if g ≠ [] then .typeError else .pyset

/-- uvm_scope_stack.py 77-88: the loop of `up`, on the stack reversed (top first). -/
def upLoop (sep : Str) : List Str → List Str
  | [] => []
  | s :: rest =>
    if sep = ['.'] then
      if bracketed s = false then rest else upLoop sep rest
    else
      match s with
      | c :: _ => if [c] = sep then rest else upLoop sep rest
      | [] => upLoop sep rest

inductive Op where
  | set (s : Str) | down (s : Str) | downElement (e : Str)
  | upElement | up (sep : Str) | setArg (a : Str) | setArgElement | unsetArg (a : Str)
deriving DecidableEq, Repr

/-- The mutating methods, lines 55-102.  `downElement e`: `e` is the decimal rendering of the index. -/
def step (s : State) : Op → State
  | .set x => ⟨[x], .str []⟩                                        -- 55-58
  | .down x => ⟨s.stack ++ [x], .str []⟩                            -- 60-62
  | .downElement e => ⟨s.stack ++ ['[' :: e ++ [']']], .str []⟩     -- 64-67
  | .upElement =>                                                   -- 69-75
    match s.stack.getLast? with
    | none => s
    | some [] => { s with stack := s.stack.dropLast }
    | some (c :: _) => if c ≠ '[' then s else { s with stack := s.stack.dropLast }
  | .up sep => ⟨(upLoop sep s.stack.reverse).reverse, .str []⟩      -- 77-88
  | .setArg a => if a = [] then s else { s with arg := .str a }     -- 91-94
  | .setArgElement => { s with arg := .pyset }                      -- 96-98
  | .unsetArg a => if s.arg = .str a then { s with arg := .str [] } else s  -- 100-102

/-- A history of calls. -/
def steps (s : State) (ops : List Op) : State := ops.foldl step s

end Verif.ScopeStack
