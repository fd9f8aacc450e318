/-!
# Model of `UVMPool` and `UVMObjectStringPool` (src/uvm/base/uvm_pool.py)

`items` is the insertion-ordered Python dict `self.pool` as a list of pairs,
`ptr` the iteration pointer (line 46).  `mk` is the value built by `self.T()` (lines 92-94), `none`
when the pool was created without `T`; fresh objects are modelled as equal values.
-/
namespace Verif.Pool

structure State (K V : Type) where
  items : List (K × V)
  ptr : Int
deriving DecidableEq, Repr

variable {K V : Type} [DecidableEq K]

/-- `UVMPool.__init__` 43-47. -/
def init : State K V := ⟨[], -1⟩

inductive Out (K V : Type) where
  | unit | val (v : V) | key (k : K) | nothing | false | bool (b : Bool) | nat (n : Nat)
  | keys (l : List K) | raised
deriving DecidableEq, Repr

inductive Op (K V : Type) where
  | get (k : K) | add (k : K) (v : V) | num | keyList | delete (k : K) | clear | exists_ (k : K)
  | first | last | next | prev | setItem (k : K) (v : V) | getItem (k : K)
deriving DecidableEq, Repr

/-- Python dict lookup. -/
def lookup (l : List (K × V)) (k : K) : Option V :=
  match l with
  | [] => none
  | (k', v) :: l => if k = k' then some v else lookup l k

/-- Python `d[k] = v` on an insertion-ordered dict: an existing key keeps its place. -/
def assign (l : List (K × V)) (k : K) (v : V) : List (K × V) :=
  match l with
  | [] => [(k, v)]
  | (k', v') :: l => if k = k' then (k', v) :: l else (k', v') :: assign l k v

/-- Python `del d[k]`. -/
def erase (l : List (K × V)) (k : K) : List (K × V) :=
  match l with
  | [] => []
  | (k', v') :: l => if k = k' then l else (k', v') :: erase l k

def keys (l : List (K × V)) : List K := l.map Prod.fst

/-- uvm_pool.py 78-95. -/
def get (mk : Option V) (s : State K V) (k : K) : State K V × Out K V :=
  match lookup s.items k with
  | some v => (s, .val v)
  | none =>
    match mk with
    | some v => ({ s with items := assign s.items k v }, .val v)
    | none => (s, .nothing)

/-- uvm_pool.py 109-114 with an explicit key. -/
def delete (s : State K V) (k : K) : State K V :=
  match lookup s.items k with
  | some _ => { s with items := erase s.items k }
  | none => s

/-- uvm_pool.py 119-125. -/
def last (s : State K V) : State K V × Out K V :=
  match (keys s.items).getLast? with
  | some k => ({ s with ptr := (s.items.length : Int) - 1 }, .key k)
  | none => (s, .false)

/-- uvm_pool.py 133-138. -/
def first (s : State K V) : State K V × Out K V :=
  match keys s.items with
  | k :: _ => ({ s with ptr := 0 }, .key k)
  | [] => (s, .false)

/-- Python `list(self.pool.keys())[i]` with the negative index rule. -/
def keyAt (s : State K V) (i : Int) : Out K V :=
  let l := keys s.items
  let r := if 0 ≤ i then l[i.toNat]? else if -(l.length : Int) ≤ i then l[(l.length + i).toNat]? else none
  match r with
  | some k => .key k
  | none => .raised

/-- uvm_pool.py 140-150. -/
def next (s : State K V) : State K V × Out K V :=
  if s.ptr < (s.items.length : Int) - 1 then
    let s' := { s with ptr := s.ptr + 1 }
    (s', keyAt s' s'.ptr)
  else (s, .nothing)

/-- uvm_pool.py 152-162. -/
def prev (s : State K V) : State K V × Out K V :=
  if s.ptr > 0 then
    let s' := { s with ptr := s.ptr - 1 }
    (s', keyAt s' s'.ptr)
  else (s, .nothing)

/-- One API call: 97-98 `add`, 100-101 `num`, 106-107 `key_list`, 110-111 `delete()`,
116-117 `exists`, 196-203 `__setitem__`, 205-216 `__getitem__`. -/
def step (mk : Option V) (s : State K V) : Op K V → State K V × Out K V
  | .get k => get mk s k
  | .add k v => ({ s with items := assign s.items k v }, .unit)
  | .num => (s, .nat (keys s.items).length)
  | .keyList => (s, .keys (keys s.items))
  | .delete k => (delete s k, .unit)
  | .clear => ({ s with items := [] }, .unit)
  | .exists_ k => (s, .bool (lookup s.items k).isSome)
  | .first => first s
  | .last => last s
  | .next => next s
  | .prev => prev s
  | .setItem k v => ({ s with items := assign s.items k v }, .unit)
  | .getItem k => (s, match lookup s.items k with
      | some v => .val v
      | none => .raised)

/-! ## UVMObjectStringPool -/

/-- uvm_pool.py 286-300: `self.Constructor(key)`. -/
def sget (mk : K → V) (s : State K V) (k : K) : State K V × Out K V :=
  match lookup s.items k with
  | some v => (s, .val v)
  | none => ({ s with items := assign s.items k (mk k) }, .val (mk k))

/-- uvm_pool.py 303-313.  The method calls *itself* (line 313), not the base class method; `fuel` is the
recursion depth available, `none` means the depth was exhausted (Python's RecursionError). -/
def sdelete : Nat → State K V → K → Option (State K V)
  | 0, _, _ => none
  | fuel + 1, s, k =>
    match lookup s.items k with
    | none => some s                -- warning, return
    | some _ => sdelete fuel s k

end Verif.Pool
