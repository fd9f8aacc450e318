/-!
# Model of copying and comparing `UVMObject`s through registered fields

src/uvm/base/uvm_object.py 282-299 (`clone`), 511-539 (`copy`), 567-646 (`compare`);
src/uvm/base/uvm_comparer.py 303-339 (`compare_object`), 366-389, 430-456;
src/uvm/macros/uvm_object_defines.py 129-177 (`_m_uvm_field_automation` for `UVM_COPY` and `UVM_COMPARE`).

Objects live in a heap and are named by numbers; object equality is identity (no `__eq__`).  `do_copy` and `do_compare`
are the defaults.  `fuel` is Python's recursion limit; running out of it is `RecursionError`.  An exception is the result
`false` / `none`; the state it leaves behind is the state returned.  A class is given by its type name, by the list of
fields its automation visits, in order, with their flags, and by what its constructor stores (`create` always succeeds).
The comparer has the default policy; report texts are not modelled.
-/
namespace Verif.Object

/-- The value of an attribute. `str`: a string (named by a number); `other`: a value with neither `clone` nor `compare`,
that is not an `int` or `str` (a list, a float, ...), compared by `==`. -/
inductive Val where
  | int (n : Int) | str (s : Nat) | obj (o : Nat) | none | other (n : Nat)
deriving DecidableEq, Repr

structure Cls where
  ty : Nat
  auto : List (Nat × Nat)
  dflt : Nat → Option Val

/-- An object: its class and its attributes (`none`: there is no such attribute). -/
structure Obj where
  cls : Nat
  vals : Nat → Option Val

/-- uvm_object_globals.py 168-171. -/
def copies (mask : Nat) : Bool := mask &&& 2 == 0 && mask &&& 1 != 0
def compares (mask : Nat) : Bool := mask &&& 8 == 0 && mask &&& 4 != 0

/-- The heap, the next free address, the keys of `uvm_global_copy_map`, and `UVMObject.depth`. -/
structure State where
  heap : Nat → Obj
  next : Nat
  map : List Nat
  depth : Int

/-- `setattr(o, f, v)`. -/
def setAttr (s : State) (o f : Nat) (v : Val) : State :=
  { s with heap := fun i => if i = o then { s.heap o with vals := fun g => if g = f then some v else (s.heap o).vals g }
                            else s.heap i }

/-- `T(name)`: a new object at the next free address. -/
def alloc (C : Nat → Cls) (s : State) (c : Nat) : State :=
  { s with heap := fun i => if i = s.next then ⟨c, (C c).dflt⟩ else s.heap i, next := s.next + 1 }

/-- uvm_object_defines.py 148-156: the loop over the fields; `rec dst src` is `dst.copy(src)`. -/
def copyFields (C : Nat → Cls) (rec : Nat → Nat → State → State × Bool) (dst src : Nat) :
    List (Nat × Nat) → State → State × Bool
  | [], s => (s, true)
  | (f, mask) :: fs, s =>
    if copies mask then
      match (s.heap src).vals f with
      | Option.none => (s, false)
      | some (.obj o) =>
        let k := s.next
        let r := rec k o (alloc C s (s.heap o).cls)
        if r.2 then copyFields C rec dst src fs (setAttr r.1 dst f (.obj k)) else (r.1, false)
      | some v => copyFields C rec dst src fs (setAttr s dst f v)
    else copyFields C rec dst src fs s

/-- uvm_object.py 511-539: `dst.copy(src)`. -/
def copyN (C : Nat → Cls) : Nat → Nat → Nat → State → State × Bool
  | 0, _, _, s => (s, false)
  | n + 1, dst, src, s =>
    let s := { s with depth := 0 }
    if src ∈ s.map then (s, true)
    else
      let s := { s with map := src :: s.map, depth := s.depth + 1 }
      let r := copyFields C (copyN C n) dst src (C (s.heap dst).cls).auto s
      if r.2 then
        let s : State := { r.1 with depth := r.1.depth - 1 }
        (if s.depth = 0 then { s with map := [] } else s, true)
      else r

/-- 282-299: `src.clone()`: the new object is at the old `next`. -/
def clone (C : Nat → Cls) (n src : Nat) (s : State) : State × Bool :=
  copyN C n s.next src (alloc C s (s.heap src).cls)

/-- State of a comparison: `comparer.result`, `comparer.compare_map` (pairs rhs, lhs; newest first), the depth of the
scope stack. -/
structure CState where
  result : Nat
  map : List (Nat × Nat)
  depth : Nat
deriving DecidableEq, Repr

/-- Knobs of the comparer: `show_max`, `check_type`. -/
structure Knobs where
  showMax : Nat
  checkType : Bool

/-- uvm_object_defines.py 157-177: the loop over the fields; `rec l r` is `l.compare(r, comparer)`. The result is
`false` on an exception. Two differing `int`s always miscompare (C52: the width is ignored); a differing string raises,
`compare_string` being called with four arguments. -/
def cmpFields (K : Knobs) (h : Nat → Obj) (rec : Nat → Nat → CState → CState × Option Bool) (l r : Nat) :
    List (Nat × Nat) → CState → CState × Bool
  | [], s => (s, true)
  | (f, mask) :: fs, s =>
    if compares mask then
      match (h r).vals f, (h l).vals f with
      | some rv, some lv =>
        if rv = lv then cmpFields K h rec l r fs s
        else
          let x : CState × Bool :=
            match lv, rv with
            | .int _, .int _ => ({ s with result := s.result + 1 }, true)
            | .int _, _ => (s, false)
            | .str _, _ => (s, false)
            | .obj lo, .obj ro =>                                       -- compare_object 336-339
              let c := rec lo ro { s with depth := s.depth + 1 }
              match c.2 with
              | Option.none => (c.1, false)
              | some _ => ({ c.1 with depth := c.1.depth - 1 }, true)
            | .obj _, .none => ({ s with result := s.result + 1 }, true)  -- 331-334
            | .obj _, _ => (s, false)
            | .none, _ => (s, true)
            | .other _, _ => (s, true)
          if x.2 then
            if x.1.result ≠ 0 ∧ K.showMax ≤ x.1.result then (x.1, true) else cmpFields K h rec l r fs x.1
          else x
      | _, _ => (s, false)
    else cmpFields K h rec l r fs s

/-- uvm_object.py 567-646: `l.compare(r, comparer)`; the answer is `none` on an exception. -/
def cmpN (C : Nat → Cls) (K : Knobs) (h : Nat → Obj) : Nat → Nat → Nat → CState → CState × Option Bool
  | 0, _, _, s => (s, Option.none)
  | n + 1, l, r, s =>
    let s := if s.depth = 0 then ⟨0, [], 1⟩ else s                                    -- 602-610
    match s.map.lookup r with
    | some l' =>                                                                      -- 625-628
      let s := if l' ≠ l then { s with result := s.result + 1 } else s
      let s := if s.depth = 1 then { s with depth := 0 } else s
      (s, some false)                                                                 -- dc is 0
    | Option.none =>
      let s := if K.checkType && (C (h l).cls).ty != (C (h r).cls).ty then { s with result := s.result + 1 } else s
      let s := { s with map := (r, l) :: s.map }
      let x := cmpFields K h (cmpN C K h n) l r (C (h l).cls).auto s
      if x.2 then
        (if x.1.depth = 1 then { x.1 with depth := 0 } else x.1, some (x.1.result == 0))
      else (x.1, Option.none)

/-- 612-646 for `l.compare(None)`: the miscompare is counted, but the fields are visited all the same, and reading one
of `None` raises. -/
def cmpNone (C : Nat → Cls) (h : Nat → Obj) (l : Nat) (s : CState) : CState × Option Bool :=
  let s := if s.depth = 0 then ⟨0, [], 1⟩ else s
  let s := { s with result := s.result + 1 }
  if (C (h l).cls).auto.any (fun p => compares p.2) then (s, Option.none)
  else (if s.depth = 1 then { s with depth := 0 } else s, some (s.result == 0))

/-- A comparer and a scope stack never used before. -/
def cinit : CState := ⟨0, [], 0⟩

end Verif.Object
