/-!
# Model of random states of objects

src/uvm/base/sv.py 374-512 (`sv_obj`), over Python's one global generator.  What the solver of an object draws and finds (`crv.Randomized`, with the user's
`pre_randomize` and `post_randomize`) is an arbitrary function of the object and the state of the generator.  The `rand_mode` of an object is fixed here.
-/
namespace Verif.RandStab

/-- The generator: `number` the next number drawn (`sv.urandom`, 254-256), `seed` the state after `random.seed`; `solve` the values an object gets from a state, and the state left. -/
structure Gen (S V : Type) where
  number : S → Nat × S
  seed : Nat → S
  solve : Nat → S → V × S

/-- An object with the sub-objects it registered with `rand()` (402-423); `byObject`: it was itself registered by passing the object instead of the name of the attribute. -/
inductive Obj where
  | node (id : Nat) (byObject : Bool) (subs : List Obj)

def Obj.id : Obj → Nat | .node i _ _ => i
def Obj.byObject : Obj → Bool | .node _ b _ => b

/-- The global state of the generator, the saved state of each object, the values each object has been given (oldest first), whether objects are randomized at all. -/
structure World (S V : Type) where
  g : S
  saved : Nat → S
  vals : Nat → List V
  mode : Nat → Bool

variable {S V : Type}

/-- 385-392: `__init__`. -/
def create (G : Gen S V) (w : World S V) (o : Nat) : World S V :=
  let s := G.seed (G.number w.g).1
  { w with g := s, saved := fun x => if x = o then s else w.saved x, vals := fun x => if x = o then [] else w.vals x }

/-- `super().randomize()` of object `o`: the values come from the global state. -/
def draw (G : Gen S V) (w : World S V) (o : Nat) : World S V :=
  { w with g := (G.solve o w.g).2, vals := fun x => if x = o then w.vals x ++ [(G.solve o w.g).1] else w.vals x }

/-- 474: the state is kept in the object. -/
def save (w : World S V) (o : Nat) : World S V := { w with saved := fun x => if x = o then w.g else w.saved x }

mutual
/-- 448-479: `randomize()`; `false`: raised.  `hasattr(self, entry)` with an object as `entry` raises TypeError. -/
def randomize (G : Gen S V) (w : World S V) : Obj → World S V × Bool
  | .node o _ subs =>
    if w.mode o = false then (w, true)
    else
      let r := entries G { w with g := w.saved o } subs
      if r.2 then (save (draw G r.1 o) o, true) else (r.1, false)
/-- 462-467: the loop over the registered sub-objects. -/
def entries (G : Gen S V) (w : World S V) : List Obj → World S V × Bool
  | [] => (w, true)
  | e :: es =>
    if e.byObject then (w, false)
    else
      let r := randomize G w e
      if r.2 then entries G r.1 es else (r.1, false)
end

/-- 482-512: `randomize_with()`. -/
def randomizeWith (G : Gen S V) (w : World S V) : Obj → World S V × Bool
  | .node o _ subs =>
    if w.mode o = false then (w, true)
    else
      let r := entries G w subs
      if r.2 then (draw G r.1 o, true) else (r.1, false)

/-- What a test does with the generator; `use`: draws of its own (any change of the global state). -/
inductive Ev (S : Type) where
  | create (o : Nat) | randomize (x : Obj) | randomizeWith (x : Obj) | use (g : S)

def step (G : Gen S V) (w : World S V) : Ev S → World S V
  | .create o => create G w o
  | .randomize x => (randomize G w x).1
  | .randomizeWith x => (randomizeWith G w x).1
  | .use g => { w with g := g }

def run (G : Gen S V) (w : World S V) (es : List (Ev S)) : World S V := es.foldl (step G) w

end Verif.RandStab
