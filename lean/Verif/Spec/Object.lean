import Verif.Model.Object
/-! # Specification vocabulary for copying and comparing objects -/
namespace Verif.Object

/-- The fields of a class that take part in copying / comparing. -/
def copyList (C : Nat → Cls) (c : Nat) : List Nat := ((C c).auto.filter (fun p => copies p.2)).map Prod.fst
def cmpList (C : Nat → Cls) (c : Nat) : List Nat := ((C c).auto.filter (fun p => compares p.2)).map Prod.fst

/-- `v'` in heap `h'` is a deep copy of `v` in heap `h`: plain values are equal; an object is copied by an object of the
same class at a new address (`n` or above) whose fields registered for copying are deep copies. -/
inductive DeepCopy (C : Nat → Cls) (h h' : Nat → Obj) (n : Nat) : Val → Val → Prop
  | plain (v : Val) (hv : ∀ o, v ≠ .obj o) : DeepCopy C h h' n v v
  | obj (o k : Nat) (g g' : Nat → Val) (hn : n ≤ k) (hc : (h' k).cls = (h o).cls)
      (hg : ∀ f ∈ copyList C (h o).cls, (h o).vals f = some (g f))
      (hg' : ∀ f ∈ copyList C (h o).cls, (h' k).vals f = some (g' f))
      (hd : ∀ f ∈ copyList C (h o).cls, DeepCopy C h h' n (g f) (g' f)) : DeepCopy C h h' n (.obj o) (.obj k)

/-- The objects reached from `src` through fields registered for copying. -/
inductive Reach (L : Nat → List Nat) (h : Nat → Obj) (src : Nat) : Nat → Prop
  | refl : Reach L h src src
  | step {o f p : Nat} : Reach L h src o → f ∈ L (h o).cls → (h o).vals f = some (.obj p) → Reach L h src p

/-- No object below `src` reaches itself, witnessed by a rank; every field it registers exists; all addresses are
allocated. -/
structure Acyclic (L : Nat → List Nat) (h : Nat → Obj) (next src : Nat) (rank : Nat → Nat) : Prop where
  alloc : ∀ o, Reach L h src o → o < next
  has : ∀ o, Reach L h src o → ∀ f ∈ L (h o).cls, ∃ v, (h o).vals f = some v
  down : ∀ o, Reach L h src o → ∀ f ∈ L (h o).cls, ∀ p, (h o).vals f = some (.obj p) → rank p < rank o

/-- Every object below `src` other than `src` is the value of one field of one object only. -/
def Unshared (L : Nat → List Nat) (h : Nat → Obj) (src : Nat) : Prop :=
  ∀ o o' f f' p, Reach L h src o → Reach L h src o' → f ∈ L (h o).cls → f' ∈ L (h o').cls →
    (h o).vals f = some (.obj p) → (h o').vals f' = some (.obj p) → o = o' ∧ f = f'

/-- Structural equality: plain values are equal; objects have the same type name (when types are checked) and
structurally equal fields, for the fields registered for comparison. -/
inductive Equal (C : Nat → Cls) (K : Knobs) (h : Nat → Obj) : Val → Val → Prop
  | same (v : Val) : Equal C K h v v
  | obj (l r : Nat) (g g' : Nat → Val) (ht : K.checkType = true → (C (h l).cls).ty = (C (h r).cls).ty)
      (hg : ∀ f ∈ cmpList C (h l).cls, (h l).vals f = some (g f))
      (hg' : ∀ f ∈ cmpList C (h l).cls, (h r).vals f = some (g' f))
      (hd : ∀ f ∈ cmpList C (h l).cls, Equal C K h (g f) (g' f)) : Equal C K h (.obj l) (.obj r)

/-- Both values are integers, both are objects, or they are equal. -/
def sameKind : Val → Val → Bool
  | .int _, .int _ => true
  | .obj _, .obj _ => true
  | v, w => decide (v = w)

/-- The pairs of distinct objects at corresponding positions below `l0` and `r0`. -/
inductive Pair (C : Nat → Cls) (h : Nat → Obj) (l0 r0 : Nat) : Nat → Nat → Prop
  | refl : Pair C h l0 r0 l0 r0
  | step {l r f l' r' : Nat} : Pair C h l0 r0 l r → f ∈ cmpList C (h l).cls → (h l).vals f = some (.obj l') →
      (h r).vals f = some (.obj r') → l' ≠ r' → Pair C h l0 r0 l' r'

/-- Corresponding objects register the same fields for comparison, each once, and hold values of the same kind. -/
structure Alike (C : Nat → Cls) (h : Nat → Obj) (l0 r0 : Nat) : Prop where
  fields : ∀ l r, Pair C h l0 r0 l r → cmpList C (h l).cls = cmpList C (h r).cls
  once : ∀ l r, Pair C h l0 r0 l r → (cmpList C (h l).cls).Nodup
  kinds : ∀ l r, Pair C h l0 r0 l r → ∀ f ∈ cmpList C (h l).cls, ∃ v w, (h l).vals f = some v ∧ (h r).vals f = some w ∧
    sameKind v w = true

end Verif.Object
