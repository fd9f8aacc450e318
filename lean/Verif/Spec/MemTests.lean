import Verif.Model.MemTests
/-! # Memories, good and faulty -/
namespace Verif.MemTests

/-- An array of words of `n` bits whose front door reaches cell `a k` for word `k` and whose back door reaches cell `b k`; a value
stored in cell `c` becomes `f c` of it.  A good memory has `a k = b k = k` and `f c v = v`. -/
def array (size n : Nat) (a b : Nat → Nat) (f : Nat → Int → Int) : MemIf (Nat → Int) where
  size := size
  nBits := n
  write s k v := some (fun c => if c = a k then f (a k) (v % 2 ^ n) else s c, true)
  read s k := some (s, true, s (a k))
  peek s k := some (s, true, s (b k))
  poke s k v := some (fun c => if c = b k then f (b k) (v % 2 ^ n) else s c, true)

def good (size n : Nat) : MemIf (Nat → Int) := array size n id id fun _ v => v

/-- A memory that keeps what is written, `holds s k v` meaning that word `k` holds `v` in state `s`: an access succeeds, a write makes its
word hold the value cut to the width and leaves the other words alone, and a read gives the value held and changes none. -/
structure Sound {σ} (m : MemIf σ) (holds : σ → Nat → Int → Prop) : Prop where
  write : ∀ s k v, k < m.size → ∃ s', m.write s k v = some (s', true) ∧ holds s' k (v % 2 ^ m.nBits) ∧
    ∀ j u, j < m.size → j ≠ k → holds s j u → holds s' j u
  read : ∀ s k u, k < m.size → holds s k u → ∃ s', m.read s k = some (s', true, u) ∧ ∀ j w, j < m.size → holds s j w → holds s' j w

/-- The same memory, but its front door reads `z k` for word `k`, whatever is stored. -/
def readsAs {σ} (m : MemIf σ) (z : Nat → Int) : MemIf σ := { m with read := fun s k => some (s, true, z k) }

/-- The accesses the documentation of the walk test lists: for each address k write ~k; then, unless k is 0, read k-1 expecting ~(k-1) and
write k-1 to it; at the last address read it back, expecting ~k. -/
inductive Step where
  | write (k : Nat) (v : Int)
  | expect (k : Nat)
deriving DecidableEq, Repr

def documented (size : Nat) : List Step :=
  (List.range size).flatMap fun k =>
    [.write k (-(k : Int) - 1)] ++
    (if k = 0 then [] else [.expect (k - 1), .write (k - 1) ((k : Int) - 1)]) ++
    (if k + 1 = size then [.expect k] else [])

/-- A memory whose accesses all succeed. -/
structure Plain (σ : Type) where
  write : σ → Nat → Int → σ
  read : σ → Nat → σ × Int

def Plain.mem {σ} (d : Plain σ) (size n : Nat) : MemIf σ where
  size := size
  nBits := n
  write s k v := some (d.write s k v, true)
  read s k := let r := d.read s k; some (r.1, true, r.2)

/-- Performing a list of steps: the final state and the words whose value read, cut to nothing, differs from `~k` in `n` bits. -/
def perform {σ} (d : Plain σ) (n : Nat) (s : σ) : List Step → σ × List Rep
  | [] => (s, [])
  | .write k v :: l => perform d n (d.write s k v) l
  | .expect k :: l =>
    let r := d.read s k
    let e : Int := (-(k : Int) - 1) % 2 ^ n
    let q := perform d n r.1 l
    (q.1, if r.2 = e then q.2 else .mismatch k r.2 e :: q.2)

/-- `Has b m a`: block `b`, or a block below it, has a memory `m` with resources `a`. -/
inductive Has : MBlk → Nat → Attr → Prop where
  | here {a ms bs m am} (h : (m, am) ∈ ms) : Has (.mk a ms bs) m am
  | sub {a ms bs b m am} (hb : b ∈ bs) (h : Has b m am) : Has (.mk a ms bs) m am

/-- The resource that excludes an element from the walk test, by its documentation. -/
def walkExcluded (a : Attr) : Prop := a.noRegTests = true ∨ a.noMemTests = true ∨ a.noMemWalkTest = true
def accessExcluded (a : Attr) : Prop := a.noRegTests = true ∨ a.noMemTests = true ∨ a.noMemAccessTest = true

/-- `HasIn b ab m a`: block `b`, or a block below it, that has resources `ab`, has a memory `m` with resources `a`. -/
inductive HasIn : MBlk → Attr → Nat → Attr → Prop where
  | here {a ms bs m am} (h : (m, am) ∈ ms) : HasIn (.mk a ms bs) a m am
  | sub {a ms bs b ab m am} (hb : b ∈ bs) (h : HasIn b ab m am) : HasIn (.mk a ms bs) ab m am

mutual
/-- Levels of blocks. -/
def MBlk.levels : MBlk → Nat
  | .mk _ _ bs => levelsAll bs + 1
def levelsAll : List MBlk → Nat
  | [] => 0
  | b :: bs => max b.levels (levelsAll bs)
end

def MBlk.attr : MBlk → Attr
  | .mk a _ _ => a

end Verif.MemTests
