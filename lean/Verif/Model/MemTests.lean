import Verif.Model.Mem
import Verif.Model.RegTests
/-!
# Model of the built-in memory tests

`src/uvm/reg/sequences/uvm_mem_walk_seq.py` (W) and `src/uvm/reg/sequences/uvm_mem_access_seq.py` (A).

The tests see a memory only through `write`, `read`, `peek` and `poke`; `MemIf` is any memory, given by these calls on the state `σ` of
the device (the status is OK or not; `none` is a raised exception).  Values are integers as in Python, so `~k` is `-k - 1`.
Messages are reduced to what they report.
-/
namespace Verif.MemTests

/-- A memory, for one map: its size in words, the width of a word, and its accesses. -/
structure MemIf (σ : Type) where
  size : Nat
  nBits : Nat
  write : σ → Nat → Int → Option (σ × Bool)
  read : σ → Nat → Option (σ × Bool × Int)
  peek : σ → Nat → Option (σ × Bool × Int) := fun _ _ => none
  poke : σ → Nat → Int → Option (σ × Bool) := fun _ _ _ => none

/-- What a test reports about word `k`: a status that is not OK, or the value read and the one expected. -/
inductive Rep where
  | status (k : Nat)
  | mismatch (k : Nat) (got exp : Int)
deriving DecidableEq, Repr

/-- Python's `~k`. -/
def inv (v : Int) : Int := -v - 1

/-- W 155, 180; A 158: `~k & ((1 << n_bits) - 1)`. -/
def expected (n : Nat) (k : Nat) : Int := inv k % 2 ^ n

/-- W 146-160, 171-184: read word `k` and compare. -/
def walkRead {σ} (m : MemIf σ) (k : Nat) (t : σ × List Rep) : Option (σ × List Rep) :=
  match m.read t.1 k with
  | none => none
  | some (s, false, _) => some (s, t.2 ++ [.status k])
  | some (s, true, v) => some (s, if v = expected m.nBits k then t.2 else t.2 ++ [.mismatch k v (expected m.nBits k)])

/-- W 136-143: write `~k` to word `k`.  If the status is not OK the message asks the number for its `name()`: AttributeError. -/
def walkFirst {σ} (m : MemIf σ) (k : Nat) (t : σ × List Rep) : Option (σ × List Rep) :=
  match m.write t.1 k (inv k) with
  | none => none
  | some (_, false) => none
  | some (s, true) => some (s, t.2)

/-- W 162-168: write `k` to word `k`. -/
def walkSecond {σ} (m : MemIf σ) (k : Nat) (t : σ × List Rep) : Option (σ × List Rep) :=
  match m.write t.1 k k with
  | none => none
  | some (s, false) => some (s, t.2 ++ [.status k])
  | some (s, true) => some (s, t.2)

/-- W 145-168: what is done with the word before. -/
def walkBefore {σ} (m : MemIf σ) (t : σ × List Rep) : Nat → Option (σ × List Rep)
  | 0 => some t
  | j + 1 => do
    let t ← walkRead m j t
    walkSecond m j t

/-- W 135-184: one round of the loop. -/
def walkWord {σ} (m : MemIf σ) (k : Nat) (t : σ × List Rep) : Option (σ × List Rep) := do
  let t ← walkFirst m k t
  let t ← walkBefore m t k
  if k + 1 = m.size then walkRead m k t else return t

/-- The first `n` rounds. -/
def walkTo {σ} (m : MemIf σ) (t : σ × List Rep) : Nat → Option (σ × List Rep)
  | 0 => some t
  | n + 1 => do
    let t ← walkTo m t n
    walkWord m n t

/-- W 135: `for k in range(mem.get_size())`. -/
def walk {σ} (m : MemIf σ) (t : σ × List Rep) : Option (σ × List Rep) := walkTo m t m.size

/-- W 117-184: the loop over the maps; the flag: `get_access` is `"RW"` there. -/
def walkMaps {σ} : List (Bool × MemIf σ) → σ × List Rep → Option (σ × List Rep)
  | [], t => some t
  | (rw, m) :: ms, t =>
    if rw then do
      let t ← walk m t
      walkMaps ms t
    else walkMaps ms t

/-! ## The access test -/

/-- `get_access`: the branches of A. -/
inductive Mode where
  | rw | ro | wo
deriving DecidableEq, Repr

/-- A 118-120: the value written; `r1`, `r2`: the numbers `sv.random()` gives. -/
def testValue (n : Nat) (r1 r2 : Nat) : Nat :=
  let v := r1 &&& (2 ^ n - 1)
  if 32 < n then (v <<< 32) ||| r2 else v

/-- A 117-187 for one word: for `RO` memories `peek` is given the number 0 as output argument (123): TypeError.  A status that is not OK
raises in the messages of 136 and 174 (`status.name()`), and is reported in those of 147 and 164. -/
def accessWord {σ} (m : MemIf σ) (mode : Mode) (k : Nat) (r : Nat × Nat) (t : σ × List Rep) : Option (σ × List Rep) :=
  match mode with
  | .ro => none
  | mode =>
    let exp : Int := testValue m.nBits r.1 r.2                                 -- 130
    match m.write t.1 k exp with                                                -- 133
    | none => none
    | some (_, false) => none
    | some (s1, true) =>
      match m.peek s1 k with                                                    -- 144
      | none => none
      | some (s2, ok, v) =>
        let reps := t.2 ++ (if ok = false then [.status k] else if v = exp then [] else [.mismatch k v exp])
        let exp2 := inv exp % 2 ^ m.nBits                                       -- 158
        match m.poke s2 k exp2 with                                             -- 161
        | none => none
        | some (s3, ok2) =>
          let reps := reps ++ (if ok2 then [] else [.status k])
          match m.read s3 k with                                                -- 170
          | none => none
          | some (_, false, _) => none
          | some (s4, true, v2) =>
            let e := if mode = .wo then 0 else exp2                             -- 178-187
            some (s4, reps ++ (if v2 = e then [] else [.mismatch k v2 e]))

/-- The first `n` rounds; `rnd k`: the random numbers of round `k`. -/
def accessTo {σ} (m : MemIf σ) (mode : Mode) (rnd : Nat → Nat × Nat) (t : σ × List Rep) : Nat → Option (σ × List Rep)
  | 0 => some t
  | n + 1 => do
    let t ← accessTo m mode rnd t n
    accessWord m mode n (rnd n) t

/-- A 117: one map. -/
def access {σ} (m : MemIf σ) (mode : Mode) (rnd : Nat → Nat × Nat) (s : σ) : Option (σ × List Rep) := accessTo m mode rnd (s, []) m.size

/-! ## A memory of the register model, through one of its maps -/

/-- The memory of `Verif.Model.Mem` seen through the front door.  A negative value reaches the bus as the words of its two's
complement (uvm_reg_map.py 1379: shift and mask), so for the bus it is the same as its remainder by the width of all bus words; hooks and
user front doors, which would see the negative number, are left out. -/
def ofEnv {σ} (e : Mem.Env σ) (l : Mem.Local σ) : MemIf σ where
  size := e.size
  nBits := e.nBits
  write s k v := (Mem.write e {} {} s k (v % 2 ^ (l.info.1.length * (l.w * 8))).toNat .front).map fun o => (o.dev, o.item.ok)
  read s k := (Mem.read e {} {} s k .front).map fun o => (o.1.dev, o.1.item.ok, (o.2 : Int))

/-! ## The walk over the blocks -/

/-- The resources set for an element that exclude it from tests. -/
structure Attr where
  noRegTests : Bool := false
  noMemTests : Bool := false
  noMemWalkTest : Bool := false
  noMemAccessTest : Bool := false
deriving DecidableEq, Repr

/-- A block: its resources, its memories with theirs, its sub-blocks. -/
inductive MBlk where
  | mk (attr : Attr) (mems : List (Nat × Attr)) (blks : List MBlk)

/-- W 256-262. -/
def walkSkipBlock (a : Attr) : Bool := a.noRegTests || a.noMemTests || a.noMemAccessTest
/-- W 103-109, 268-274. -/
def walkSkipMem (a : Attr) : Bool := a.noRegTests || a.noMemTests || a.noMemWalkTest
/-- A 252. -/
def accessSkipBlock (a : Attr) : Bool := a.noRegTests || a.noMemTests || a.noMemAccessTest
/-- A 86, 260-262. -/
def accessSkipMem (a : Attr) : Bool := a.noRegTests || a.noMemTests || a.noMemAccessTest

mutual
def MBlk.toBlk (skipB skipM : Attr → Bool) : MBlk → RegTests.Blk
  | .mk a ms bs => .mk (skipB a) (ms.map fun p => (p.1, skipM p.2)) [] (toBlks skipB skipM bs)
def toBlks (skipB skipM : Attr → Bool) : List MBlk → List RegTests.Blk
  | [] => []
  | b :: bs => b.toBlk skipB skipM :: toBlks skipB skipM bs
end

/-- W 253-281: `do_block` of the walk test: the memories tested, in order.  The recursion is the one of the bit bash test (`get_blocks` is
hierarchical, and `do_block` is called for each of the blocks it gives). -/
def walkBlock (n : Nat) (b : MBlk) : Option (List Nat) := RegTests.bashBlock n (b.toBlk walkSkipBlock walkSkipMem)
/-- A 250-279, for memories that have a back door. -/
def accessBlock (n : Nat) (b : MBlk) : Option (List Nat) := RegTests.bashBlock n (b.toBlk accessSkipBlock accessSkipMem)

end Verif.MemTests
