import Verif.Model.Mam
/-!
# Model of virtual registers: `UVMVReg` and `UVMVRegField` (src/uvm/reg/uvm_vreg.py, uvm_vreg_field.py)

Only what exists: `configure`, `implement`, `add_field` (allocation, release, accesses are comments).  The increment is
computed with `/` (226), so it need not be a whole number of locations; it is modelled exactly, in bytes: `incr *
mem.get_n_bytes()`.  (Python computes it in floating point, which is exact for memories whose width in bytes is a power
of two and for sizes below 2^53.)
-/
namespace Verif.VReg

/-- uvm_vreg_field.py 67-75: a field: the position of its lowest bit and its size. -/
structure VF where
  lsb : Nat
  size : Nat
deriving DecidableEq, Repr

/-- uvm_vreg_field.py 90-103: the field made by `configure(parent, size, lsb_pos)`: sizes of 0 and above 64 are reported and
replaced. -/
def mkField (size lsb : Nat) : VF := ⟨lsb, if size = 0 then 1 else if size > 64 then 64 else size⟩

/-- uvm_vreg.py 89-102: the width. -/
def width (n : Nat) : Nat := if n = 0 then 1 else if n > 64 then 64 else n

/-- The reports of `add_field`. -/
inductive Report where
  | tooManyBits | overlapsPrev | overlapsNext
deriving DecidableEq, Repr

/-- 106-108: the fields and the bits they use. -/
structure Fields where
  fields : List VF
  used : Nat
deriving DecidableEq, Repr

/-- 347-359: the place of a field with this offset: before the first with a higher one, else at the end. -/
def place (offset : Nat) : List VF → Nat
  | [] => 0
  | f :: l => if offset < f.lsb then 0 else place offset l + 1

/-- 335-384: `add_field` (not locked, a field given). -/
def addField (nBits : Nat) (s : Fields) (x : VF) : Fields × List Report :=
  let idx := place x.lsb s.fields
  let fs := s.fields.take idx ++ x :: s.fields.drop idx
  let used := s.used + x.size
  (⟨fs, used⟩,
    (if used > nBits then [.tooManyBits] else []) ++
    (if idx > 0 then match fs[idx - 1]? with
      | some p => if p.lsb + p.size > x.lsb then [.overlapsPrev] else []
      | none => []
    else []) ++
    (if idx < fs.length - 1 then match fs[idx + 1]? with
      | some q => if x.lsb + x.size > q.lsb then [.overlapsNext] else []
      | none => []
    else []))

/-- Fields configured one after another, and all reports. -/
def build (nBits : Nat) (xs : List VF) : Fields × List Report :=
  xs.foldl (fun s x => let r := addField nBits s.1 x; (r.1, s.2 ++ r.2)) (⟨[], 0⟩, [])

/-- What matters of a memory: its block, the bytes of a location, its number of locations, its allocation manager. -/
structure Mem where
  block : Nat
  bytes : Nat
  size : Nat
  mam : Mam.Mam

/-- A memory as configured (uvm_mem.py 159-177). -/
def newMem (block bytes size : Nat) : Mem := ⟨block, bytes, size, Mam.new size bytes⟩

/-- 262-266: where a virtual register is; `incr` in bytes. -/
structure Impl where
  mem : Nat
  size : Int
  offset : Int
  incr : Int
  region : Mam.Region
deriving DecidableEq, Repr

/-- A virtual register and the memories. -/
structure State where
  nBytes : Nat
  parent : Nat
  static : Bool
  impl : Option Impl
  mems : Nat → Mem

inductive Res where
  | ok | refused | raised
deriving DecidableEq, Repr

/-- Assignment to one key. -/
def upd {α} (f : Nat → α) (k : Nat) (v : α) : Nat → α := fun x => if x = k then v else f x

/-- 226: the least increment, in bytes: `((get_n_bytes()-1) / mem.get_n_bytes() + 1) * mem.get_n_bytes()`. -/
def minIncr (nBytes memBytes : Nat) : Int := (nBytes : Int) - 1 + memBytes

/-- 196-269: `implement`.  253-260: a register that is implemented is to be released first, but `release_region` does not exist
(1064-1083 are comments). -/
def implement (s : State) (n : Int) (mem : Option Nat) (offset incr : Int) : State × Res :=
  if n < 1 then (s, .refused)
  else match mem with
  | none => (s, .refused)
  | some k =>
    let m := s.mems k
    if s.static then (s, .refused)
    else if m.block ≠ s.parent then (s, .refused)
    else
      let incr := if incr = 0 then minIncr s.nBytes m.bytes else incr * m.bytes
      if minIncr s.nBytes m.bytes > incr then (s, .refused)
      else if offset * m.bytes + n * incr > m.size * m.bytes then (s, .refused)
      else
        let r := Mam.reserve m.mam offset (n * incr)
        match r.2 with
        | .refused => (s, .refused)
        | .raised => (s, .raised)
        | .region reg =>
          let s := { s with mems := upd s.mems k { m with mam := r.1 } }
          match s.impl with
          | some _ => (s, .raised)
          | none => ({ s with impl := some ⟨k, n, offset, incr, reg⟩ }, .ok)

/-- 141-156: `configure`; `mem`: the memory, size, offset and increment, if given.  Whatever `implement` says, the register
is static then; `none` is an exception. -/
def configure (nBytes parent : Nat) (mems : Nat → Mem) (mem : Option (Nat × Int × Int × Int)) : Option State :=
  let s : State := ⟨nBytes, parent, false, none, mems⟩
  match mem with
  | none => some s
  | some (k, n, off, incr) =>
    let r := implement s n (some k) off incr
    if r.2 = .raised then none else some { r.1 with static := true }

/-- A history of calls of `implement`. -/
def run (s : State) (calls : List (Int × Option Nat × Int × Int)) : State :=
  calls.foldl (fun s c => (implement s c.1 c.2.1 c.2.2.1 c.2.2.2).1) s

end Verif.VReg
