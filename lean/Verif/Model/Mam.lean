/-!
# Model of `UVMMemMam` (src/uvm/reg/uvm_mem_mam.py): reserving regions of a memory

Only `reserve_region` exists in this code base: requesting and releasing regions are commented out.
`int((n_bytes-1) / cfg.n_bytes)` goes through a floating point number; it is modelled as the exact quotient rounded
towards zero, which is what Python computes for less than 2^53 bytes.
-/
namespace Verif.Mam

/-- uvm_mem_mam.py 363-384: a region. -/
structure Region where
  first : Int
  last : Int
  len : Int
  nBytes : Int
deriving DecidableEq, Repr

/-- uvm_mem_mam.py 95-130: the manager: the configured offsets, the bytes of a location, the regions in use. -/
structure Mam where
  start : Int
  stop : Int
  width : Nat
  inUse : List Region

/-- uvm_mem_mam.py 95-130 with uvm_mem.py 169-176: the manager of a memory of `size` locations of `width` bytes. -/
def new (size width : Nat) : Mam := ⟨0, (size : Int) - 1, width, []⟩

/-- What `reserve_region` ends with: a region, an error with `None`, or an exception. -/
inductive Res where
  | region (r : Region)
  | refused
  | raised
deriving DecidableEq, Repr

/-- uvm_mem_mam.py 193-239: `reserve_region`.  The loop 218-234 starts with `get_end_offset`, which a region does not
have (349-384), so an exception is raised as soon as one region is in use. -/
def reserve (s : Mam) (off n : Int) : Mam × Res :=
  if n = 0 then (s, .refused)
  else if off < s.start then (s, .refused)
  else
    let last := off + (n - 1).tdiv s.width
    let n := (last - off + 1) * s.width
    if last > s.stop then (s, .refused)
    else
      match s.inUse with
      | _ :: _ => (s, .raised)
      | [] =>
        let r : Region := ⟨off, last, last - off + 1, n⟩
        ({ s with inUse := s.inUse ++ [r] }, .region r)

/-- A history of reservations. -/
def run (s : Mam) (ops : List (Int × Int)) : Mam := ops.foldl (fun s o => (reserve s o.1 o.2).1) s

end Verif.Mam
