import Verif.Model.Reg
/-!
# Model of the HDL back door: `uvm_hdl` (src/uvm/dpi/uvm_hdl.py), HDL paths of blocks, and the back-door accesses of registers and memories

The design is a tree of named objects, arrays and signals; what cocotb calls attributes of a handle are its children here.  A path is given as the list of its
components between dots, each a name and the indices written after it.  A deposit takes effect at once (cocotb defers it to the end of the time step) and is cut to the width of the
signal.  `none` is a raised exception.  Messages and user back doors (see `Verif.Model.RegAccess`) are not modelled; hooks are those of `Verif.Model.RegAccess` and are left
out here.
-/
namespace Verif.Hdl
open Verif.Reg Verif.RegField
open Verif.SvBits (andNot)

inductive Obj where
  | scope (children : List (String × Obj))
  | array (elems : List Obj)
  | sig (id : Nat)

/-- A component of a path, as in `bank[1][3]`. -/
structure Comp where
  name : String
  idx : List Nat := []
deriving DecidableEq, Repr

abbrev HdlPath := List Comp

/-- What `get_next_obj` gets: a name or an index. -/
inductive Step where
  | name (s : String)
  | text (c : Comp)
  | index (i : Nat)

/-- uvm_hdl.py 16-33: `split_hdl_path` for one component.  With Verilator the first index after the name is split off and all others are dropped
(`re_brackets.search`, 22-26); with other simulators the text is left as it is. -/
def splitComp (verilator : Bool) (c : Comp) : List Step :=
  match c.idx with
  | [] => [.name c.name]
  | i :: _ => if verilator then [.name c.name, .index i] else [.text c]

/-- uvm_hdl.py 70-77: `get_next_obj`: a name that is not found leaves the object as it is.  No object has a name with an index in it. -/
def next (o : Obj) : Step → Option Obj
  | .index i => match o with
    | .array es => es[i]?
    | _ => none
  | .name s => match o with
    | .scope cs => some ((cs.lookup s).getD o)
    | _ => some o
  | .text _ => some o

def locate (verilator : Bool) (dut : Obj) (p : HdlPath) : Option Obj := (p.flatMap (splitComp verilator)).foldlM next dut

/-- The device: the design, the widths and the values of its signals. -/
structure Dut where
  verilator : Bool := true
  top : Obj
  width : Nat → Nat
  val : Nat → Nat

/-- uvm_hdl.py 35-48: `uvm_hdl_read`; a scope or array has no value (`int()` raises).  If it returns it returns 1. -/
def hdlRead (d : Dut) (p : HdlPath) : Option Nat :=
  match locate d.verilator d.top p with
  | some (.sig i) => some (d.val i)
  | _ => none

/-- uvm_hdl.py 51-67: `uvm_hdl_deposit`; a scope or array cannot be assigned. -/
def hdlDeposit (d : Dut) (p : HdlPath) (v : Nat) : Option Dut :=
  match locate d.verilator d.top p with
  | some (.sig i) => some { d with val := fun j => if j = i then v % 2 ^ d.width i else d.val j }
  | _ => none

/-! ## HDL paths -/

/-- A block as seen by `get_full_hdl_path` for one kind: its root path, if it is an HDL path root, and its paths, if it has any for the kind. -/
structure Level where
  root : Option HdlPath := none
  paths : Option (List HdlPath) := none

/-- uvm_reg_block.py 1232-1267: `get_full_hdl_path`, for a block and the blocks above it.  The empty string is `[]`.  The errors are counted. -/
def blockPaths : List Level → List HdlPath × Nat
  | [] => ([], 0)
  | l :: up =>
    match l.root with
    | some r => (if r ≠ [] then [r] else [], 0)                               -- 1238-1241
    | none =>
      match l.paths with
      | none => ([], 1)                                                        -- 1244-1247
      | some ps =>
        let q := blockPaths up                                                 -- 1252-1253 (no parent: no paths)
        (ps.flatMap fun p =>
          if q.1.length = 0 then (if p ≠ [] then [p] else [])               -- 1258-1261
          else q.1.map fun pp => pp ++ p, q.2)                               -- 1263-1267

/-- `uvm_hdl_path_slice`: the bits `offset ..< offset + size` of the register, or all of it if the offset is negative. -/
structure Slice where
  path : HdlPath
  offset : Int := -1
  size : Int := -1

/-- uvm_reg.py 2048-2061, uvm_mem.py 1384-1398: each of the own paths below each of the parent's; a slice without a path of its own loses offset and size (2055-2056). -/
def fullPaths (own : List (List Slice)) (parents : List HdlPath) : List (List Slice) :=
  own.flatMap fun c => parents.map fun p => c.map fun s => if s.path = [] then { path := p } else { s with path := p ++ s.path }

/-! ## Accesses -/

/-- uvm_reg.py 2101-2108: one slice; a negative size raises ValueError (negative shift count). -/
def writeSlice (v : Nat) (d : Dut) (s : Slice) : Option Dut :=
  if s.offset < 0 then hdlDeposit d s.path v
  else if s.size < 0 then none
  else hdlDeposit d s.path ((v >>> s.offset.toNat) &&& (2 ^ s.size.toNat - 1))

/-- uvm_reg.py 2080-2112: `backdoor_write`; if it returns, the status is OK. -/
def bdWrite (paths : List (List Slice)) (d : Dut) (v : Nat) : Option Dut :=
  paths.foldlM (fun d c => c.foldlM (writeSlice v) d) d

/-- uvm_reg.py 2140-2155: one slice: for a slice with an offset, an integer is passed to `uvm_hdl_read`, which calls `append` on it (2149). -/
def readSlice (d : Dut) (_ : Nat) (s : Slice) : Option Nat :=
  if s.offset < 0 then hdlRead d s.path else none

/-- uvm_reg.py 2133-2174, second and following paths: compared with the first; the flag is the status. -/
def readRest (nBits : Nat) (d : Dut) (v : Nat) : List (List Slice) → Option Bool
  | [] => some true
  | c :: cs => do
    let u ← c.foldlM (readSlice d) 0
    if u &&& (2 ^ nBits - 1) ≠ v then return false else readRest nBits d v cs

/-- uvm_reg.py 2116-2174: `backdoor_read_func`: status and `rw.value[0]`, which was `old`. -/
def bdRead (nBits : Nat) (paths : List (List Slice)) (d : Dut) (old : Nat) : Option (Bool × Nat) :=
  match paths with
  | [] => some (true, old)
  | c :: cs => do
    let u ← c.foldlM (readSlice d) 0
    let v := u &&& (2 ^ nBits - 1)
    let ok ← readRest nBits d v cs
    return (ok, v)

/-- What a back-door access of a register leaves. -/
structure Out where
  reg : Reg
  dut : Dut
  ok : Bool
  value : Nat := 0

/-- uvm_reg.py 852-915 and 1455-1487: `write` on the path `UVM_BACKDOOR` without user back door and hooks.  `dflt`: rights in the default map. -/
def regWrite (paths : List (List Slice)) (dflt : Rights) (r : Reg) (d : Dut) (v : Nat) : Option Out := do
  let r := Reg.set r v                                                          -- 898
  let v := v % 2 ^ r.nBits                                                       -- 1415
  let c ← bdRead r.nBits paths d v                                               -- 1465
  if c.1 = false then return ⟨r, d, false, 0⟩                                    -- 1467-1469
  else
    let final := r.fields.foldl (fun acc x =>
      acc ||| (xpredict x.f ((c.2 >>> x.lsb) &&& (2 ^ x.f.size - 1)) ((v >>> x.lsb) &&& (2 ^ x.f.size - 1)) dflt <<< x.lsb)) 0    -- 1471-1478
    let d ← bdWrite paths d final                                                 -- 1485
    let q ← doPredict r final .write .other .backdoor (-1)                          -- 1487
    return ⟨q.1, d, true, 0⟩

/-- uvm_reg.py 1649-1669: what the read does to the bits of a field. -/
def readEffect (x : RF) (v : Nat) : Nat :=
  match getAccess x.f .backdoor with
  | .RC | .WRC | .WSRC | .W1SRC | .W0SRC => andNot v ((2 ^ x.f.size - 1) <<< x.lsb)
  | .RS | .WRS | .WCRS | .W1CRS | .W0CRS => v ||| ((2 ^ x.f.size - 1) <<< x.lsb)
  | _ => v

/-- uvm_reg.py 1665-1669: the bits of a write-only field. -/
def woField (m : Nat) (x : RF) : Nat :=
  match getAccess x.f .backdoor with
  | .WO | .WOC | .WOS | .WO1 => m ||| ((2 ^ x.f.size - 1) <<< x.lsb)
  | _ => m

def woMask (r : Reg) : Nat := r.fields.foldl woField 0

/-- uvm_reg.py 1671-1679: what the read changed is written back. -/
def writeBack (paths : List (List Slice)) (d : Dut) (v' v : Nat) : Option Dut := if v' ≠ v then bdWrite paths d v' else some d

/-- uvm_reg.py 1631-1687: `read` on the path `UVM_BACKDOOR`, without user back door and hooks, and with `check_on_read` of the back-door map off. -/
def regRead (paths : List (List Slice)) (r : Reg) (d : Dut) : Option Out := do
  let c ← bdRead r.nBits paths d 0
  if c.1 = false then return ⟨r, d, false, c.2⟩
  else
    let v' := r.fields.foldl (fun v x => readEffect x v) c.2
    let d ← writeBack paths d v' c.2                                               -- 1671-1679
    let v := andNot c.2 (woMask r)                                                 -- 1681
    let q ← doPredict r v .read .other .backdoor (-1)                               -- 1687
    return ⟨q.1, d, true, v⟩

/-! ## Memories -/

/-- uvm_mem.py 1435, 1443: the index is put behind the text of the path; here behind its last component. -/
def withIndex (p : HdlPath) (i : Nat) : HdlPath :=
  match p.getLast? with
  | none => []
  | some c => p.dropLast ++ [{ c with idx := c.idx ++ [i] }]

def atIndex (i : Nat) (cs : List (List Slice)) : List (List Slice) := cs.map fun c => c.map fun s => { s with path := withIndex s.path i }

/-- uvm_mem.py 801-838: `poke` without user back door: the value is cut to the width of the memory. -/
def memPoke (nBits : Nat) (paths : List (List Slice)) (d : Dut) (o v : Nat) : Option Dut :=
  bdWrite (atIndex o paths) d (v &&& (2 ^ nBits - 1))

/-- uvm_mem.py 860-897: `peek` without user back door: status and value. -/
def memPeek (nBits : Nat) (paths : List (List Slice)) (d : Dut) (o : Nat) : Option (Bool × Nat) :=
  bdRead nBits (atIndex o paths) d 0

end Verif.Hdl
