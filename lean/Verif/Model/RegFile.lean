/-!
# Model of the names and HDL paths of register files and their registers (src/uvm/reg/uvm_reg_file.py, parts of uvm_reg.py and uvm_reg_block.py)

Strings are lists of characters.  Blocks and register files are given by their names and what is above them, as trees that are seen from below.
-/
namespace Verif.RegFile

abbrev Str := List Char

/-- A block: its name and its parent. -/
inductive Blk where
  | top (name : Str)
  | sub (parent : Blk) (name : Str)
deriving DecidableEq, Repr

/-- A register file: `m_rf`, `parent`, name. -/
inductive File where
  | mk (rf : Option File) (parent : Option Blk) (name : Str)

structure Reg where
  file : Option File
  parent : Option Blk
  name : Str

/-- uvm_reg_block.py 379-383: `get_full_name`. -/
def Blk.fullName : Blk → Str
  | .top n => n
  | .sub p n => p.fullName ++ ['.'] ++ n

/-- uvm_reg_file.py 113-147: `get_full_name`. -/
def File.fullName : File → Str
  | .mk (some f) _ n => f.fullName ++ ['.'] ++ n
  | .mk none none n => n
  | .mk none (some b) n => b.fullName ++ ['.'] ++ n

/-- uvm_reg.py 272-287: `get_full_name`. -/
def Reg.fullName (r : Reg) : Str :=
  match r.file, r.parent with
  | some f, _ => f.fullName ++ ['.'] ++ r.name
  | none, some b => b.fullName ++ ['.'] ++ r.name
  | none, none => r.name

/-- What a call gives: a value or an exception; reports of errors are counted. -/
inductive Out (α : Type) where
  | ok (a : α) (errors : Nat)
  | attributeError
deriving DecidableEq, Repr

/-- uvm_reg.py 1959-1979: `has_hdl_path`.  `blkDefault`: the default kind of the parent block; `kinds`: the kinds for which the register has paths.  Register
files have no `get_default_hdl_path` (1975): uvm_reg_file.py defines none. -/
def hasHdlPath (r : Reg) (blkDefault : Str) (kinds : List Str) (kind : Str) : Out Bool :=
  if kind = [] then
    match r.file with
    | some _ => .attributeError
    | none => match r.parent with
      | none => .attributeError
      | some _ => .ok (kinds.contains blkDefault) 0
  else .ok (kinds.contains kind) 0

/-- uvm_reg.py 2006-2062: `get_full_hdl_path`, of a register whose paths for each kind are `own`, in a block with the full paths `up`; the paths are one text
each (for slices see `Verif.Model.Hdl`).  Register files have no `get_full_hdl_path` (2044) either. -/
def getFullHdlPath (r : Reg) (blkDefault : Str) (own : List (Str × List Str)) (up : Str → List Str) (kind : Str) : Out (List Str) :=
  let withKind (kind : Str) : Out (List Str) :=
    match own.lookup kind with
    | none => .ok [] 1                                                    -- 2035-2038
    | some ps =>
      match r.file, r.parent with
      | some _, _ => .attributeError                                      -- 2044
      | none, none => .attributeError
      | none, some _ => .ok (ps.flatMap fun p => (up kind).map fun u => if p = [] then u else u ++ ['.'] ++ p) 0
  if kind = [] then
    match r.file, r.parent with
    | some _, _ => .attributeError                                        -- 2030
    | none, none => .attributeError
    | none, some _ => withKind blkDefault
  else withKind kind

end Verif.RegFile
