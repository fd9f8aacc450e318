import Verif.Model.RegField
/-!
# Model of `UVMReg` (src/uvm/reg/uvm_reg.py): fields, values, prediction, mirror check

A register is its width and its list of fields with bit positions.  Bus access is in `Verif.Model.RegMap`.
Not modelled: coverage, callbacks (see `Verif.Model.RegAccess`), HDL back doors, locking.
-/
namespace Verif.Reg
open Verif.RegField (Field Kind Rights PKind Path Acc maskInt)

/-- A field placed in a register: `get_lsb_pos()` and the field. -/
structure RF where
  lsb : Nat
  f : Field

/-- uvm_reg.py 88-119: what matters of a register. -/
structure Reg where
  nBits : Nat
  fields : List RF
  nUsed : Nat
  busy : Bool

/-- uvm_reg.py 88-119: a new register (a width of 0 is reported and replaced by 1). -/
def new (n : Nat) : Reg := ⟨if n = 0 then 1 else n, [], 0, false⟩

/-- The errors `add_field` can report. -/
inductive AddError where
  | tooManyBits | overlapsPrev | overlapsNext
deriving DecidableEq, Repr

/-- uvm_reg.py 214-224: the insertion loop; gives the new list and the index of the new field.  `i` is the loop index. -/
def insertAt (x : RF) : List RF → List RF × Nat
  | [] => ([x], 0)
  | y :: ys => if x.lsb < y.lsb then (x :: y :: ys, 0)
    else let (zs, i) := insertAt x ys; (y :: zs, i + 1)

/-- uvm_reg.py 197-246: `add_field` (not locked, field not None). -/
def addField (r : Reg) (x : RF) : Reg × List AddError :=
  let (fs, idx) := insertAt x r.fields
  let used := r.nUsed + x.f.size
  let e1 := if used > r.nBits then [AddError.tooManyBits] else []
  let e2 := if idx > 0 then
      match fs[idx - 1]? with
      | some p => if p.lsb + p.f.size > x.lsb then [AddError.overlapsPrev] else []
      | none => []
    else []
  let e3 := if idx < fs.length - 1 then
      match fs[idx + 1]? with
      | some n => if x.lsb + x.f.size > n.lsb then [AddError.overlapsNext] else []
      | none => []
    else []
  ({ r with fields := fs, nUsed := used }, e1 ++ e2 ++ e3)

/-- `(value >> lsb) & ((1 << size) - 1)` for a Python integer (lines 701, 1775). -/
def slice (v : Int) (lsb size : Nat) : Nat := maskInt size (v / (2 ^ lsb : Nat))

/-- uvm_reg.py 666-702: `set`. -/
def set (r : Reg) (v : Int) : Reg :=
  { r with fields := r.fields.map fun x => { x with f := RegField.set x.f (slice v x.lsb x.f.size) } }

/-- uvm_reg.py 704-739: `get` (fields' `get()` is the desired value). -/
def get (r : Reg) : Nat := r.fields.foldl (fun acc x => acc ||| (x.f.desired <<< x.lsb)) 0

/-- uvm_reg.py 742-771: `get_mirrored_value`. -/
def getMirrored (r : Reg) : Nat := r.fields.foldl (fun acc x => acc ||| (x.f.mirrored <<< x.lsb)) 0

/-- uvm_reg.py 774-788: `needs_update`. -/
def needsUpdate (r : Reg) : Bool := r.fields.any fun x => RegField.needsUpdate x.f

/-- uvm_reg.py 791-818: `reset`; also releases the register (`Xset_busyX(0)`). -/
def reset (r : Reg) (k : Kind) : Reg :=
  { r with fields := r.fields.map (fun x => { x with f := RegField.reset x.f k }), busy := false }

/-- uvm_reg.py 842-850: `set_reset`. -/
def setReset (r : Reg) (v : Int) (k : Kind) : Reg :=
  { r with fields := r.fields.map fun x => { x with f := RegField.setReset x.f (v / (2 ^ x.lsb : Nat)) k } }

/-- uvm_reg.py 1056-1060: the value `update` writes. -/
def updateValue (r : Reg) : Nat := r.fields.foldl (fun acc x => acc ||| (RegField.xupdate x.f <<< x.lsb)) 0

/-- uvm_reg.py 471-478: `get_n_bytes` (for a non-empty register). -/
def nBytes (r : Reg) : Nat := (r.nBits - 1) / 8 + 1

/-- uvm_reg.py 1774-1778: one iteration of the loop of `do_predict`. -/
def predictField (v : Int) (k : PKind) (p : Path) (rt : Rights) (be : Int) (busy : Bool) (x : RF) : Option RF :=
  (RegField.doPredict x.f (slice v x.lsb x.f.size) k p rt ((be / (2 ^ (x.lsb / 8) : Nat)) % 2 == 1) busy).map
    fun q => { x with f := q.1 }

/-- uvm_reg.py 1760-1779: `do_predict`; the flag is whether the status is OK afterwards. `none` is a raised exception. -/
def doPredict (r : Reg) (v : Int) (k : PKind) (p : Path) (rt : Rights) (be : Int) : Option (Reg × Bool) :=
  if r.busy = true ∧ k = .direct then some (r, false)
  else do
    let fs ← r.fields.mapM (predictField v k p rt be r.busy)
    return ({ r with fields := fs }, true)

/-- `acc[0:1] == "WO"` (1354-1356): a one-character string is compared with "WO". -/
def accPrefixIsWO (_ : Acc) : Bool := false

/-- uvm_reg.py 1350-1358: the don't-care mask of `do_check`. -/
def dcMask (r : Reg) (rt : Rights) : Nat :=
  r.fields.foldl (fun dc x =>
    if x.f.check = false ∨ accPrefixIsWO (RegField.getAccess x.f rt) = true then dc ||| ((2 ^ x.f.size - 1) <<< x.lsb) else dc) 0

/-- uvm_reg.py 1339-1385: `do_check`; `false` comes with an error report. -/
def doCheck (r : Reg) (rt : Rights) (expected actual : Nat) : Bool :=
  (actual ||| dcMask r rt) == (expected ||| dcMask r rt)

/-- uvm_reg.py 527-554: `Xget_fields_accessX`: the loop over the accesses. -/
def accessLoop : Bool → Bool → List Acc → Acc
  | isR, isW, [] => if isR = false ∧ isW = true then .WO else if isR = true ∧ isW = false then .RO else .RW
  | isR, isW, a :: as =>
    match a with
    | .RO | .RC | .RS => if isW = true then .RW else accessLoop true isW as
    | .WO | .WOC | .WOS | .WO1 => if isR = true then .RW else accessLoop isR true as
    | _ => .RW

/-- uvm_reg.py 527-554. -/
def fieldsAccess (r : Reg) (rt : Rights) : Acc := accessLoop false false (r.fields.map fun x => RegField.getAccess x.f rt)

/-- Operations on a register, for histories. -/
inductive Op where
  | set (v : Int) | reset (k : Kind) | setReset (v : Int) (k : Kind)
  | predict (v : Int) (k : PKind) (p : Path) (rt : Rights)
  | fieldOp (i : Nat) (op : RegField.Op)

def step (r : Reg) : Op → Reg
  | .set v => set r v
  | .reset k => reset r k
  | .setReset v k => setReset r v k
  | .predict v k p rt => match doPredict r v k p rt (-1) with
    | some (r', _) => r'
    | none => r
  | .fieldOp i op => { r with fields := r.fields.modify i fun x => { x with f := RegField.step x.f op } }

def steps (r : Reg) (ops : List Op) : Reg := ops.foldl step r

/-- A register built by `add_field` calls; the errors reported along the way are collected. -/
def build (n : Nat) (xs : List RF) : Reg × List AddError :=
  xs.foldl (fun s x => let (r, e) := addField s.1 x; (r, s.2 ++ e)) (new n, [])

end Verif.Reg
