import Verif.Model.SvBits
/-!
# Model of `UVMRegField` (src/uvm/reg/uvm_reg_field.py)

The access policy string is a constructor of `Acc`; `user n` is a policy registered with `define_access`.
Values given by the caller are Python integers (`Int`); stored values are non-negative (`Nat`), which the
code guarantees by masking.  Not modelled: file name / line number bookkeeping, warnings, callbacks
(`post_predict` receives integers by value and cannot change the field), random generation (any value in
range may be chosen).  The parent register contributes `busy` (`m_parent.is_busy()`) and the rights of the
register in the map used.
-/
namespace Verif.RegField
open Verif.SvBits (andNot)

/-- The 25 predefined policies (lines 348-372), `NOACCESS`, and user-defined ones. -/
inductive Acc where
  | RO | RW | RC | RS | WRC | WRS | WC | WS | WSRC | WCRS | W1C | W1S | W1T | W0C | W0S | W0T
  | W1SRC | W1CRS | W0SRC | W0CRS | WO | WOC | WOS | W1 | WO1 | NOACCESS | user (n : Nat)
deriving DecidableEq, Repr

/-- The rights of the register in a map, as returned by `get_rights`; `backdoor` = the backdoor pseudo map. -/
inductive Rights where
  | RW | RO | WO | other | backdoor
deriving DecidableEq, Repr

/-- Reset kinds are strings; only equality with "HARD" matters. -/
abbrev Kind := String

structure Field where
  size : Nat
  access : Acc
  volatile : Bool
  mirrored : Nat
  desired : Nat
  value : Nat
  reset : Kind → Option Nat
  written : Bool
  check : Bool

/-- `_get_mask` 1117-1118. -/
def mask (f : Field) : Nat := 2 ^ f.size - 1

/-- `v & ((1 << size) - 1)` for a Python integer. -/
def maskInt (size : Nat) (v : Int) : Nat := (v % (2 ^ size : Nat)).toNat

/-- `~v & mask` for a non-negative integer within the mask. -/
def notMask (m v : Nat) : Nat := andNot m v

/-- The names `define_access` knows initially (340-373): everything except NOACCESS and user policies. -/
def predefined : Acc → Bool
  | .NOACCESS => false
  | .user _ => false
  | _ => true

/-- `name in m_policy_names`, given the user-defined names registered so far. -/
def known (users : List Nat) : Acc → Bool
  | .NOACCESS => false
  | .user n => users.contains n
  | _ => true

/-- uvm_reg_field.py 723-736: `set_reset`. -/
def setReset (f : Field) (v : Int) (k : Kind) : Field :=
  { f with reset := fun k' => if k' = k then some (maskInt f.size v) else f.reset k' }

/-- uvm_reg_field.py 73-101 and 104-178: a new field after `configure` (size 0 is replaced by 1, an unknown
policy by RW). -/
def configure (users : List Nat) (size : Nat) (access : Acc) (volatile : Bool) (reset : Int) (hasReset : Bool) : Field :=
  let size := if size = 0 then 1 else size
  let f : Field := { size := size, access := access, volatile := volatile, mirrored := 0, desired := 0, value := 0,
                     reset := fun _ => none, written := false, check := !volatile }
  let f := if hasReset then setReset f reset "HARD" else f
  if known users access = false then { f with access := .RW } else f

/-- uvm_reg_field.py 249-303: `set_access`; returns the previous policy. -/
def setAccess (users : List Nat) (f : Field) (mode : Acc) : Field × Acc :=
  if known users mode = false then (f, f.access) else ({ f with access := mode }, f.access)

/-- uvm_reg_field.py 375-430: `get_access`.  In the WO branch `field_access` is overwritten before it is
tested (418-420). -/
def getAccess (f : Field) : Rights → Acc
  | .backdoor => f.access
  | .RW => f.access
  | .RO =>
    match f.access with
    | .RW | .RO | .WC | .WS | .W1C | .W1S | .W1T | .W0C | .W0S | .W0T | .W1 => .RO
    | .RC | .WRC | .W1SRC | .W0SRC | .WSRC => .RC
    | .RS | .WRS | .W1CRS | .W0CRS | .WCRS => .RS
    | .WO | .WOC | .WOS | .WO1 => .NOACCESS
    | a => a
  | .WO =>
    let a := Acc.NOACCESS
    if a = .RW ∨ a = .WO then .WO else a
  | .other => .NOACCESS

/-- uvm_reg_field.py 484-596: `set`. -/
def set (f : Field) (value : Int) : Field :=
  let m := mask f
  let v : Nat := if value / (2 ^ f.size : Nat) ≠ 0 then maskInt f.size value else value.toNat
  let d := match f.access with
    | .RO => f.desired
    | .RW => v
    | .RC => f.desired
    | .RS => f.desired
    | .WC => 0
    | .WS => m
    | .WRC => v
    | .WRS => v
    | .WSRC => m
    | .WCRS => 0
    | .W1C => andNot f.desired v
    | .W1S => f.desired ||| v
    | .W1T => f.desired ^^^ v
    | .W0C => f.desired &&& v
    | .W0S => f.desired ||| notMask m v
    | .W0T => f.desired ^^^ notMask m v
    | .W1SRC => f.desired ||| v
    | .W1CRS => andNot f.desired v
    | .W0SRC => f.desired ||| notMask m v
    | .W0CRS => f.desired &&& v
    | .WO => v
    | .WOC => 0
    | .WOS => m
    | .W1 => if f.written then f.desired else v
    | .WO1 => if f.written then f.desired else v
    | .NOACCESS => v
    | .user _ => v
  { f with desired := d, value := d }

/-- uvm_reg_field.py 653-679: `reset`. -/
def reset (f : Field) (k : Kind) : Field :=
  match f.reset k with
  | none => f
  | some v =>
    let f := { f with mirrored := v, desired := v, value := v }
    if k = "HARD" then { f with written := false } else f

/-- uvm_reg_field.py 681-699: `get_reset`. -/
def getReset (f : Field) (k : Kind) : Nat := (f.reset k).getD f.desired

/-- uvm_reg_field.py 702-721: `has_reset`. -/
def hasReset (f : Field) (k : Kind) (delete : Bool) : Field × Bool :=
  match f.reset k with
  | none => (f, false)
  | some _ => (if delete then { f with reset := fun k' => if k' = k then none else f.reset k' } else f, true)

/-- uvm_reg_field.py 738-756: `needs_update`. -/
def needsUpdate (f : Field) : Bool := f.mirrored != f.desired || f.volatile

/-- uvm_reg_field.py 1122-1199: `XpredictX`. -/
def xpredict (f : Field) (cur wr : Nat) (r : Rights) : Nat :=
  let m := mask f
  match getAccess f r with
  | .RO => cur
  | .RW => wr
  | .RC => cur
  | .RS => cur
  | .WC => 0
  | .WS => m
  | .WRC => wr
  | .WRS => wr
  | .WSRC => m
  | .WCRS => 0
  | .W1C => andNot cur wr
  | .W1S => cur ||| wr
  | .W1T => cur ^^^ wr
  | .W0C => cur &&& wr
  | .W0S => cur ||| notMask m wr
  | .W0T => cur ^^^ notMask m wr
  | .W1SRC => cur ||| wr
  | .W1CRS => andNot cur wr
  | .W0SRC => cur ||| notMask m wr
  | .W0CRS => cur &&& wr
  | .WO => wr
  | .WOC => 0
  | .WOS => m
  | .W1 => if f.written then cur else wr
  | .WO1 => if f.written then cur else wr
  | .NOACCESS => cur
  | .user _ => wr

/-- uvm_reg_field.py 1203-1242: `XupdateX` (Python `~x` is `-x-1`, then masked). -/
def xupdate (f : Field) : Nat :=
  let inv : Int → Int := fun x => -x - 1
  let d : Int := f.desired
  let x : Int := f.desired ^^^ f.mirrored
  maskInt f.size (match f.access with
    | .W1C => inv d
    | .W1T => x
    | .W0S => inv d
    | .W0T => inv x
    | .W1CRS => inv d
    | .W0SRC => inv d
    | _ => d)

inductive PKind where
  | direct | read | write
deriving DecidableEq, Repr

/-- `front` = UVM_FRONTDOOR or UVM_PREDICT; `other` = any other path (backdoor). -/
inductive Path where
  | front | other
deriving DecidableEq, Repr

/-- uvm_reg_field.py 1253-1317: `do_predict`.  `none`: byte enable bit 0 is clear, which raises (1267-1268).
The flag is `rw.status == UVM_IS_OK` (the incoming status is assumed not NOT_OK). -/
def doPredict (f : Field) (value : Int) (k : PKind) (p : Path) (r : Rights) (be0 busy : Bool) : Option (Field × Bool) :=
  if be0 = false then none
  else
    let v := maskInt f.size value
    let upd (f : Field) (v : Nat) : Field := { f with mirrored := v, desired := v, value := v }
    match k with
    | .write =>
      let v := if p = .front then xpredict f f.mirrored v r else v
      some (upd { f with written := true } (v &&& mask f), true)
    | .read =>
      if p = .front then
        match getAccess f r with
        | .RC | .WRC | .WSRC | .W1SRC | .W0SRC => some (upd f (0 &&& mask f), true)
        | .RS | .WRS | .WCRS | .W1CRS | .W0CRS => some (upd f (mask f &&& mask f), true)
        | .WO | .WOC | .WOS | .WO1 | .NOACCESS => some (f, true)
        | _ => some (upd f (v &&& mask f), true)
      else some (upd f (v &&& mask f), true)
    | .direct => some (upd f v, !busy)

/-- Everything a user (or the owning register) can do to a configured field.  `randomize v`: `post_randomize`
(1327-1328) after the solver chose `v` in the range declared at line 145. -/
inductive Op where
  | set (v : Int)
  | reset (k : Kind)
  | setReset (v : Int) (k : Kind)
  | hasReset (k : Kind) (delete : Bool)
  | setAccess (users : List Nat) (a : Acc)
  | setVolatility (v : Bool)
  | predict (v : Int) (k : PKind) (p : Path) (r : Rights) (busy : Bool)
  | randomize (v : Nat)

def step (f : Field) : Op → Field
  | .set v => set f v
  | .reset k => reset f k
  | .setReset v k => setReset f v k
  | .hasReset k d => (hasReset f k d).1
  | .setAccess us a => (setAccess us f a).1
  | .setVolatility v => { f with volatile := v }
  | .predict v k p r b => match doPredict f v k p r true b with
    | some (f', _) => f'
    | none => f
  | .randomize v => if v < 2 ^ f.size then { f with value := v, desired := v } else f

def steps (f : Field) (ops : List Op) : Field := ops.foldl step f

end Verif.RegField
