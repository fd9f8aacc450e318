import Verif.Model.Hdl
import Verif.Model.RegTests
/-!
# Model of the register access test: `UVMRegSingleAccessSeq`, `UVMRegAccessSeq` (src/uvm/reg/sequences/uvm_reg_access_seq.py)

The design is that of `Verif.Model.Hdl`; the front door of each map is a device (`Verif.Model.RegAccess`) whose state is the design.  The register has an HDL
path and no user back door; its callbacks are left out.  What is counted are the error reports of the two mirror checks; a status that is not OK is
turned into an exception (`status.name()` of an integer, 142, 151, 159, 167).  Nothing happens in the design during the nanosecond of 145.
-/
namespace Verif.RegAccessTest
open Verif.Reg Verif.RegField Verif.RegAccess Verif.RegTests

/-- `~v` (138) for a register of `n` bits: the bits of a negative number beyond the register are cut off (uvm_reg.py 1415), and the fields take theirs
(uvm_reg.py 701; see `set_compl`). -/
def compl (n v : Nat) : Nat := 2 ^ n - 1 - v % 2 ^ n

/-- 134-170: the register through one map. `dflt`: the rights in its default map. -/
def accessMap (paths : List (List Hdl.Slice)) (dflt : Rights) (t : St Hdl.Dut) (m : Via Hdl.Dut) : Option (St Hdl.Dut) := do
  let v := Reg.get t.reg                                                                   -- 136
  let w ← write m.cfg dflt m.dev {} {} t.reg t.dev (compl t.reg.nBits v)                     -- 138
  if w.ok = false then none else                                                           -- 141-142
  let exp := getMirrored w.reg                                                             -- 148: uvm_reg.py 1132-1133
  let b ← Hdl.regRead paths w.reg w.dev
  if b.ok = false then none else                                                           -- 150-151
  let x ← Hdl.regWrite paths dflt b.reg b.dut v                                             -- 156
  if x.ok = false then none else                                                           -- 158-159
  let f ← mirror m.cfg m.dev {} {} true m.rights x.reg x.dut                                 -- 164
  match f.status with
  | [] => none                                                                             -- 165: IndexError
  | ok :: _ =>
    if ok = false then none                                                                -- 166-167
    else some ⟨f.reg, f.dev, t.errs + (if doCheck b.reg .backdoor exp b.value then 0 else 1) + (if f.mismatch then 1 else 0)⟩

/-- 127-170: the loop over the maps. -/
def accessReg (paths : List (List Hdl.Slice)) (dflt : Rights) (maps : List (Via Hdl.Dut)) (r : Reg) (d : Hdl.Dut) : Option (St Hdl.Dut) :=
  maps.foldlM (accessMap paths dflt) ⟨r, d, 0⟩

/-- Why the loop over the maps is not reached. -/
inductive Skip where
  | excluded | noBackdoor | unknownAccess | onlyRO
deriving DecidableEq, Repr

/-- 104-112: the loop over the fields, for one map: an unknown access ends it, otherwise the number of fields that are RO. -/
def countRO (rt : Rights) : List RF → Nat → Option Nat
  | [], n => some n
  | x :: xs, n =>
    if predefined (getAccess x.f rt) = false then none
    else countRO rt xs (if getAccess x.f rt = .RO then n + 1 else n)

/-- 102-117: the loop over the maps that looks for reasons not to test the register. -/
def skips (r : Reg) : List Rights → Option Skip
  | [] => none
  | rt :: rts => match countRO rt r.fields 0 with
    | none => some .unknownAccess
    | some n => if n = r.fields.length then some .onlyRO else skips r rts

/-- 73-170: `body`; `off`: a resource excludes the register; `bd`: it has a back door. -/
def body (off bd : Bool) (paths : List (List Hdl.Slice)) (dflt : Rights) (maps : List (Via Hdl.Dut)) (r : Reg) (d : Hdl.Dut) :
    Option (Option Skip × St Hdl.Dut) :=
  if off then some (some .excluded, ⟨r, d, 0⟩)                                              -- 82-86
  else if bd = false then some (some .noBackdoor, ⟨r, d, 1⟩)                                -- 89-92
  else match skips r (maps.map (·.rights)) with
    | some k => some (some k, ⟨r, d, 0⟩)
    | none => (accessReg paths dflt maps r d).map fun t => (none, t)

/-- 239-267: `do_block`: the registers the single register sequence is started on, in order, and those warned about (256-259); `bd r`: the register has a
back door.  The recursion takes a fuel. -/
def doBlock (bd : Nat → Bool) : Nat → Blk → Option (List Nat × List Nat)
  | 0, _ => none
  | n + 1, b =>
    if b.skip then some ([], [])
    else do
      let subs ← (below b).mapM (doBlock bd n)
      return ((wanted b.regs).filter bd ++ (subs.map (·.1)).flatten, (wanted b.regs).filter (fun r => !bd r) ++ (subs.map (·.2)).flatten)

end Verif.RegAccessTest
