import Verif.Model.RegAccess
/-!
# Model of the built-in register tests: `UVMRegSingleBitBashSeq`, `UVMRegBitBashSeq` (src/uvm/reg/sequences/uvm_reg_bit_bash_seq.py)
and `UVMRegHWResetSeq` (src/uvm/reg/sequences/uvm_reg_hw_reset_seq.py)

The registers are those of `Verif.Model.Reg`, the accesses those of `Verif.Model.RegAccess`.  What is counted are the error reports of the
sequences themselves (not the messages of the accesses they make).  `none` is a raised exception.  The resources that exclude blocks and
registers from the tests are flags.  Not modelled: the text of messages and the `mode` strings, which only go into messages.
-/
namespace Verif.RegTests
open Verif.Reg Verif.RegField Verif.RegAccess Verif.SvBits

/-- `UVM_REG_DATA_WIDTH` (macros/uvm_reg_defines.py): the length of the list `dc_mask` (73, 105). -/
def dataWidth : Nat := 64

/-- 116: the accesses whose fields are not compared. -/
def writeOnly : Acc → Bool
  | .WO | .WOC | .WOS | .WO1 | .NOACCESS => true
  | _ => false

/-- 110, 116-117: the field is not compared. -/
def dontCare (rt : Rights) (x : RF) : Bool := !x.f.check || writeOnly (getAccess x.f rt)

/-- 107-127: one field of the loop that fills `dc_mask`; the state is `next_lsb` and `dc_mask`.  Beyond the list: IndexError. -/
def dcField (rt : Rights) (s : Nat × List Bool) (x : RF) : Option (Nat × List Bool) :=
  let next := if s.1 < x.lsb then x.lsb else s.1
  if next + x.f.size > dataWidth then none
  else some (next + x.f.size, (List.range x.f.size).foldl (fun a j => a.set (next + j) (dontCare rt x)) s.2)

/-- 105-131: the list `dc_mask`. -/
def dcBits (rt : Rights) (r : Reg) : Option (List Bool) :=
  (r.fields.foldlM (dcField rt) (0, List.replicate dataWidth false)).map (·.2)

/-- 142-144: `dc_mask_int`. -/
def dcInt (l : List Bool) : Nat := l.zipIdx.foldl (fun a p => a ||| ((if p.1 then 1 else 0) <<< p.2)) 0

/-- Register, device and the number of errors reported so far. -/
structure St (σ : Type) where
  reg : Reg
  dev : σ
  errs : Nat

/-- 163-194: one round of `bash_kth_bit`: flip bit `k`, write, read, compare. -/
def bashOnce {σ} (c : Cfg) (dflt : Rights) (d : Dev σ) (h : Hooks) (dc k : Nat) (t : St σ) : Option (St σ) := do
  let val := Reg.get t.reg ^^^ (1 <<< k)
  let w ← write c dflt d h h t.reg t.dev val
  let exp := andNot (Reg.get w.reg) dc
  let o ← read c d h h w.reg w.dev
  let got := andNot o.value dc
  return ⟨o.reg, o.dev, t.errs + (if w.ok then 0 else 1) + (if o.ok then 0 else 1) + (if got = exp then 0 else 1)⟩

/-- 154-194: `bash_kth_bit`: two rounds. -/
def bashBit {σ} (c : Cfg) (dflt : Rights) (d : Dev σ) (h : Hooks) (dc k : Nat) (t : St σ) : Option (St σ) := do
  let t ← bashOnce c dflt d h dc k t
  bashOnce c dflt d h dc k t

/-- 138-147: one iteration of the loop over the bits; `dc_mask[k]` beyond the list: IndexError. -/
def bashStep {σ} (c : Cfg) (dflt : Rights) (d : Dev σ) (h : Hooks) (dcs : List Bool) (t : St σ) (k : Nat) : Option (St σ) :=
  match dcs[k]? with
  | none => none
  | some true => some t
  | some false => bashBit c dflt d h (dcInt dcs) k t

/-- How the register is reached through one of its maps. -/
structure Via (σ : Type) where
  cfg : Cfg
  rights : Rights
  dev : Dev σ

/-- 99-151: the register through one map. -/
def bashMap {σ} (dflt : Rights) (h : Hooks) (t : St σ) (m : Via σ) : Option (St σ) := do
  let dcs ← dcBits m.rights t.reg
  (List.range (nBytes t.reg * 8)).foldlM (bashStep m.cfg dflt m.dev h dcs) t

/-- 69-151: `body` of the single register sequence, through all maps of the register. -/
def bashReg {σ} (dflt : Rights) (h : Hooks) (maps : List (Via σ)) (r : Reg) (s : σ) : Option (St σ) :=
  maps.foldlM (bashMap dflt h) ⟨r, s, 0⟩

/-- uvm_reg_hw_reset_seq.py 137-144: the check of one register: `mirror` with check; an error report of its own for a status that is not OK.
Gives the number of errors reported (that of the check included). -/
def hwResetReg {σ} (c : Cfg) (d : Dev σ) (h : Hooks) (rt : Rights) (r : Reg) (s : σ) : Option (St σ) :=
  match mirror c d h h true rt r s with
  | none => none
  | some o => match o.status with
    | [] => none                                                            -- 139: IndexError
    | ok :: _ => some ⟨o.reg, o.dev, (if o.mismatch then 1 else 0) + (if ok then 0 else 1)⟩

/-- A block: its name, whether it is excluded from the test, its registers with the same flag, its address maps
(has it sub-maps? and the registers `get_registers` gives), its sub-blocks. -/
inductive Blk where
  | mk (skip : Bool) (regs : List (Nat × Bool)) (maps : List (Bool × List (Nat × Bool))) (blks : List Blk)

def Blk.skip : Blk → Bool | .mk s _ _ _ => s
def Blk.regs : Blk → List (Nat × Bool) | .mk _ r _ _ => r
def Blk.maps : Blk → List (Bool × List (Nat × Bool)) | .mk _ _ m _ => m
def Blk.blks : Blk → List Blk | .mk _ _ _ b => b

mutual
/-- uvm_reg_block.py 447-452: `get_blocks(blks)` with its default `UVM_HIER`: all blocks below, each followed by those below it. -/
def below : Blk → List Blk
  | .mk _ _ _ bs => belowAll bs
def belowAll : List Blk → List Blk
  | [] => []
  | b :: bs => b :: (below b ++ belowAll bs)
end

/-- The registers that are not excluded. -/
def wanted (l : List (Nat × Bool)) : List Nat := (l.filter (fun p => !p.2)).map (·.1)

/-- uvm_reg_bit_bash_seq.py 247-272: `do_block`: the registers tested, in order.  The recursion takes a fuel. -/
def bashBlock : Nat → Blk → Option (List Nat)
  | 0, _ => none
  | n + 1, b =>
    if b.skip then some []
    else do
      let subs ← (below b).mapM (bashBlock n)
      return wanted b.regs ++ subs.flatten

/-- uvm_reg_hw_reset_seq.py 110-149: the loop over the maps; `seen`: `sub_maps` is not empty (it is never emptied, 100); `subs`: what the walk
over the sub-blocks gives (146-149, inside the loop). -/
def hwMaps (subs : List Nat) : Bool → List (Bool × List (Nat × Bool)) → List Nat
  | _, [] => []
  | seen, m :: ms =>
    if seen || m.1 then hwMaps subs true ms
    else wanted m.2 ++ subs ++ hwMaps subs false ms

/-- uvm_reg_hw_reset_seq.py 98-149: `do_block`: the registers checked, in order. -/
def hwBlock : Nat → Blk → Option (List Nat)
  | 0, _ => none
  | n + 1, b =>
    if b.skip then some []
    else do
      let subs ← (below b).mapM (hwBlock n)
      return hwMaps subs.flatten false b.maps

end Verif.RegTests
