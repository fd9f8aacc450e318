import Verif.Model.RegAccess
import Verif.Spec.Reg
import Verif.Util.All2
/-! # What accesses to a register should do: hooks that leave the item alone, and devices that follow the documented policies -/
namespace Verif.RegAccess
open Verif.Reg Verif.RegField

/-- None of the user's hooks changes the item. -/
structure Quiet (h : Hooks) : Prop where
  field : ∀ i x, h.field i x = x
  fieldCbs : ∀ i, ∀ f ∈ h.fieldCbs i, ∀ x, f x = x
  reg : ∀ x, h.reg x = x
  regCbs : ∀ f ∈ h.regCbs, ∀ x, f x = x

/-- A field as it is in the device. -/
structure DF where
  lsb : Nat
  size : Nat
  acc : Acc
  value : Nat
  written : Bool
deriving DecidableEq, Repr

/-- The field after the device was written with `v`: the documented effect of its policy, bit by bit. -/
def DF.Written (v : Nat) (x y : DF) : Prop :=
  y.lsb = x.lsb ∧ y.size = x.size ∧ y.acc = x.acc ∧ y.written = true ∧
  IsWriteResult x.size (doc x.acc).1 x.written x.value (v >>> x.lsb) y.value

/-- The field after the device was read: the documented effect of its policy. -/
def DF.Read (x y : DF) : Prop :=
  y = { x with value := match (doc x.acc).2 with
    | .clears => 0
    | .sets => 2 ^ x.size - 1
    | _ => x.value }

def DF.covers (x : DF) (i : Nat) : Prop := x.lsb ≤ i ∧ i < x.lsb + x.size

/-- Reading gives the value of the field (not so for write-only fields). -/
def Readable (a : Acc) : Prop := (doc a).2 ≠ .error ∧ a ≠ .NOACCESS

/-- A device whose fields are `view s` in state `s` and that never refuses an access: writes and reads have the documented effects,
reads return the readable fields and 0 elsewhere. -/
structure FollowsDoc {σ : Type} (d : Dev σ) (view : σ → List DF) : Prop where
  wr : ∀ s v, (d.wr s v).2 = true ∧ All2 (DF.Written v) (view s) (view (d.wr s v).1)
  rd : ∀ s, (d.rd s).2.2 = true ∧ All2 DF.Read (view s) (view (d.rd s).1)
  data : ∀ s x, x ∈ view s → Readable x.acc → ∀ i, x.covers i → (d.rd s).2.1.testBit i = x.value.testBit (i - x.lsb)
  rest : ∀ s i, (∀ x ∈ view s, Readable x.acc → ¬ x.covers i) → (d.rd s).2.1.testBit i = false

/-- The mirror of a field is what the device has. -/
def FieldAgrees (x : RF) (y : DF) : Prop :=
  x.lsb = y.lsb ∧ x.f.size = y.size ∧ x.f.access = y.acc ∧ x.f.mirrored = y.value ∧ x.f.written = y.written

/-- The mirror of the register is what the device has. -/
def Agrees (r : Reg) (fs : List DF) : Prop := All2 FieldAgrees r.fields fs

/-- What a test bench does with the register. -/
inductive Op where
  | set (v : Nat) | setField (i : Nat) (v : Nat)
  | write (v : Nat) | read | update | mirror (check : Bool)
deriving DecidableEq, Repr

/-- One operation; `none`: exception. -/
def opStep {σ} (c : Cfg) (dflt rt : Rights) (d : Dev σ) (h : Hooks) (st : Reg × σ) : Op → Option (Reg × σ)
  | .set v => some (Reg.set st.1 v, st.2)
  | .setField i v => some (Reg.step st.1 (.fieldOp i (.set v)), st.2)
  | .write v => (write c dflt d h h st.1 st.2 v).map fun o => (o.reg, o.dev)
  | .read => (read c d h h st.1 st.2).map fun o => (o.reg, o.dev)
  | .update => (update c dflt d h h st.1 st.2).map fun o => (o.reg, o.dev)
  | .mirror b => (mirror c d h h b rt st.1 st.2).map fun o => (o.reg, o.dev)

/-- A history of operations. -/
def opRun {σ} (c : Cfg) (dflt rt : Rights) (d : Dev σ) (h : Hooks) (st : Reg × σ) (ops : List Op) : Option (Reg × σ) :=
  ops.foldlM (opStep c dflt rt d h) st

/-- The natural number with the given bits. -/
def ofBits (n : Nat) (b : Nat → Bool) : Nat :=
  (List.range n).foldl (fun a i => a ||| ((if b i then 1 else 0) <<< i)) 0

/-- A device that follows the documentation: a list of fields. -/
def docDev : Dev (List DF) where
  wr s v := (s.map fun x => { x with
    value := ofBits x.size fun i => (doc x.acc).1.bit x.written (x.value.testBit i) ((v >>> x.lsb).testBit i)
    written := true }, true)
  rd s := (s.map fun x => { x with value := match (doc x.acc).2 with
      | .clears => 0
      | .sets => 2 ^ x.size - 1
      | _ => x.value },
    s.foldl (fun a x => if (doc x.acc).2 ≠ .error ∧ x.acc ≠ .NOACCESS then a ||| (x.value % 2 ^ x.size) <<< x.lsb else a) 0, true)

end Verif.RegAccess
