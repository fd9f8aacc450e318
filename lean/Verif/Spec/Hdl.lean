import Verif.Model.Hdl
import Verif.Spec.Reg
import Verif.Util.All2
/-! # What HDL paths name, and which paths a block has -/
namespace Verif.Hdl
open Verif.Reg

/-- Following indices through arrays. -/
inductive Indexed : Obj → List Nat → Obj → Prop where
  | here (o) : Indexed o [] o
  | elem {es i e is o} : es[i]? = some e → Indexed e is o → Indexed (.array es) (i :: is) o

/-- The path names the object: every component is the name of a child, followed by indices of elements. -/
inductive Names : Obj → HdlPath → Obj → Prop where
  | here (o) : Names o [] o
  | child {cs : List (String × Obj)} {c : Comp} {m m' o : Obj} {p : HdlPath} :
      cs.lookup c.name = some m → Indexed m c.idx m' → Names m' p o → Names (.scope cs) (c :: p) o

/-- No component has more than one index, and none has any unless the simulator is Verilator. -/
def Simple (verilator : Bool) (p : HdlPath) : Prop := ∀ c ∈ p, c.idx.length ≤ 1 ∧ (verilator = false → c.idx = [])

/-- The path names signal `i` of the design, and is of the kind above. -/
def Signal (d : Dut) (p : HdlPath) (i : Nat) : Prop := Names d.top p (.sig i) ∧ Simple d.verilator p

/-- A path of a block: the root path if the block is a root; otherwise one of its own paths below one of the parent's, or alone if the parent has none. -/
def PathOf : List Level → HdlPath → Prop
  | [], _ => False
  | l :: up, p =>
    match l.root with
    | some r => p = r ∧ r ≠ []
    | none => ∃ ps, l.paths = some ps ∧ ∃ own ∈ ps,
        (∃ q, PathOf up q ∧ p = q ++ own) ∨ ((∀ q, ¬ PathOf up q) ∧ p = own ∧ own ≠ [])

/-- Going up from a block one meets a block without paths for the kind before one meets a root. -/
def Undefined (ls : List Level) : Prop :=
  ∃ pre l post, ls = pre ++ l :: post ∧ (∀ m ∈ pre, m.root = none ∧ m.paths.isSome) ∧ l.root = none ∧ l.paths = none

/-- The register is one signal, or one signal in several places: path by path, which. -/
def Whole (d : Dut) (paths : List (List Slice)) (sigs : List Nat) : Prop :=
  All2 (fun c i => ∃ p, c = [{ path := p }] ∧ Signal d p i) paths sigs

/-- The field that has bit `b`. -/
def fieldAt (r : Reg) (b : Nat) : Option RF := r.fields.find? fun x => decide (Covers x b)

/-- The value last poked at `o`, cut to `n` bits, or else `init o`. -/
def lastPoke (n : Nat) (init : Nat → Nat) (ops : List (Nat × Nat)) (o : Nat) : Nat :=
  match ops.reverse.find? (fun q => q.1 == o) with
  | some q => q.2 % 2 ^ n
  | none => init o

/-- One bit of the device after a read by a policy that clears or sets what is read. -/
def afterRead (a : RegField.Acc) (b : Bool) : Bool :=
  match (RegField.doc a).2 with
  | .clears => false
  | .sets => true
  | _ => b

/-- The path names an array of the signals `ids`, has no index at its end, and the simulator is Verilator. -/
structure Memory (d : Dut) (p : HdlPath) (ids : List Nat) : Prop where
  names : Names d.top p (.array (ids.map .sig))
  last : ∀ c, p.getLast? = some c → c.idx = []
  nonempty : p ≠ []
  simple : Simple true p
  verilator : d.verilator = true
  nodup : ids.Nodup

end Verif.Hdl
