import Verif.Model.TlmIf
import Verif.Spec.Port
/-!
# Specification: TLM interfaces
-/
namespace Verif.TlmIf
open Verif

/-- The check of `connect`: a port with interface `a` may be connected to a provider with interface `b`. -/
def Accepts (a b : Cls) : Prop := mask b &&& mask a = mask a
instance (a b : Cls) : Decidable (Accepts a b) := inferInstanceAs (Decidable (_ = _))

/-- `b` offers every method of `a`. -/
def Offers (a b : Cls) : Prop := ∀ m ∈ meths a, m ∈ meths b
instance (a b : Cls) : Decidable (Offers a b) := inferInstanceAs (Decidable (∀ m ∈ _, _))

/-- Masters and slaves are connected to their like. -/
def side : Cls → Option Bool
  | .blockingMaster | .nonblockingMaster | .master => some true
  | .blockingSlave | .nonblockingSlave | .slave => some false
  | _ => none

/-- All the interfaces (`allCls_all` shows that none is missing). -/
def allCls : List Cls := [.blockingPut, .nonblockingPut, .putC, .blockingGet, .nonblockingGet, .getC, .blockingPeek, .nonblockingPeek,
  .peekC, .blockingGetPeek, .nonblockingGetPeek, .getPeek, .blockingMaster, .nonblockingMaster, .master, .blockingSlave,
  .nonblockingSlave, .slave, .blockingTransport, .nonblockingTransport, .transportC, .analysis, .seqItemPull]

/-- The interfaces with a non-blocking put, whose bit is also the one of the blocking transport. -/
def HasNbPut (c : Cls) : Prop := .tryPut ∈ meths c
instance (c : Cls) : Decidable (HasNbPut c) := inferInstanceAs (Decidable (_ ∈ _))

/-- The pairs of interfaces whose bits coincide though their methods differ: blocking transport and non-blocking put have
the same bit, and the bits of the sequencer's interface are those of the TLM interfaces. -/
def Collides (a b : Cls) : Prop :=
  (a = .blockingTransport ∧ (HasNbPut b ∨ b = .seqItemPull)) ∨
  (a = .nonblockingPut ∧ (b = .blockingTransport ∨ b = .transportC)) ∨
  (b = .seqItemPull ∧ a ∈ [.nonblockingPut, .putC, .nonblockingGet, .getC, .nonblockingPeek, .peekC, .nonblockingGetPeek, .getPeek,
      .nonblockingTransport, .transportC, .analysis])
instance (a b : Cls) : Decidable (Collides a b) := inferInstanceAs (Decidable (_ ∨ _ ∨ _))

/-- What the names of the interfaces promise: the kinds of transfer … -/
inductive Kind where
  | put | get | peek | transport
deriving DecidableEq

def kinds : Cls → List Kind
  | .blockingPut | .nonblockingPut | .putC => [.put]
  | .blockingGet | .nonblockingGet | .getC => [.get]
  | .blockingPeek | .nonblockingPeek | .peekC => [.peek]
  | .blockingGetPeek | .nonblockingGetPeek | .getPeek => [.get, .peek]
  | .blockingTransport | .nonblockingTransport | .transportC => [.transport]
  | .blockingMaster | .nonblockingMaster | .master | .blockingSlave | .nonblockingSlave | .slave => [.put, .get, .peek]
  | .analysis | .seqItemPull => []

/-- … blocking, non-blocking or both. -/
def blocking : Cls → Bool
  | .nonblockingPut | .nonblockingGet | .nonblockingPeek | .nonblockingGetPeek | .nonblockingMaster | .nonblockingSlave
  | .nonblockingTransport => false
  | _ => true
def nonblocking : Cls → Bool
  | .blockingPut | .blockingGet | .blockingPeek | .blockingGetPeek | .blockingMaster | .blockingSlave | .blockingTransport => false
  | _ => true

/-- The blocking method and the non-blocking methods of a kind. -/
def blockingOf : Kind → List Meth
  | .put => [.put] | .get => [.get] | .peek => [.peek] | .transport => [.transport]
def nonblockingOf : Kind → List Meth
  | .put => [.tryPut, .canPut] | .get => [.tryGet, .canGet] | .peek => [.tryPeek, .canPeek] | .transport => [.nbTransport]

/-- The methods that are functions with a result (SystemVerilog: no tasks, no void functions). -/
def HasResult : Meth → Prop
  | .tryPut | .canPut | .tryGet | .canGet | .tryPeek | .canPeek | .nbTransport | .isRec | .hasDoAvailable => True
  | _ => False

/-- A network of typed ports, connected and bound in any order. -/
def network (nm : Nat → String) (node : Nat → Port.Node) (cls : Nat → Cls) (calls : List (Nat × Option Nat)) (depth : Nat)
    (ps : List Nat) : Net := bound (Port.resolveAll nm depth (Port.built nm node calls) ps) cls

/-- The masks are those of the classes. -/
def Typed (node : Nat → Port.Node) (cls : Nat → Cls) : Prop := ∀ p, (node p).mask = mask (cls p)

end Verif.TlmIf
