import Verif.Model.Port
/-!
# Model of the TLM interface classes and of calls through ports

src/uvm/macros/uvm_tlm_defines.py 571-674 (interface masks, `UVM_SEQ_ITEM_PULL_IMP`), src/uvm/tlm1/uvm_tlm_imps.py 94-336 (the
functions that give a class its methods and its constructor), src/uvm/tlm1/uvm_ports.py, uvm_exports.py, uvm_imps.py,
uvm_sqr_connections.py, uvm_analysis_port.py (which class has which mask and methods; port, export and imp of one interface
agree), src/uvm/base/uvm_port_base.py 311-326 (`set_if`, `set_default_index`), 644-690.

Connecting and binding are those of `Verif.Port`.  Arguments are passed on by reference and are left out.
-/
namespace Verif.TlmIf
open Verif

/-- The interface methods. -/
inductive Meth where
  | put | tryPut | canPut | get | tryGet | canGet | peek | tryPeek | canPeek | transport | nbTransport | write
  | disableRec | isRec | getNextItem | tryNextItem | itemDone | waitForSequences | hasDoAvailable | putResponse
deriving DecidableEq, Repr

/-- The interfaces, of which there are a port, an export and an imp each. -/
inductive Cls where
  | blockingPut | nonblockingPut | putC | blockingGet | nonblockingGet | getC | blockingPeek | nonblockingPeek | peekC
  | blockingGetPeek | nonblockingGetPeek | getPeek
  | blockingMaster | nonblockingMaster | master | blockingSlave | nonblockingSlave | slave
  | blockingTransport | nonblockingTransport | transportC | analysis | seqItemPull
deriving DecidableEq, Repr

/-! uvm_tlm_defines.py 628-640. -/
def blockingPutMask : Nat := 1 <<< 0
def blockingGetMask : Nat := 1 <<< 1
def blockingPeekMask : Nat := 1 <<< 2
def blockingTransportMask : Nat := 2 <<< 3
def nonblockingPutMask : Nat := 1 <<< 4
def nonblockingGetMask : Nat := 1 <<< 5
def nonblockingPeekMask : Nat := 1 <<< 6
def nonblockingTransportMask : Nat := 1 <<< 7
def analysisMask : Nat := 1 <<< 8
def masterBit : Nat := 1 <<< 9
def slaveBit : Nat := 1 <<< 10

/-- 642-658, 660-674 (`UVM_SEQ_ITEM_PULL_MASK`: nine masks `1 << 0` … `1 << 8`). -/
def mask : Cls → Nat
  | .blockingPut => blockingPutMask
  | .nonblockingPut => nonblockingPutMask
  | .putC => blockingPutMask ||| nonblockingPutMask
  | .blockingGet => blockingGetMask
  | .nonblockingGet => nonblockingGetMask
  | .getC => blockingGetMask ||| nonblockingGetMask
  | .blockingPeek => blockingPeekMask
  | .nonblockingPeek => nonblockingPeekMask
  | .peekC => blockingPeekMask ||| nonblockingPeekMask
  | .blockingGetPeek => blockingGetMask ||| blockingPeekMask
  | .nonblockingGetPeek => nonblockingGetMask ||| nonblockingPeekMask
  | .getPeek => (blockingGetMask ||| nonblockingGetMask) ||| (blockingPeekMask ||| nonblockingPeekMask)
  | .blockingMaster => blockingPutMask ||| blockingGetMask ||| blockingPeekMask ||| masterBit
  | .nonblockingMaster => nonblockingPutMask ||| nonblockingGetMask ||| nonblockingPeekMask ||| masterBit
  | .master => (blockingPutMask ||| blockingGetMask ||| blockingPeekMask ||| masterBit) |||
      (nonblockingPutMask ||| nonblockingGetMask ||| nonblockingPeekMask ||| masterBit)
  | .blockingSlave => blockingPutMask ||| blockingGetMask ||| blockingPeekMask ||| slaveBit
  | .nonblockingSlave => nonblockingPutMask ||| nonblockingGetMask ||| nonblockingPeekMask ||| slaveBit
  | .slave => (blockingPutMask ||| blockingGetMask ||| blockingPeekMask ||| slaveBit) |||
      (nonblockingPutMask ||| nonblockingGetMask ||| nonblockingPeekMask ||| slaveBit)
  | .blockingTransport => blockingTransportMask
  | .nonblockingTransport => nonblockingTransportMask
  | .transportC => blockingTransportMask ||| nonblockingTransportMask
  | .analysis => analysisMask
  | .seqItemPull => 1 <<< 0 ||| 1 <<< 1 ||| 1 <<< 2 ||| 1 <<< 3 ||| 1 <<< 4 ||| 1 <<< 5 ||| 1 <<< 6 ||| 1 <<< 7 ||| 1 <<< 8

/-! uvm_tlm_imps.py 96-228: the methods each function sets. -/
def blockingPutImp : List Meth := [.put]
def nonblockingPutImp : List Meth := [.tryPut, .canPut]
def blockingGetImp : List Meth := [.get]
def nonblockingGetImp : List Meth := [.tryGet, .canGet]
def blockingPeekImp : List Meth := [.peek]
def nonblockingPeekImp : List Meth := [.tryPeek, .canPeek]
def blockingTransportImp : List Meth := [.transport]
def nonblockingTransportImp : List Meth := [.nbTransport]
def putImp : List Meth := blockingPutImp ++ nonblockingPutImp
def getImp : List Meth := blockingGetImp ++ nonblockingGetImp
def peekImp : List Meth := blockingPeekImp ++ nonblockingPeekImp
def blockingGetPeekImp : List Meth := blockingGetImp ++ blockingPeekImp
def nonblockingGetPeekImp : List Meth := nonblockingGetImp ++ nonblockingPeekImp
def getPeekImp : List Meth := blockingGetPeekImp ++ nonblockingGetPeekImp
def transportImp : List Meth := blockingTransportImp ++ nonblockingTransportImp

/-- uvm_tlm_defines.py 571-622. -/
def seqItemPullImp : List Meth := [.disableRec, .isRec, .getNextItem, .tryNextItem, .itemDone, .waitForSequences, .hasDoAvailable,
  .putResponse, .get, .peek, .put]

/-- uvm_ports.py, uvm_exports.py, uvm_imps.py, uvm_sqr_connections.py, uvm_analysis_port.py: the methods of a class. -/
def meths : Cls → List Meth
  | .blockingPut => blockingPutImp
  | .nonblockingPut => nonblockingPutImp
  | .putC => putImp
  | .blockingGet => blockingGetImp
  | .nonblockingGet => nonblockingGetImp
  | .getC => getImp
  | .blockingPeek => blockingPeekImp
  | .nonblockingPeek => nonblockingPeekImp
  | .peekC => peekImp
  | .blockingGetPeek => blockingGetPeekImp
  | .nonblockingGetPeek => nonblockingGetPeekImp
  | .getPeek => getPeekImp
  | .blockingMaster => blockingPutImp ++ blockingGetPeekImp
  | .nonblockingMaster => nonblockingPutImp ++ nonblockingGetPeekImp
  | .master => putImp ++ getPeekImp
  | .blockingSlave => blockingPutImp ++ blockingGetPeekImp
  | .nonblockingSlave => nonblockingPutImp ++ nonblockingGetPeekImp
  | .slave => putImp ++ getPeekImp
  | .blockingTransport => blockingTransportImp
  | .nonblockingTransport => nonblockingTransportImp
  | .transportC => transportImp
  | .analysis => [.write]
  | .seqItemPull => seqItemPullImp

/-- The component an imp passes a call to: `m_imp`, or `m_req_imp` and `m_rsp_imp` of master and slave imps. -/
inductive Role where
  | imp | req | rsp
deriving DecidableEq, Repr

/-- uvm_imps.py: masters have the put methods of `m_req_imp` and the get and peek methods of `m_rsp_imp`, slaves the other
way round. -/
def role (c : Cls) (m : Meth) : Role :=
  match c with
  | .blockingMaster => if m ∈ blockingPutImp then .req else .rsp
  | .nonblockingMaster => if m ∈ nonblockingPutImp then .req else .rsp
  | .master => if m ∈ putImp then .req else .rsp
  | .blockingSlave => if m ∈ blockingPutImp then .rsp else .req
  | .nonblockingSlave => if m ∈ nonblockingPutImp then .rsp else .req
  | .slave => if m ∈ putImp then .rsp else .req
  | _ => .imp

/-- Whether the forwarding method has a `return` in front of the call (uvm_tlm_imps.py, uvm_tlm_defines.py). -/
def returns : Meth → Bool
  | .tryPut | .canPut | .tryGet | .canGet | .tryPeek | .canPeek | .nbTransport | .isRec | .getNextItem | .hasDoAvailable => true
  | _ => false

/-- The bound ports: their classes, `m_if` and `m_def_index`. -/
structure Net where
  port : Port.State
  cls : Nat → Cls
  mIf : Nat → Option Nat
  defIndex : Nat → Nat

/-- The networks after `resolve_bindings`: 668-669, `set_if(0)` if there are implementations. -/
def bound (s : Port.State) (cls : Nat → Cls) : Net :=
  ⟨s, cls, fun p => if (s.node p).resolved ∧ (s.node p).imps.length > 0 then Port.getIf s p 0 else none, fun _ => 0⟩

/-- `set_if` 311-314. -/
def setIf (n : Net) (p i : Nat) : Net :=
  let q := Port.getIf n.port p i
  { n with mIf := fun r => if r = p then q else n.mIf r
           defIndex := fun r => if r = p ∧ q.isSome then i else n.defIndex r }

/-- `set_default_index` 325-326. -/
def setDefaultIndex (n : Net) (p i : Nat) : Net :=
  { n with defIndex := fun r => if r = p then i else n.defIndex r }

/-- What comes of a call. -/
inductive Outcome where
  | reached (imp : Nat) (to : Role) (returned : Bool)    -- the method of that name of the implementing component was called
  | noMethod (at' : Nat)                                 -- AttributeError: the port object has no such method
  | notBound                                             -- AttributeError: `None` has no such method
deriving DecidableEq, Repr

/-- A call of a method of an imp object. -/
def callImp (n : Net) (i : Nat) (m : Meth) : Outcome :=
  if m ∈ meths (n.cls i) then .reached i (role (n.cls i) m) (returns m) else .noMethod i

/-- A call of a method of a port, export or imp: forwarded to `m_if`; `write` to all implementations. -/
def call (n : Net) (p : Nat) (m : Meth) : List Outcome :=
  if (n.port.node p).kind = .imp then [callImp n p m]
  else if m ∈ meths (n.cls p) then
    if m = .write then
      (Port.write n.port p).map fun c =>
        match c with
        | .notConnected => .notBound
        | .imp i => callImp n i .write
    else
      match n.mIf p with
      | none => [.notBound]
      | some i => [match callImp n i m with
        | .reached i r v => .reached i r (v && returns m)
        | o => o]
  else [.noMethod p]

end Verif.TlmIf
