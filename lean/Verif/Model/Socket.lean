import Verif.Model.Port
/-!
# Model of TLM2 sockets

src/uvm/tlm2/uvm_tlm2_sockets.py and uvm_tlm2_sockets_base.py (the eight socket classes), uvm_tlm2_imps.py 72-156 (the transport
methods), uvm_tlm2_defines.py (masks), on top of `Verif.Port`.

Sockets are numbered.  The socket `k` itself is the port object `2 * k` (the forward path), its `bw_imp`, `bw_export` or `bw_port`
is the port object `2 * k + 1` (the backward path; blocking sockets have none, their number is not used).  Providers passed to
`connect` are sockets or `None`.
-/
namespace Verif.Socket
open Verif

/-- Initiator, target, pass-through initiator, pass-through target; blocking or not. -/
inductive Role where
  | init | targ | passInit | passTarg
deriving DecidableEq, Repr

structure Ty where
  role : Role
  nb : Bool
deriving DecidableEq, Repr

/-- uvm_tlm2_sockets_base.py: what the socket is (`IS-A`). -/
def fwKind : Role → Port.Kind
  | .init => .port          -- 78-81, 108-110
  | .targ => .imp           -- 65-67, 92-94
  | .passInit => .port      -- 122-124, 152-155
  | .passTarg => .export    -- 138-140, 163-166

/-- What the non-blocking socket has (`HAS-A`): uvm_tlm2_sockets.py 163 (`bw_imp`), 220 (`bw_port`), uvm_tlm2_sockets_base.py 125
(`bw_export`), 141 (`bw_port`). -/
def bwKind : Role → Port.Kind
  | .init => .imp
  | .targ => .port
  | .passInit => .export
  | .passTarg => .port

/-- uvm_tlm2_defines.py. -/
def fwMask (t : Ty) : Nat := if t.nb then 1 <<< 0 else 1 <<< 2
def bwMask : Nat := 1 <<< 1

def fw (k : Nat) : Nat := 2 * k
def bw (k : Nat) : Nat := 2 * k + 1

/-- The port objects of fresh sockets. -/
def node (ty : Nat → Ty) (n : Nat) : Port.Node :=
  let t := ty (n / 2)
  if n % 2 = 0 then Port.fresh (fwKind t.role) (fwMask t) 1 1 else Port.fresh (bwKind t.role) bwMask 1 1

/-- The constructor of a non-blocking initiator, 155-163: the implementing component, and whether an error is reported. -/
def mkNbInit (parent imp : Option Nat) : Option Nat × Bool :=
  match imp with
  | none => (parent, false)
  | some i => (some i, true)

/-- The constructors of targets, 116-121 and 217-224; an error is reported when nothing implements the socket. -/
def mkTarget (parent imp : Option Nat) : Option Nat × Bool :=
  let i := match imp with
    | none => parent
    | some i => some i
  (i, i.isNone)

/-- What is reported by `connect`: the result of the port's own `connect`, and a type mismatch. -/
structure Res where
  port : Port.ConnRes
  mismatch : Bool
deriving DecidableEq, Repr

/-- The type lists `valid_providers` (87-88, 169-171). -/
def validForInit (t p : Ty) : Bool :=
  p.nb == t.nb && match p.role with
    | .passInit | .passTarg | .targ => true
    | .init => false

/-- `connect` of the socket `a`: 86-95 (blocking initiator), 168-194 (non-blocking initiator), 126-132, 229-234 (targets), 253-264,
279-290, 308-319, 335-346 (pass-through sockets: nothing but the port's `connect`). -/
def connect (nm : Nat → String) (ty : Nat → Ty) (s : Port.State) (a : Nat) (b : Option Nat) : Port.State × Res :=
  let r := Port.connect nm s (fw a) (b.map fw)
  if (ty a).role = .init then
    match b with
    | none => (r.1, ⟨r.2, true⟩)
    | some b =>
      if validForInit (ty a) (ty b) then
        if (ty a).nb then ((Port.connect nm r.1 (bw b) (some (bw a))).1, ⟨r.2, false⟩)
        else (r.1, ⟨r.2, false⟩)
      else (r.1, ⟨r.2, true⟩)
  else (r.1, ⟨r.2, false⟩)

/-- A history of `connect` calls. -/
def connects (nm : Nat → String) (ty : Nat → Ty) (s : Port.State) (l : List (Nat × Option Nat)) : Port.State :=
  l.foldl (fun s c => (connect nm ty s c.1 c.2).1) s

/-- What comes of a call: the socket whose component was called; a null delay is an error and calls nobody; there may be no such
method, or nobody connected. -/
inductive Outcome where
  | reached (k : Nat) | nullDelay | notBound | noMethod
deriving DecidableEq, Repr

/-- `m_if` after binding (uvm_port_base.py 668-669). -/
def mIf (s : Port.State) (p : Nat) : Option Nat :=
  if (s.node p).resolved ∧ (s.node p).imps.length > 0 then Port.getIf s p 0 else none

/-- `b_transport` (`nb = false`) and `nb_transport_fw` called on the socket `k`, uvm_tlm2_imps.py 72-80, 149-156. -/
def forward (ty : Nat → Ty) (s : Port.State) (k : Nat) (nb : Bool) (delay : Option Nat) : Outcome :=
  if (ty k).nb ≠ nb then .noMethod
  else match delay with
    | none => .nullDelay
    | some _ =>
      if (ty k).role = .targ then .reached k
      else match mIf s (fw k) with
        | none => .notBound
        | some p => if (ty (p / 2)).nb = nb ∧ (ty (p / 2)).role = .targ then .reached (p / 2) else .noMethod

/-- `nb_transport_bw` called on the socket `k`, 120-127: passed to `bw_port` or `bw_export`; initiators have no such method. -/
def backward (ty : Nat → Ty) (s : Port.State) (k : Nat) (delay : Option Nat) : Outcome :=
  if (ty k).nb = false ∨ (ty k).role = .init then .noMethod
  else match delay with
    | none => .nullDelay
    | some _ =>
      match mIf s (bw k) with
      | none => .notBound
      | some p => .reached (p / 2)

end Verif.Socket
