import Verif.Model.SeqMacros
/-! # What the calls of sequence macros should amount to -/
namespace Verif.SeqMacros.Spec

/-- An item wanted by a body: by which sequence, which item, at which priority, whether with random values drawn between the grant and the sending. -/
structure Want where
  seq : Nat
  item : Nat
  prio : Int
  rand : Bool
deriving DecidableEq, Repr

/-- A priority given to a macro; -1: that of the sequence. -/
def effective (own given : Int) : Int := if given < 0 then own else given

/-- The items of the body of `me`, which has priority `pr`, in program order, those of the sequences it starts in their place. -/
def wanted (env : Env) : Nat → Nat → Int → List Want
  | 0, _, _ => []
  | n + 1, me, pr => (env.body me).flatMap fun c => match c with
    | .do_ x _ p => if env.isSeq (env.over (env.type x)) then wanted env n x (effective pr p) else [⟨me, x, effective pr p, true⟩]
    | .send x p => if env.isSeq (env.type x) then wanted env n x (effective pr p) else [⟨me, x, effective pr p, false⟩]
    | .items x p _ => [⟨me, x, effective pr p, false⟩]

/-- The items a sequencer was given, each with its sequence, the priority of the grant before it and whether random values were drawn since. -/
def sent : Int → Bool → List Ev → List Want
  | _, _, [] => []
  | _, _, .grant _ _ p :: l => sent p false l
  | pr, _, .randomized _ :: l => sent pr true l
  | pr, r, .send me _ x :: l => ⟨me, x, pr, r⟩ :: sent pr r l
  | pr, r, _ :: l => sent pr r l

/-- The events around an item: after the grant `pre_do`, then (by a `do` macro) random values, `mid_do` and nothing else; after it the end of the item, of its
recording and `post_do`. -/
def Framed (l : List Ev) : Prop :=
  ∀ a b me q x, l = a ++ .send me q x :: b →
    (∃ a' p r, a = a' ++ ([.grant me q p, .preDo me true] ++ (if r = true then [.randomized x] else []) ++ [.midDo me x])) ∧
    (∃ b', b = [.done me q, .endTr q x, .postDo me x] ++ b')

/-- Each grant is used. -/
def GrantsUsed (l : List Ev) : Prop :=
  (l.filter fun e => match e with | .grant .. => true | _ => false).length = (l.filter fun e => match e with | .send .. => true | _ => false).length

end Verif.SeqMacros.Spec
