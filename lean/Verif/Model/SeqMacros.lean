/-!
# Model of the sequence macros (src/uvm/macros/uvm_sequence_defines.py) with the calls they make (src/uvm/seq/uvm_sequence_base.py)

A sequence is a number with a body, which is a list of macro calls; items are numbers too.  What happens is a list of events: the calls of the
sequencer, of the hooks and of `randomize_with`.  The sequencer grants and finishes every request in the end (`Verif.Model.Sequencer`): only the order of the
calls of one sequence and of those it starts is modelled.  Hooks and constraints do not change the items' sequencers and priorities.  A fatal report ends
the run.  Random failure (a warning) is left out.
-/
namespace Verif.SeqMacros

/-- What is called, with whom. -/
inductive Ev where
  | created (type : Nat) (by_ : Nat) (sqr : Option Nat)
  | grant (seq sqr : Nat) (prio : Int)
  | preDo (seq : Nat) (isItem : Bool)
  | randomized (x : Nat)
  | midDo (seq x : Nat)
  | send (seq sqr x : Nat)
  | done (seq sqr : Nat)
  | endTr (sqr x : Nat)
  | postDo (seq x : Nat)
  | preStart (seq : Nat)
  | body (seq : Nat)
  | postStart (seq : Nat)
deriving DecidableEq, Repr

/-- The sequencer given to a macro: that of the calling sequence (93, 114, 124) or another. -/
inductive Target where
  | own | on (q : Option Nat)
deriving DecidableEq, Repr

/-- The macro calls of a body. -/
inductive Cmd where
  | do_ (x : Nat) (q : Target) (prio : Int)      -- 204-228 `uvm_do_on_pri_with`; `uvm_do`, `uvm_do_with`, `uvm_do_on`, ... call it
  | send (x : Nat) (prio : Int)                  -- 263-279 `uvm_send_pri`, `uvm_send`
  | items (x : Nat) (prio : Int) (q : Option Nat) -- `start_item(x, prio, q)` and `finish_item(x)` without a macro
deriving DecidableEq, Repr

/-- What is fixed: the type of each object, which type the factory makes instead (`Verif.Model.Factory`), which types are sequences, the bodies,
`do_not_randomize`. -/
structure Env where
  type : Nat → Nat
  over : Nat → Nat
  isSeq : Nat → Bool
  body : Nat → List Cmd
  noRand : Nat → Bool

structure St where
  parent : Nat → Option Nat := fun _ => none
  sqr : Nat → Option Nat := fun _ => none
  prio : Nat → Int := fun _ => -1
  running : Nat → Bool := fun _ => false
  log : List Ev := []

inductive Out where
  | ok | fatal | fuel
deriving DecidableEq, Repr

def upd {α : Type} (f : Nat → α) (i : Nat) (v : α) : Nat → α := fun j => if j = i then v else f j

def St.add (s : St) (l : List Ev) : St := { s with log := s.log ++ l }

/-- uvm_sequence_item.py 118-136: `set_item_context`, for a parent that is not None. -/
def setContext (s : St) (x me : Nat) (q : Option Nat) : St :=
  { s with parent := upd s.parent x (some me), sqr := upd s.sqr x (q.or (s.sqr me)) }

/-- uvm_sequence_base.py 981-1034: `start_item`. -/
def startItem (s : St) (me x : Nat) (prio : Int) (q : Option Nat) : St × Out :=
  match (q.or (s.sqr x)).or (s.sqr me) with                                   -- 1011-1015
  | none => (s, .fatal)                                                     -- 1017-1019
  | some q =>
    let s := setContext s x me (some q)                                     -- 1021
    (s.add [.grant me q (if prio < 0 then s.prio me else prio), .preDo me true], .ok)   -- 1023-1034

/-- uvm_sequence_base.py 1036-1061: `finish_item`. -/
def finishItem (s : St) (me x : Nat) : St × Out :=
  match s.sqr x with
  | none => (s, .fatal)
  | some q => (s.add [.midDo me x, .send me q x, .done me q, .endTr q x, .postDo me x], .ok)

/-- Go on unless a fatal report was made. -/
def andThen (r : St × Out) (f : St → St × Out) : St × Out :=
  match r.2 with
  | .ok => f r.1
  | _ => r

/-- uvm_sequence_base.py 261-427: `start(q, me, prio, 0)` called by the sequence `me`; `sub`: runs a body.  The parts that concern objections and states are in
`Verif.Model.SeqStart`. -/
def start (sub : Nat → St → St × Out) (s : St) (x me : Nat) (q : Option Nat) (prio : Int) : St × Out :=
  let s := setContext s x me q                                               -- 297
  if s.running x then (s, .fatal)                                            -- 299-301
  else if prio < -1 then (s, .fatal)                                         -- 306-308
  else
    let s := { s with prio := upd s.prio x (if prio < 0 then s.prio me else prio), running := upd s.running x true }
    andThen (sub x (s.add [.preStart x, .preDo me false, .midDo me x, .body x]))    -- 372-408
      fun s => (({ s with running := upd s.running x false } : St).add [.postDo me x, .postStart x], .ok)

/-- The sequencer given. -/
def Target.get (s : St) (me : Nat) : Target → Option Nat
  | .own => s.sqr me
  | .on q => q

/-- One macro call of the sequence `me`. -/
def exec (env : Env) (sub : Nat → St → St × Out) (me : Nat) (s : St) : Cmd → St × Out
  | .do_ x t prio =>
    let q := t.get s me
    let made := env.over (env.type x)
    let s := s.add [.created made me (q.or (s.sqr me))]                       -- 217, 137-149: the object made is used for its class only
    if env.isSeq made then                                                   -- 218
      let s := if env.noRand x then s else s.add [.randomized x]             -- 219-221
      start sub s x me q prio                                               -- 222
    else
      andThen (startItem s me x prio none) fun s =>                         -- 225
        finishItem (s.add [.randomized x]) me x                             -- 226-228
  | .send x prio =>
    if env.isSeq (env.type x) then start sub s x me (s.sqr x) prio            -- 276
    else andThen (startItem s me x prio none) fun s => finishItem s me x       -- 278-279
  | .items x prio q => andThen (startItem s me x prio q) fun s => finishItem s me x

/-- The body of a sequence; the depth of sequences that start sequences is bounded by the fuel. -/
def runBody (env : Env) : Nat → Nat → St → St × Out
  | 0, _, s => (s, .fuel)
  | n + 1, me, s => (env.body me).foldl (fun r c => andThen r fun s => exec env (runBody env n) me s c) (s, .ok)

end Verif.SeqMacros
