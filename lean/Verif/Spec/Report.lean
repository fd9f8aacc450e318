import Verif.Model.Report
/-! # What the report machinery promises, in terms of the history of calls -/
namespace Verif.Report

/-- The first severity is lower than the second: info < warning < error < fatal. -/
def Lower (a b : Sev) : Prop :=
  (a, b) ∈ [(.info, .warning), (.info, .error), (.info, .fatal), (.warning, .error), (.warning, .fatal), (Sev.error, Sev.fatal)]

@[inherit_doc] scoped infix:50 " ≺ " => Lower

instance (a b : Sev) : Decidable (a ≺ b) := inferInstanceAs (Decidable (_ ∈ _))

/-- The argument of the last call of a history that `f` selects. -/
def lastOf {α : Type} (f : HOp → Option α) (ops : List HOp) : Option α := (ops.filterMap f).getLast?

/-! Which calls set what. -/
def pairAction (s : Sev) (i : String) : HOp → Option Nat
  | .setSevIdAction s' i' a => if s' = s ∧ i' = i then some a else none
  | _ => none
def idAction (i : String) : HOp → Option Nat
  | .setIdAction i' a => if i' = i then some a else none
  | _ => none
/-- The documented default actions. -/
def defaultAction : Sev → Nat
  | .info => 1 | .warning => 1 | .error => 1 + 4 | .fatal => 1 + 8
def sevAction (s : Sev) : HOp → Option Nat
  | .setSevAction s' a => if s' = s then some a else none
  | .reset => some (defaultAction s)
  | _ => none

def pairVerb (s : Sev) (i : String) : HOp → Option Int
  | .setSevIdVerbosity s' i' a => if s' = s ∧ i' = i then some a else none
  | _ => none
def idVerb (i : String) : HOp → Option Int
  | .setIdVerbosity i' a => if i' = i then some a else none
  | _ => none
/-- The overall level; UVM_MEDIUM = 200 by default. -/
def levelVerb : HOp → Option Int
  | .setVerbosityLevel v => some v
  | .reset => some 200
  | _ => none

def pairFile (s : Sev) (i : String) : HOp → Option Nat
  | .setSevIdFile s' i' a => if s' = s ∧ i' = i then some a else none
  | _ => none
def idFile (i : String) : HOp → Option Nat
  | .setIdFile i' a => if i' = i then some a else none
  | _ => none
/-- A reset makes a severity follow the default file again (recorded as file 0). -/
def sevFile (s : Sev) : HOp → Option Nat
  | .setSevFile s' a => if s' = s then some a else none
  | .reset => some 0
  | _ => none
def dflFile : HOp → Option Nat
  | .setDefaultFile a => some a
  | .reset => some 0
  | _ => none

def pairOvr (s : Sev) (i : String) : HOp → Option Sev
  | .setSevIdOverride s' i' t => if s' = s ∧ i' = i then some t else none
  | _ => none
def sevOvr (s : Sev) : HOp → Option Sev
  | .setSevOverride s' t => if s' = s then some t else none
  | _ => none
/-- The call is a severity-id override for this id (any severity). -/
def isIdOvr (i : String) : HOp → Bool
  | .setSevIdOverride _ i' _ => i' = i
  | _ => false

/-- Pair, else id, else severity, else default. -/
def specAction (ops : List HOp) (s : Sev) (i : String) : Nat :=
  (((lastOf (pairAction s i) ops).or (lastOf (idAction i) ops)).or (lastOf (sevAction s) ops)).getD (defaultAction s)

def specVerb (ops : List HOp) (s : Sev) (i : String) : Int :=
  (((lastOf (pairVerb s i) ops).or (lastOf (idVerb i) ops)).or (lastOf levelVerb ops)).getD 200

/-- The documented precedence for files: pair, else id, else severity, else default. -/
def specFile (ops : List HOp) (s : Sev) (i : String) : Nat :=
  (((lastOf (pairFile s i) ops).or (lastOf (idFile i) ops)).or ((lastOf (sevFile s) ops).filter (· ≠ 0))).getD
    ((lastOf dflFile ops).getD 0)

/-- What the code does instead: the first setting that is not 0. -/
def firstNonZero (ops : List HOp) (s : Sev) (i : String) : Nat :=
  ((((lastOf (pairFile s i) ops).filter (· ≠ 0)).or ((lastOf (idFile i) ops).filter (· ≠ 0))).or
    ((lastOf (sevFile s) ops).filter (· ≠ 0))).getD ((lastOf dflFile ops).getD 0)

/-- The severity a message is processed with: ids that have severity-id overrides use those only. -/
def specOverride (ops : List HOp) (s : Sev) (i : String) : Sev :=
  if ops.any (isIdOvr i) then (lastOf (pairOvr s i) ops).getD s else (lastOf (sevOvr s) ops).getD s

/-! ## Counting -/

/-- The messages executed, in order. -/
def executed (fx : List Fx) : List Msg :=
  fx.filterMap fun
    | .exec m => some m
    | _ => none

/-- The severity count after one more call with the given effects. -/
def sevTally (s : Sev) (n : Nat) : Op × (List Fx × Option Exc) → Nat
  | (.setSevCount s' k, _) => if s' = s then k.toNat else n
  | (.resetSevCounts, _) => 0
  | (_, r) => n + (executed r.1).countP (·.sev = s)

def idTally (i : String) (n : Nat) : Op × (List Fx × Option Exc) → Nat
  | (.setIdCount i' k, _) => if i' = i then k.toNat else n
  | (_, r) => n + (executed r.1).countP (·.id = i)

/-- A message whose action has the COUNT flag. -/
def counted (m : Msg) : Bool := m.action.testBit 2
def exits (m : Msg) : Bool := m.action.testBit 3
def records (m : Msg) : Bool := m.action.testBit 6

/-! ## Catchers -/

/-- The change a statement of a catcher makes to the message. -/
def modify (m : Msg) : CatAct → Msg
  | .setSeverity v => { m with sev := v }
  | .setAction a => { m with action := a }
  | .setId i => { m with id := i }
  | .setMessage t => { m with text := t }
  | .setVerbosity v => { m with verb := v }
  | .issue => m
  | .report .. => m

def isSetAction : CatAct → Bool
  | .setAction _ => true
  | _ => false

def quiet : CatAct → Bool
  | .issue => false
  | .report .. => false
  | _ => true

/-- A catcher that only modifies the message and returns THROW or CAUGHT. -/
def Quiet (e : Entry) : Prop :=
  e.isCatcher = true ∧ ∀ m, (∀ a ∈ (e.catch_ m).1, quiet a = true) ∧ ((e.catch_ m).2 = .throw ∨ (e.catch_ m).2 = .caught)

/-- The message a catcher leaves: its modifications, and, when it changed the severity but did not choose an action, the
action of the new severity if the message had the action of the old one. -/
def leaves (h : Handler) (e : Entry) (m : Msg) : Msg :=
  if (e.catch_ m).1.any isSetAction = false ∧ ((e.catch_ m).1.foldl modify m).sev ≠ m.sev ∧
      ((e.catch_ m).1.foldl modify m).action = getAction h m.sev probeId then
    { (e.catch_ m).1.foldl modify m with action := getAction h ((e.catch_ m).1.foldl modify m).sev probeId }
  else (e.catch_ m).1.foldl modify m

/-- The message after all enabled catchers, or the message as the catching catcher left it. -/
inductive Fate where
  | passes (m : Msg) | isCaught (m : Msg)
deriving DecidableEq, Repr

def Fate.msg : Fate → Msg
  | .passes m => m
  | .isCaught m => m

/-- The catchers in order; the first one that returns CAUGHT ends the chain. -/
def specChain (h : Handler) : List Entry → Msg → Fate
  | [], m => .passes m
  | e :: q, m =>
    if e.enabled = false then specChain h q m
    else if (e.catch_ m).2 = .caught then .isCaught (leaves h e m)
    else specChain h q (leaves h e m)

end Verif.Report
