import Verif.Model.Cmdline
import Verif.Model.SvText
import Verif.Model.Report
/-!
# Model of the settings the root takes from the command line (src/uvm/base/uvm_root.py 151-154, 370-391, 516-851), of the
hierarchical report settings (src/uvm/base/uvm_component.py 280, 1590-1713) and of the settings for a time or a phase
(2396-2425, 2571-2599)

The database, the factory and the report server are seen through the calls made on them.  Strings are lists of characters.
Information messages are not modelled; warnings and errors are.
-/
namespace Verif.RootSettings
open Verif.Text (Str splitOn)
open Verif.SvText (pyInt sscanf)
open Verif.Cmdline (Proc getArgValues convertVerb)
open Verif.Report (Handler HOp hstep newHandler)

/-! ## Configuration values -/

inductive Val where
  | int (n : Int) | str (s : Str)
deriving DecidableEq, Repr

/-- What processing one setting does: a call of `UVMConfigDb.set(root, comp, field, value)`, an error report, or an exception. -/
inductive Cfg where
  | set (comp field : Str) (v : Val) | error | raised
deriving DecidableEq, Repr

/-- uvm_root.py 749-765: the number in a setting. -/
def cfgInt (s : Str) : Option Int :=
  if s.length > 2 then
    let base := s.take 2
    let ext := s.drop 2
    if base = "'b".toList ∨ base = "0b".toList then pyInt 2 ext
    else if base = "'o".toList then pyInt 8 ext
    else if base = "'d".toList then pyInt 10 ext
    else if base = "'h".toList ∨ base = "'x".toList ∨ base = "0x".toList then pyInt 16 ext
    else pyInt 10 s
  else pyInt 10 s

/-- 719-775: `m_process_config`. -/
def processConfig (cfg : Str) (isInt : Bool) : Cfg :=
  match splitOn ',' cfg with
  | [c, f, v] =>
    if isInt then
      match cfgInt v with
      | none => .raised
      | some n => .set c f (.int n)
    else .set c f (.str v)
  | _ => .error

/-- `get_arg_matches` with an expression `/^\+(UPPER|lower)=/`: the last character of the expression is lost (C106), so `=` is
not asked for. -/
def argsNamed (upper lower : String) (argv : List Str) : List Str :=
  argv.filter fun a => upper.toList.isPrefixOf a || lower.toList.isPrefixOf a

/-- The loops 651-657: an exception ends everything. -/
def processAll : List Cfg → List Cfg
  | [] => []
  | .raised :: _ => [.raised]
  | c :: cs => c :: processAll cs

/-- 642-658: `m_do_config_settings`. -/
def doConfigSettings (argv : List Str) : List Cfg :=
  processAll ((argsNamed "+UVM_SET_CONFIG_INT" "+uvm_set_config_int" argv).map (fun a => processConfig (a.drop 20) true) ++
    (argsNamed "+UVM_SET_CONFIG_STRING" "+uvm_set_config_string" argv).map fun a => processConfig (a.drop 23) false)

/-! ## Overrides -/

/-- What processing an override does. -/
inductive Ovr where
  | inst (req ovr path : Str) | type (req ovr : Str) (replace : Bool) | error
deriving DecidableEq, Repr

/-- 610-631: `m_process_inst_override`. -/
def processInst (v : Str) : List Ovr :=
  match splitOn ',' v with
  | [r, o, p] => [.inst r o p]
  | _ => [.error]

/-- 634-640: `m_process_type_override` is empty. -/
def processType (_ : Str) : List Ovr := []

/-- 593-607: `m_do_factory_settings`. -/
def doFactorySettings (argv : List Str) : List Ovr :=
  (argsNamed "+UVM_SET_INST_OVERRIDE" "+uvm_set_inst_override" argv).flatMap (fun a => processInst (a.drop 23)) ++
    (argsNamed "+UVM_SET_TYPE_OVERRIDE" "+uvm_set_type_override" argv).flatMap fun a => processType (a.drop 23)

/-! ## The maximum quit count -/

/-- The value of `max_quit_overridable`: only `False` itself is `False` (`0 is False` does not hold). -/
inductive Flag where
  | bool (b : Bool) | int (n : Int)
deriving DecidableEq, Repr

structure Quit where
  count : Int
  flag : Flag
deriving DecidableEq, Repr

/-- uvm_report_server.py 193-203: `set_max_quit_count`. -/
def setMaxQuit (q : Quit) (count : Int) (overridable : Flag) : Quit :=
  if q.flag = .bool false then q else ⟨if count < 0 then 0 else count, overridable⟩

/-- 684-701, after the first setting has been chosen; `none` when `int` raises. -/
def maxQuitOf (q : Quit) (v : Str) : Option Quit :=
  match splitOn ',' v with
  | [] => none
  | t :: rest =>
    match pyInt 10 t with
    | none => none
    | some n => match rest with
      | [] => some (setMaxQuit q n (.int 1))
      | w :: _ => if w = "YES".toList then some (setMaxQuit q n (.int 1))
        else if w = "NO".toList then some (setMaxQuit q n (.int 0))
        else some q

/-- 661-701: `m_do_max_quit_settings`. -/
def doMaxQuit (p : Proc) (q : Quit) : Option Quit :=
  match (getArgValues p "+UVM_MAX_QUIT_COUNT=".toList []).2 with
  | [] => some q
  | v :: _ => maxQuitOf q v

/-! ## The timeout -/

/-- `phase_timeout` (an integer or, as the code has it, a text) and `m_uvm_timeout_overridable`. -/
structure Timeout where
  value : SvText.Val
  flag : Int
deriving DecidableEq, Repr

/-- uvm_root.py 370-391: `set_timeout`. -/
def setTimeout (t : Timeout) (value : SvText.Val) (overridable : Int) : Timeout :=
  if t.flag = 0 then t else ⟨value, overridable⟩

/-- 582-590: the two values of `sscanf` are assigned in the wrong order. -/
def timeoutOf (t : Timeout) (v : Str) : Option Timeout :=
  match sscanf v "%d,%s".toList with
  | none => none
  | some ms =>
    let r : SvText.Val × SvText.Val := match ms with
      | [a, b] => (a, b)
      | _ => (.str [], .int 0)
    if r.1 = .str "YES".toList then some (setTimeout t r.2 1)
    else if r.1 = .str "NO".toList then some (setTimeout t r.2 0)
    else some (setTimeout t r.2 1)

/-- 553-590: `m_do_timeout_settings`. -/
def doTimeout (p : Proc) (t : Timeout) : Option Timeout :=
  match (getArgValues p "+UVM_TIMEOUT=".toList []).2 with
  | [] => some t
  | v :: _ => timeoutOf t v

/-! ## Verbosity -/

/-- 812-849: the verbosity and whether the warning was given; `none` when `int` raises. -/
def verbOf (s : Str) : Option (Int × Bool) :=
  if convertVerb s ≠ -1 then some (convertVerb s, false)
  else match pyInt 10 s with
    | none => none
    | some n => if n = 0 then some (200, true) else some (n, false)

/-- 780-851: `m_check_verbosity`, up to the verbosity that is set. `verb_settings.append("")` comes after the first. -/
def checkVerbosity (p : Proc) : Option (Int × Bool) :=
  match (getArgValues p "+UVM_VERBOSITY=".toList []).2 with
  | [] => some (200, false)
  | v :: _ => verbOf v

/-- Warnings of `m_do_verbosity_settings`: wrong number of fields, wrong verbosity, for a setting. -/
inductive Warn where
  | args (s : Str) | verb (s : Str)
deriving DecidableEq, Repr

/-- 531-550: the list `split_vals` is not emptied between settings. `none` when it raises (`IndexError`). -/
def verbWarnings : List Str → List Str → Option (List Warn)
  | _, [] => some []
  | sv, v :: vs =>
    let sv := sv ++ splitOn ',' v
    let w1 := if sv.length < 4 ∨ sv.length > 5 then [Warn.args v] else []
    match sv[2]? with
    | none => none
    | some s =>
      let w2 := if convertVerb s = -1 then [Warn.verb v] else []
      (verbWarnings sv vs).map fun l => w1 ++ w2 ++ l

def doVerbositySettings (p : Proc) : Option (List Warn) := verbWarnings [] (getArgValues p "+uvm_set_verbosity=".toList []).2

/-! ## Hierarchical report settings -/

/-- The components: their children and their report handlers; components are numbers in order of creation, 0 is the root. -/
structure Comps where
  kids : Nat → List Nat
  h : Nat → Handler
  next : Nat

/-- 151-154: the root with the verbosity from the command line. -/
def root (v : Int) : Comps := ⟨fun _ => [], fun _ => hstep newHandler (.setVerbosityLevel v), 1⟩

def setH (h : Nat → Handler) (c : Nat) (x : Handler) : Nat → Handler := fun d => if d = c then x else h d

/-- uvm_component.py 1601-1713: the functions `set_report_..._hier`: the setting for the component, then the same for every
child. The first argument bounds the depth of the recursion (`none` when exceeded). -/
def hier (op : HOp) (kids : Nat → List Nat) : Nat → Nat → (Nat → Handler) → Option (Nat → Handler)
  | 0, _, _ => none
  | n + 1, c, h => (kids c).foldl (fun acc d => acc.bind fun h => hier op kids n d h) (some (setH h c (hstep (h c) op)))

inductive Op where
  /-- A component is created; it takes the verbosity of its parent (uvm_component.py 280). -/
  | new (parent : Nat)
  | hier (c : Nat) (op : HOp)
  | one (c : Nat) (op : HOp)

def step (s : Comps) : Op → Comps
  | .new p =>
    if p < s.next then
      { kids := fun d => if d = p then s.kids d ++ [s.next] else s.kids d
        h := setH s.h s.next (hstep newHandler (.setVerbosityLevel (s.h p).maxVerb))
        next := s.next + 1 }
    else s
  | .hier c op => if c < s.next then { s with h := (hier op s.kids s.next c s.h).getD s.h } else s
  | .one c op => if c < s.next then { s with h := setH s.h c (hstep (s.h c) op) } else s

/-! ## Settings for a time and for a phase -/

/-- A setting of the verbosity; `id = none` for `_ALL_`. -/
structure Setting where
  id : Option Str
  verb : Int
  phase : Str
  off : Int
deriving DecidableEq, Repr

/-- 2411-2414: the settings in order of time; each is started to wait for the difference to the one before it. -/
def durations : Int → List Setting → List (Int × Setting)
  | _, [] => []
  | last, x :: xs => (x.off - last, x) :: durations x.off xs

/-- 2402-2415: `m_fork_time_settings` at time 0: when each setting is made (2418-2425: it waits for its duration). -/
def forkTimes (l : List Setting) : List (Int × Setting) := durations 0 (l.mergeSort fun a b => decide (a.off ≤ b.off))

/-- 2571-2599: `m_apply_verbosity_settings`: the settings themselves are used as indices into their list, which raises
(`none`). -/
def applyPhase (pending : List Setting) (_phase : Str) (h : Handler) : Option Handler :=
  match pending with
  | [] => some h
  | _ :: _ => none

end Verif.RootSettings
