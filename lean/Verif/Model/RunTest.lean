import Verif.Model.Factory
import Verif.Model.Cmdline
import Verif.Model.Traverse
/-!
# Model of `run_test` and `find` of the root (src/uvm/base/uvm_root.py)

Fatal reports end the simulation (their action is not changed and `raise_exception_on_die` is set, the defaults).  Running the
phases is one event (see `Verif.Model.PhaseRun`).  Of the tree of components only the names of the root's children are kept.
-/
namespace Verif.RunTest
open Verif.Factory (Env Ty)

inductive Fatal where
  | ttinst | invtst (byCmdline : Bool) | nocomp
deriving DecidableEq, Repr

/-- What `run_test` does, in order. -/
inductive Event where
  | multtst (n : Nat) (chosen : String) (all : List String)   -- 277-278
  | created (t : Ty)                                          -- 290-291: `uvm_test_top` of this type
  | fatal (f : Fatal)
  | resolution                                                -- an exception in the factory (C20)
  | running (asked : String) (t : Option Ty)                  -- 360-367
  | phases                                                    -- 316-325
  | summary                                                   -- 330
  | finish                                                    -- 333
deriving DecidableEq, Repr

/-- 258: the values of `+UVM_TESTNAME=`. -/
def cmdlineTests (p : Cmdline.Proc) : List String := (Cmdline.getArgValues p "+UVM_TESTNAME=".toList []).2.map String.ofList

/-- 263-266: the test to run. -/
def chosen (names : List String) (arg : String) : String := match names with | [] => arg | n :: _ => n

/-- 299-333: from the check that there are components on. -/
def tail (children : List String) (asked : String) (t : Option Ty) (finish : Bool) : List Event :=
  if children.length = 0 then [.fatal .nocomp]
  else [.running asked t, .phases, .summary] ++ if finish then [.finish] else []

/-- 221-333: `run_test`; the events, and the children of the root afterwards. -/
def runTest (e : Env) (f : Factory.Factory) (fuel : Nat) (p : Cmdline.Proc) (finish : Bool) (children : List String) (arg : String) :
    List Event × List String :=
  let names := cmdlineTests p
  let test := chosen names arg
  let mult := if names.length > 1 then [Event.multtst names.length test names] else []          -- 270-278
  if test ≠ "" then
    if "uvm_test_top" ∈ children then (mult ++ [.fatal .ttinst], children)                      -- 283-285
    else match Factory.createByName e f fuel test "" "uvm_test_top" with                        -- 290-291
      | .unknown => (mult ++ [.fatal (.invtst (names.length > 0))], children)                   -- 293-298
      | .found t _ =>
        let children := children ++ ["uvm_test_top"]
        (mult ++ [.created t] ++ tail children test (some t) finish, children)
      | _ => (mult ++ [.resolution], children)
  else (mult ++ tail children "" none finish, children)

/-- What `find` ends with: a component, with or without the warning MMATCH; the TypeError of the warning CMPNFD (417-419 pass the
pattern as verbosity, which is compared with a number, uvm_report_object.py 123). -/
inductive Found where
  | one (c : Nat) | first (c : Nat) | raised
deriving DecidableEq, Repr

/-- 398-422: `find`, on what `find_all` found. -/
def find (l : List Nat) : Found :=
  match l with
  | [] => .raised
  | [c] => .one c
  | c :: _ => .first c

end Verif.RunTest
