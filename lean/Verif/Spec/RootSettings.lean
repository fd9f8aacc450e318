import Verif.Model.RootSettings
import Verif.Spec.SvText
/-! # Words for settings from the command line -/
namespace Verif.RootSettings
open Verif.Text (Str)
open Verif.SvText (Denotes)

/-- A number as it can be written in a setting: decimal with or without a sign, or with a base in front. -/
inductive Numeral : Str → Int → Prop
  | dec {s : Str} {n : Nat} : Denotes 10 s n → Numeral s n
  | neg {s : Str} {n : Nat} : Denotes 10 s n → Numeral ('-' :: s) (-(n : Int))
  | bin {b : String} {s : Str} {n : Nat} : b = "'b" ∨ b = "0b" → Denotes 2 s n → Numeral (b.toList ++ s) n
  | oct {s : Str} {n : Nat} : Denotes 8 s n → Numeral ("'o".toList ++ s) n
  | dec' {s : Str} {n : Nat} : Denotes 10 s n → Numeral ("'d".toList ++ s) n
  | hex {b : String} {s : Str} {n : Nat} : b = "'h" ∨ b = "'x" ∨ b = "0x" → Denotes 16 s n → Numeral (b.toList ++ s) n

/-- The argument `a` sets field `f` of component(s) `c` to the number `n`. -/
def IntArg (a c f : Str) (n : Int) : Prop :=
  ∃ (name : String) (t : Str), (name = "+uvm_set_config_int=" ∨ name = "+UVM_SET_CONFIG_INT=") ∧ ',' ∉ c ∧ ',' ∉ f ∧ Numeral t n ∧
    a = name.toList ++ (c ++ ',' :: (f ++ ',' :: t))

/-- The argument `a` sets field `f` of component(s) `c` to the text `t`. -/
def StrArg (a c f t : Str) : Prop :=
  ∃ name : String, (name = "+uvm_set_config_string=" ∨ name = "+UVM_SET_CONFIG_STRING=") ∧ ',' ∉ c ∧ ',' ∉ f ∧ ',' ∉ t ∧
    a = name.toList ++ (c ++ ',' :: (f ++ ',' :: t))

/-- The argument does not begin like a setting. -/
def Unrelated (a : Str) : Prop :=
  ∀ name ∈ ["+uvm_set_config_int", "+UVM_SET_CONFIG_INT", "+uvm_set_config_string", "+UVM_SET_CONFIG_STRING"], ¬ name.toList <+: a

/-- The integer settings and the text settings of a command line whose settings are all well formed, in order. -/
inductive Line : List Str → List Cfg → List Cfg → Prop
  | nil : Line [] [] []
  | int {a c f : Str} {n : Int} {as : List Str} {is ss : List Cfg} : IntArg a c f n → Line as is ss → Line (a :: as) (.set c f (.int n) :: is) ss
  | str {a c f t : Str} {as : List Str} {is ss : List Cfg} : StrArg a c f t → Line as is ss → Line (a :: as) is (.set c f (.str t) :: ss)
  | other {a : Str} {as : List Str} {is ss : List Cfg} : Unrelated a → Line as is ss → Line (a :: as) is ss

/-- `pre ++ v` is the first argument that begins with `pre`. -/
def First (argv : List Str) (pre v : Str) : Prop := ∃ l r, argv = l ++ (pre ++ v) :: r ∧ ∀ a ∈ l, ¬ pre <+: a

/-- `x` is `c` or below it. -/
inductive Desc (kids : Nat → List Nat) (c : Nat) : Nat → Prop
  | refl : Desc kids c c
  | step {p x : Nat} : Desc kids c p → x ∈ kids p → Desc kids c x

/-- The named verbosities. -/
def named : List (String × Int) :=
  [("NONE", 0), ("UVM_NONE", 0), ("LOW", 100), ("UVM_LOW", 100), ("MEDIUM", 200), ("UVM_MEDIUM", 200), ("HIGH", 300), ("UVM_HIGH", 300),
    ("FULL", 400), ("UVM_FULL", 400), ("DEBUG", 500), ("UVM_DEBUG", 500)]

/-- The value a history of `set_timeout` calls leaves: that of the first call that forbids to override it, else that of the
last one. -/
def timeoutAfter (start : SvText.Val) : List (SvText.Val × Bool) → SvText.Val
  | [] => start
  | (v, true) :: cs => timeoutAfter v cs
  | (v, false) :: _ => v

end Verif.RootSettings
