import Verif.Model.Text
/-! # Specification vocabulary for strings -/
namespace Verif.Text

/-- The words of a list joined by a separator (`c.join(words)`). -/
def joinWith (c : Char) : List Str → Str
  | [] => []
  | [w] => w
  | w :: v :: ws => w ++ c :: joinWith c (v :: ws)

/-- The flag each action name stands for, as bit number; `UVM_NO_ACTION` has none. -/
def actionBits : List (Str × Nat) :=
  [("UVM_DISPLAY".toList, 0), ("UVM_LOG".toList, 1), ("UVM_COUNT".toList, 2), ("UVM_EXIT".toList, 3),
   ("UVM_CALL_HOOK".toList, 4), ("UVM_STOP".toList, 5), ("UVM_RM_RECORD".toList, 6)]

def severities : List (Str × Int) :=
  [("UVM_INFO".toList, 0), ("UVM_WARNING".toList, 1), ("UVM_ERROR".toList, 2), ("UVM_FATAL".toList, 3)]

/-- `Glob p s`: the text `s` is obtained from the pattern `p` by replacing each `*` by some text and each `?` by one
character, other characters standing for themselves. -/
inductive Glob : Str → Str → Prop
  | nil : Glob [] []
  | star (t : Str) {p s : Str} : Glob p s → Glob ('*' :: p) (t ++ s)
  | quest (x : Char) {p s : Str} : Glob p s → Glob ('?' :: p) (x :: s)
  | lit {c : Char} (h1 : c ≠ '*') (h2 : c ≠ '?') {p s : Str} : Glob p s → Glob (c :: p) (c :: s)

/-- The pieces of a glob match exactly the texts obtained from it, without newlines in place of wildcards. -/
inductive GlobL : Str → Str → Prop
  | nil : GlobL [] []
  | star (t : Str) (ht : '\n' ∉ t) {p s : Str} : GlobL p s → GlobL ('*' :: p) (t ++ s)
  | quest (x : Char) (hx : x ≠ '\n') {p s : Str} : GlobL p s → GlobL ('?' :: p) (x :: s)
  | lit {c : Char} (h1 : c ≠ '*') (h2 : c ≠ '?') {p s : Str} : GlobL p s → GlobL (c :: p) (c :: s)

/-- A pattern none of whose characters is special in a regular expression, apart from `*`, `?`, `.`, `[`, `]`, and
that is not of the form `/.../`. -/
def plain (p : Str) : Prop :=
  (∀ c ∈ p, c ∉ ['^', '$', '{', '}', '(', ')', '|', '+', '\\']) ∧
  ¬ (p.head? = some '/' ∧ p.getLast? = some '/')

/-- The big-endian value of a list of bytes: first character most significant. -/
def bytesBE : List Nat → Nat
  | [] => 0
  | b :: bs => b * 256 ^ bs.length + bytesBE bs

end Verif.Text
