import Verif.Model.RegName
/-! # HDL paths as they are used -/
namespace Verif.RegName
open Verif.Text (Str)

/-- A slice of a signal: a path without the punctuation of the text, and either the whole signal or some of its bits. -/
structure Proper (s : Slice) : Prop where
  nonempty : s.path ≠ []
  plain : ',' ∉ s.path ∧ '@' ∉ s.path ∧ '{' ∉ s.path ∧ '}' ∉ s.path
  bits : (s.offset = -1 ∧ s.size = -1) ∨ (0 ≤ s.offset ∧ 0 ≤ s.size)

end Verif.RegName
