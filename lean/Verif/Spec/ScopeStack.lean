import Verif.Model.ScopeStack
/-! # What a scope path is (independent of the loops of the code) -/
namespace Verif.ScopeStack

/-- An index-like element starts with an opening bracket. -/
def IndexLike (v : Str) : Prop := ∃ c rest, v = c :: rest ∧ (c = '[' ∨ c = '(' ∨ c = '{')

instance (v : Str) : Decidable (IndexLike v) := by
  match v with
  | [] => exact isFalse (by rintro ⟨c, r, h, _⟩; cases h)
  | c :: r =>
    exact decidable_of_iff (c = '[' ∨ c = '(' ∨ c = '{')
      ⟨fun h => ⟨c, r, rfl, h⟩, by rintro ⟨c', r', h, h'⟩; cases h; exact h'⟩

/-- How an element that is not the first is written. -/
def segment (v : Str) : Str := if IndexLike v then v else '.' :: v

/-- The rendering of a list of open scopes, outermost first. -/
def path : List Str → Str
  | [] => []
  | b :: vs => b ++ (vs.map segment).flatten

/-- The rendering with a current argument. -/
def pathWithArg (scopes : List Str) (arg : Str) : Str :=
  if arg = [] then path scopes
  else if path scopes = [] then arg
  else path scopes ++ '.' :: arg

/-- Properly nested histories: every scope opened by `down` (with a name that is not index-like) is closed by
`up`, every index opened by `down_element` is closed by `up_element`. -/
inductive Nested : List Op → Prop
  | nil : Nested []
  | scope {s ops} : ¬ IndexLike s → Nested ops → Nested (.down s :: ops ++ [.up ['.']])
  | index {e ops} : Nested ops → Nested (.downElement e :: ops ++ [.upElement])
  | append {a b} : Nested a → Nested b → Nested (a ++ b)

end Verif.ScopeStack
