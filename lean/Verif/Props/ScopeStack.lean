import Verif.Lemmas.ScopeStack
/-! # C05: the scope stack renders the path of its open scopes -/
namespace Verif.ScopeStack

/-- C05. In every state whose argument is a string, `get()` is the rendering of the open scopes and the
argument. -/
theorem C05_get_renders_path (scopes : List Str) (arg : Str) :
    get ⟨scopes, .str arg⟩ = .str (pathWithArg scopes arg) := by
  cases scopes with
  | nil => simp [get, pathWithArg, path]
  | cons b vs =>
    simp only [get, joinLoop_eq, pathWithArg, path]
    by_cases ha : arg = []
    · simp [ha]
    · by_cases hg : b ++ (vs.map segment).flatten = []
      · simp only [hg]; simp [ha]
      · simp only [ha, hg]; simp [ha, hg]

/-- C05. After every history: the open scopes evolve as documented.  `down`/`down_element` append a scope, `up`
closes the trailing index-like elements together with the innermost plain scope, `up_element` closes a
trailing index only; `set_arg`/`unset_arg` leave the scopes alone. -/
theorem C05_operations (s : State) (x : Str) (e : Str) :
    (step s (.down x)).stack = s.stack ++ [x] ∧
    (step s (.downElement e)).stack = s.stack ++ ["[".toList ++ e ++ "]".toList] ∧
    (∀ pre p post, s.stack = pre ++ p :: post → ¬ IndexLike p → (∀ v ∈ post, IndexLike v) →
      (step s (.up ".".toList)).stack = pre) ∧
    ((∀ v ∈ s.stack, IndexLike v) → (step s (.up ".".toList)).stack = []) ∧
    (∀ pre rest, s.stack = pre ++ ['[' :: rest] → (step s .upElement).stack = pre) ∧
    (∀ pre c rest, s.stack = pre ++ [c :: rest] → c ≠ '[' → (step s .upElement) = s) ∧
    (step s (.setArg x)).stack = s.stack ∧ (step s (.unsetArg x)).stack = s.stack ∧
    (x ≠ [] → (step s (.setArg x)).arg = .str x) ∧
    (s.arg = .str x → (step s (.unsetArg x)).arg = .str []) ∧
    (s.arg ≠ .str x → step s (.unsetArg x) = s) := by
  refine ⟨rfl, rfl, ?_, ?_, ?_, ?_, ?_, ?_, ?_, ?_, ?_⟩
  · intro pre p post h hp hpost
    show (upLoop ['.'] s.stack.reverse).reverse = pre
    rw [h]
    simp only [List.reverse_append, List.reverse_cons, List.append_assoc, List.singleton_append]
    rw [upLoop_dot post.reverse pre.reverse p (by simpa using hpost) hp]
    simp
  · intro h
    show (upLoop ['.'] s.stack.reverse).reverse = []
    rw [upLoop_dot_all _ (by simpa using h)]; rfl
  · intro pre rest h; simp [step, h]
  · intro pre c rest h hc; simp [step, h, hc]
  · simp only [step]; split <;> rfl
  · simp only [step]; split <;> rfl
  · intro hx; simp [step, hx]
  · intro h; simp [step, h]
  · intro h; simp [step, h]

/-- C05. Opening, closing or replacing scopes always drops the current argument; `set` leaves exactly one scope. -/
theorem C05_scope_changes_drop_argument (s : State) (x e sep : Str) :
    (step s (.set x)) = ⟨[x], .str []⟩ ∧ (step s (.down x)).arg = .str [] ∧
    (step s (.downElement e)).arg = .str [] ∧ (step s (.up sep)).arg = .str [] ∧
    (step s .upElement).arg = s.arg := by
  refine ⟨rfl, rfl, rfl, rfl, ?_⟩
  simp only [step]
  split
  · rfl
  · rfl
  · split <;> rfl

/-- C87. Every properly nested history, of any depth and length, restores the open scopes; if no argument was
set before, and the history leaves none, `get()` is restored. -/
theorem C87_nested_history_restores (ops : List Op) (h : Nested ops) (s : State) (hs : s.arg = .str [])
    (hs' : (steps s ops).arg = .str []) : get (steps s ops) = get s := by
  have := nested_stack ops h s
  cases hq : steps s ops with
  | mk st ar =>
    rw [hq] at this hs'
    cases s with
    | mk st' ar' => simp_all

/-- A nested history leaves no argument behind if it starts without one. -/
theorem C87_nested_history_arg (ops : List Op) (h : Nested ops) (s : State) (hs : s.arg = .str []) :
    (steps s ops).arg = .str [] := by
  induction h generalizing s with
  | nil => exact hs
  | @scope x ops hx _ ih =>
    rw [List.cons_append]
    show (steps (step s (.down x)) (ops ++ [.up ['.']])).arg = _
    rw [steps_append]; rfl
  | @index e ops _ ih =>
    rw [List.cons_append]
    show (steps (step s (.downElement e)) (ops ++ [.upElement])).arg = _
    rw [steps_append]
    have := ih (step s (.downElement e)) rfl
    show (step (steps (step s (.downElement e)) ops) .upElement).arg = _
    simp only [step]
    split
    · exact this
    · exact this
    · split <;> exact this
  | append _ _ iha ihb => rw [steps_append]; exact ihb _ (iha _ hs)

/-- C87 in the documented form: a `down` immediately undone by `up` restores `get()`, if no argument is set. -/
theorem C87_down_up (s : State) (x : Str) (hs : s.arg = .str []) (hx : ¬ IndexLike x) :
    get (step (step s (.down x)) (.up ".".toList)) = get s :=
  C87_nested_history_restores [.down x, .up ['.']] (.scope hx .nil) s hs rfl

/-- C87 fails with an argument set: `down` then `up` clears the argument, so `get()` is not restored. -/
theorem C87_down_up_clears_argument_fails :
    ∃ s x, ¬ IndexLike x ∧ get (step (step s (.down x)) (.up ".".toList)) ≠ get s :=
  ⟨⟨["top".toList], .str "a".toList⟩, "b".toList, by decide, by decide⟩

/-- C87 fails after `set_arg_element`: the argument becomes a Python set and `get()` raises. -/
theorem C87_set_arg_element_fails (b : Str) (vs : List Str) (hb : b ≠ []) :
    get (step ⟨b :: vs, .str []⟩ .setArgElement) = .typeError := by
  simp [step, get, joinLoop_eq, hb]

-- Non-vacuity.
example : get (steps init [.down "top".toList, .down "arr".toList, .downElement "3".toList, .setArg "x".toList]) =
    .str "top.arr[3].x".toList := by decide
example : Nested [.down "a".toList, .downElement "1".toList, .upElement, .up ".".toList] :=
  .scope (ops := [.downElement "1".toList, .upElement]) (by decide) (.index .nil)
example : (step ⟨["a".toList, "b".toList, "[1]".toList], .str []⟩ (.up ".".toList)).stack = ["a".toList] := by
  decide

end Verif.ScopeStack
