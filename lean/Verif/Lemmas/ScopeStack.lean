import Verif.Spec.ScopeStack
namespace Verif.ScopeStack

theorem bracketed_iff (v : Str) : bracketed v = true ↔ IndexLike v := by
  cases v with
  | nil => simp [bracketed, IndexLike]
  | cons c r => simp [bracketed, IndexLike, or_assoc]

theorem bracketed_false (v : Str) : bracketed v = false ↔ ¬ IndexLike v := by
  rw [← bracketed_iff]; simp

theorem joinLoop_eq (acc : Str) (vs : List Str) : joinLoop acc vs = acc ++ (vs.map segment).flatten := by
  induction vs generalizing acc with
  | nil => simp [joinLoop]
  | cons v vs ih =>
    simp only [joinLoop]
    split
    · next h => rw [ih]; simp [segment, (bracketed_iff v).mp h]
    · next h =>
      have : ¬ IndexLike v := fun hi => h ((bracketed_iff v).mpr hi)
      rw [ih]; simp [segment, this]

theorem upLoop_dot (pre post : List Str) (x : Str) (hpre : ∀ v ∈ pre, IndexLike v) (hx : ¬ IndexLike x) :
    upLoop ['.'] (pre ++ x :: post) = post := by
  induction pre with
  | nil => simp [upLoop, (bracketed_false x).mpr hx]
  | cons v pre ih =>
    have hv := (bracketed_iff v).mpr (hpre v (by simp))
    simp [upLoop, hv]
    exact ih (fun w hw => hpre w (by simp [hw]))

theorem upLoop_dot_all (st : List Str) (h : ∀ v ∈ st, IndexLike v) : upLoop ['.'] st = [] := by
  induction st with
  | nil => rfl
  | cons v st ih =>
    have hv := (bracketed_iff v).mpr (h v (by simp))
    simp [upLoop, hv]
    exact ih (fun w hw => h w (by simp [hw]))

theorem steps_append (s : State) (a b : List Op) : steps s (a ++ b) = steps (steps s a) b := by
  simp [steps]

theorem nested_stack (ops : List Op) (h : Nested ops) (s : State) : (steps s ops).stack = s.stack := by
  induction h generalizing s with
  | nil => rfl
  | @scope x ops hx _ ih =>
    rw [List.cons_append]
    show (steps (step s (.down x)) (ops ++ [.up ['.']])).stack = _
    rw [steps_append]
    show (step (steps (step s (.down x)) ops) (.up ['.'])).stack = _
    simp only [step, ih]
    rw [List.reverse_append]
    simp [upLoop, (bracketed_false x).mpr hx]
  | @index e ops _ ih =>
    rw [List.cons_append]
    show (steps (step s (.downElement e)) (ops ++ [.upElement])).stack = _
    rw [steps_append]
    show (step (steps (step s (.downElement e)) ops) .upElement).stack = _
    simp only [step, ih]
    simp
  | append _ _ iha ihb => rw [steps_append, ihb, iha]

end Verif.ScopeStack
