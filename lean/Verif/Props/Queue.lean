import Verif.Lemmas.Queue
import Verif.Util.Machine
/-! # C01: UVMQueue is a list with guarded indices -/
namespace Verif.Queue

/-- C01. Every history of queue calls, from every content, is a history of the position-wise
specification `Allowed`: every result returned and every content reached is the specified one. -/
theorem C01_queue_refines_list {α : Type} (q : List α) (ops : List (Op α)) :
    Trace Allowed q ops (run step q ops).2 (run step q ops).1 :=
  run_trace (fun s o => step_allowed s o) q ops

/-- C01. The specification leaves no freedom: the results and contents it allows are unique, so
the previous theorem determines the behaviour of the queue completely. -/
theorem C01_queue_spec_deterministic {α : Type} (q : List α) (op : Op α) (o₁ o₂ : Out α)
    (q₁ q₂ : List α) (h₁ : Allowed q op o₁ q₁) (h₂ : Allowed q op o₂ q₂) : o₁ = o₂ ∧ q₁ = q₂ :=
  allowed_unique q op h₁ h₂

/-- C01. First-in first-out: whatever is pushed at the back comes out at the front in the same order. -/
theorem C01_push_back_pop_front_fifo {α : Type} (xs : List α) :
    (run step (runS step [] (xs.map .pushBack)) (xs.map fun _ => Op.popFront)).2 = xs.map .val := by
  have h : ∀ q : List α, runS step q (xs.map .pushBack) = q ++ xs := by
    induction xs with
    | nil => simp
    | cons x xs ih => intro q; simp [step, pushBack, ih]
  rw [h, List.nil_append]
  clear h
  have h2 : ∀ ys : List α, (run step (xs ++ ys) (xs.map fun _ => Op.popFront)).2 = xs.map .val := by
    induction xs with
    | nil => intro ys; simp [run]
    | cons x xs ih => intro ys; simp [run, step, popFront, ih]
  simpa using h2 []

/-- C01. An out of range `insert` or `delete` (and any `get`) leaves the contents unchanged. In
particular `insert` at index = size is ignored, so `insert(0, x)` on an empty queue does nothing. -/
theorem C01_out_of_range_ignored {α : Type} (q : List α) (i : Int) (x : α)
    (h : ¬ (0 ≤ i ∧ i < q.length)) :
    step q (.insert i x) = (q, .warned) ∧ step q (.get i) = (q, .warned) ∧
      (i ≠ -1 → step q (.delete i) = (q, .warned)) := by
  refine ⟨?_, ?_, ?_⟩
  · simp only [step, insert]; rw [if_pos (by omega)]
  · simp only [step, get]; rw [if_pos (by omega)]
  · intro h1; simp only [step, delete]; rw [if_pos (by omega)]

-- Non-vacuity: a mixed history with in-range, out-of-range and negative indices.
example : run step [1, 2, 3] [.insert 1 9, .delete 0, .getItem (-1), .insert 7 5, .popBack, .get 5] =
    ([9, 2], [.unit, .unit, .val 3, .warned, .val 3, .warned]) := by decide
example : ¬ (0 ≤ (0 : Int) ∧ (0 : Int) < ([] : List Nat).length) := by decide
example : step ([] : List Nat) (.insert 0 7) = ([], .warned) := by decide

end Verif.Queue
