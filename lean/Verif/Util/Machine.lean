/-!
# State machines over histories of API calls

Vocabulary only (not a model of repository code): `run step s ops` performs the
calls `ops` one after the other from state `s` and returns the final state and
the list of observable results, in order.
-/
namespace Verif

/-- Final state and outputs of a history of calls. -/
def run {S O R : Type} (step : S → O → S × R) (s : S) : List O → S × List R
  | [] => (s, [])
  | o :: os =>
    let (s', r) := step s o
    let (s'', rs) := run step s' os
    (s'', r :: rs)

/-- Final state of a history of calls. -/
def runS {S O R : Type} (step : S → O → S × R) (s : S) (os : List O) : S := (run step s os).1

/-- `Trace R s ops outs s'`: the calls `ops` lead from `s` to `s'` with results
`outs`, every single call being allowed by the relation `R`. -/
inductive Trace {S O R : Type} (Rel : S → O → R → S → Prop) : S → List O → List R → S → Prop
  | nil (s) : Trace Rel s [] [] s
  | cons {s o r s' os rs s''} : Rel s o r s' → Trace Rel s' os rs s'' →
      Trace Rel s (o :: os) (r :: rs) s''

@[simp] theorem runS_nil {S O R : Type} (step : S → O → S × R) (s : S) : runS step s [] = s := rfl

@[simp] theorem runS_cons {S O R : Type} (step : S → O → S × R) (s : S) (o : O) (os : List O) :
    runS step s (o :: os) = runS step (step s o).1 os := rfl

theorem runS_append {S O R : Type} (step : S → O → S × R) (s : S) (os ps : List O) :
    runS step s (os ++ ps) = runS step (runS step s os) ps := by
  induction os generalizing s with
  | nil => rfl
  | cons o os ih => simp [ih]

/-- If every step is allowed by `Rel`, every run is a trace of `Rel`. -/
theorem run_trace {S O R : Type} {step : S → O → S × R} {Rel : S → O → R → S → Prop}
    (h : ∀ s o, Rel s o (step s o).2 (step s o).1) (s : S) (os : List O) :
    Trace Rel s os (run step s os).2 (run step s os).1 := by
  induction os generalizing s with
  | nil => exact .nil s
  | cons o os ih => exact .cons (h s o) (ih _)

/-- Induction over histories: a property of the initial state preserved by every
step holds after every history. -/
theorem runS_inv {S O R : Type} {step : S → O → S × R} {I : S → Prop}
    (h : ∀ s o, I s → I (step s o).1) {s : S} (hs : I s) (os : List O) : I (runS step s os) := by
  induction os generalizing s with
  | nil => exact hs
  | cons o os ih => exact ih (h _ _ hs)

end Verif
