import Verif.Spec.Dap
/-! # C44: data access policies, for every history of calls -/
namespace Verif.Dap
open Verif
variable {α : Type}

theorem g2l_state (s : LockState α) (h : List (Op α)) :
    runS g2lStep s h = if s.locked then s else ⟨hasGet h, lastSet s.value (beforeGet h)⟩ := by
  induction h generalizing s with
  | nil => cases s with | mk l v => cases l <;> rfl
  | cons o h ih =>
    rw [runS_cons, ih]
    obtain ⟨l, v⟩ := s
    cases o <;> cases l <;> simp [g2lStep, hasGet, beforeGet, lastSet]

/-- C44, get_to_lock. After any history, `get` returns the value of the last `set` that preceded the first `get`
(None if there was none); no error is reported. -/
theorem C44_get_to_lock_get (h : List (Op α)) :
    (g2lStep (runS g2lStep lockInit h) .get).2 = .got (lastSet none (beforeGet h)) false := by
  rw [g2l_state]; rfl

/-- C44, get_to_lock. Once read, the value never changes again: two reads separated by any calls return the same value. -/
theorem C44_get_to_lock_frozen (h k : List (Op α)) :
    (g2lStep (runS g2lStep lockInit (h ++ .get :: k)) .get).2 = (g2lStep (runS g2lStep lockInit h) .get).2 := by
  rw [runS_append, runS_cons, g2l_state (g2lStep _ _).1]
  simp [g2lStep]

/-- C44, get_to_lock. A `set` is accepted exactly when nothing was read yet, otherwise an error is reported and nothing
changes. -/
theorem C44_get_to_lock_set (h : List (Op α)) (v : α) :
    (hasGet h = false → (g2lStep (runS g2lStep lockInit h) (.set v)).2 = .done ∧
      (g2lStep (runS g2lStep lockInit (h ++ [.set v])) .get).2 = .got (some v) false) ∧
    (hasGet h = true → (g2lStep (runS g2lStep lockInit h) (.set v)).2 = .error ∧
      (g2lStep (runS g2lStep lockInit h) (.set v)).1 = runS g2lStep lockInit h) := by
  rw [runS_append, g2l_state]
  constructor <;> intro hg <;> simp [lockInit, g2lStep, hg]

theorem lock_state (s : LockState α) (h : List (Op α)) :
    runS lockStep s h = ⟨heldAfter s.locked h, lastFreeSet s.locked s.value h⟩ := by
  induction h generalizing s with
  | nil => rfl
  | cons o h ih =>
    rw [runS_cons, ih]
    obtain ⟨l, v⟩ := s
    cases o <;> cases l <;> simp [lockStep, heldAfter, lastFreeSet]

/-- C44, simple_lock. After any history: `get` returns the value of the last `set` made while unlocked (None if there
was none); `is_locked` tells whether the last lock or unlock call was `lock`. -/
theorem C44_simple_lock_get (h : List (Op α)) :
    (lockStep (runS lockStep lockInit h) .get).2 = .got (lastFreeSet false none h) false ∧
    (lockStep (runS lockStep lockInit h) .isLocked).2 = .bool (heldAfter false h) := by
  rw [lock_state]; exact ⟨rfl, rfl⟩

/-- C44, simple_lock. A `set` while locked reports an error and changes nothing; a `set` while unlocked takes effect. -/
theorem C44_simple_lock_set (h : List (Op α)) (v : α) :
    (heldAfter false h = true → (lockStep (runS lockStep lockInit h) (.set v)).2 = .error ∧
      (lockStep (runS lockStep lockInit h) (.set v)).1 = runS lockStep lockInit h) ∧
    (heldAfter false h = false → (lockStep (runS lockStep lockInit h) (.set v)).2 = .done ∧
      (lockStep (runS lockStep lockInit (h ++ [.set v])) .get).2 = .got (some v) false) := by
  rw [runS_append, lock_state]
  constructor <;> intro hg <;> simp [lockInit, lockStep, hg]

theorem sbg_state (s : SetState α) (h : List (Op α)) :
    runS sbgStep s h = ⟨s.isSet || hasSet h, lastSet s.value h⟩ := by
  induction h generalizing s with
  | nil => obtain ⟨b, v⟩ := s; cases b <;> rfl
  | cons o h ih =>
    rw [runS_cons, ih]
    obtain ⟨b, v⟩ := s
    cases o with
    | tryGet l => cases l <;> cases b <;> simp [sbgStep, hasSet, lastSet]
    | _ => cases b <;> simp [sbgStep, hasSet, lastSet]

/-- C44, set_before_get. After any history `get` returns the last value set (None before the first `set`), and reports
an error exactly when nothing was set yet. -/
theorem C44_set_before_get_get (h : List (Op α)) :
    (sbgStep (runS sbgStep setInit h) .get).2 = .got (lastSet none h) (!hasSet h) := by
  rw [sbg_state]; cases hs : hasSet h <;> simp [setInit, sbgStep, hs]

/-- C44, set_before_get. `try_get` with an empty list fails silently, leaving the caller's list alone, before the first
`set`, and after it stores the last value set. -/
theorem C44_set_before_get_try_get (h : List (Op α)) :
    (sbgStep (runS sbgStep setInit h) (.tryGet [])).2 =
      if hasSet h then .tried true [lastSet none h] else .tried false [] := by
  rw [sbg_state]; cases hs : hasSet h <;> simp [setInit, sbgStep, hs]

/-- C44, set_before_get. `try_get` with a list that already holds something raises and changes nothing, so the same
list cannot be passed to a second `try_get` after a success. -/
theorem C44_set_before_get_try_get_list (s : SetState α) (x : Option α) (l : List (Option α)) :
    sbgStep s (.tryGet (x :: l)) = (s, .valueError) := rfl

/-- C105 fails for the `try_` variants: `try_set` raises on all three policies, `try_get` on two of them. -/
theorem C105_try_fails (s : LockState α) (t : SetState α) (v : α) (l : List (Option α)) :
    (g2lStep s (.trySet v)).2 = .notImplemented ∧ (g2lStep s (.tryGet l)).2 = .notImplemented ∧
    (lockStep s (.trySet v)).2 = .notImplemented ∧ (lockStep s (.tryGet l)).2 = .notImplemented ∧
    (sbgStep t (.trySet v)).2 = .notImplemented := ⟨rfl, rfl, rfl, rfl, rfl⟩

-- Non-vacuity
example : (run g2lStep lockInit [.set 1, .set (2 : Nat), .get, .set 3, .get]).2 =
    [.done, .done, .got (some 2) false, .error, .got (some 2) false] := by decide
example : (run lockStep lockInit [.set (1 : Nat), .lock, .set 2, .get, .unlock, .set 3, .get]).2 =
    [.done, .done, .error, .got (some 1) false, .done, .done, .got (some 3) false] := by decide
example : (run sbgStep setInit [.get, .tryGet [], .set (1 : Nat),   .tryGet [], .tryGet [none], .get]).2 =
    [.got none true, .tried false [], .done, .tried true [some 1], .valueError, .got (some 1) false] := by decide
example : heldAfter false ([.lock, .set 2] : List (Op Nat)) = true := rfl
example : hasGet ([.set 2, .get] : List (Op Nat)) = true := rfl

end Verif.Dap
