import Verif.Spec.Comparer
/-! # C52: comparing values -/
namespace Verif.Comparer

theorem shr_neg_one (k : Nat) : shr (-1) k = -1 := by
  unfold shr
  have h : (0 : Int) < 2 ^ k := Int.pow_pos (by decide)
  have := Int.negSucc_ediv 0 h
  have h0 : Int.ediv 0 (2 ^ k) = 0 := Int.zero_ediv _
  exact this.trans (by rw [show ((0 : Nat) : Int) = 0 from rfl, h0]; rfl)

theorem compareFieldInt_eq (m : Nat) (s : State) (l r : Int) (n : Nat) :
    compareFieldInt m s l r n = if l ≠ r then (printMsg m s, some 0) else (s, some 1) := by
  simp only [compareFieldInt, shr_neg_one, band, if_true]

/-- C52, the part that holds: for sizes up to 64 and values that fit the declared size, the comparison succeeds exactly
when the low `size` bits agree, and otherwise adds one to the miscompare count.
Missing: values with bits above the declared size (`C52_width_fails`), sizes above 64 (`C52_wide_fails`). -/
theorem C52_width_partial (showMax : Nat) (s : State) (l r : Nat) (size : Nat) (hs : size ≤ 64)
    (hl : l < 2 ^ size) (hr : r < 2 ^ size) :
    compareField showMax s l r size =
      if ∀ k < size, l.testBit k = r.testBit k then (s, some 1)
      else ({ result := s.result + 1, reports := if s.result < showMax then s.reports + 1 else s.reports }, some 0) := by
  have key : (∀ k < size, l.testBit k = r.testBit k) ↔ (l : Int) = r := by
    rw [Int.ofNat_inj]
    constructor
    · intro h
      apply Nat.eq_of_testBit_eq
      intro k
      by_cases hk : k < size
      · exact h k hk
      · have hp : 2 ^ size ≤ 2 ^ k := Nat.pow_le_pow_right (by decide) (by omega)
        rw [Nat.testBit_lt_two_pow (by omega), Nat.testBit_lt_two_pow (by omega)]
    · rintro rfl; simp
  rw [compareField, if_pos hs, compareFieldInt_eq]
  by_cases h : (l : Int) = r
  · rw [if_neg (not_not_intro h), if_pos (key.mpr h)]
  · rw [if_pos h, if_neg (fun hk => h (key.mp hk))]
    simp only [printMsg, Nat.succ_le_iff]

/-- C52 fails: the width is ignored, values that agree in the declared bits are reported as different. -/
theorem C52_width_fails (showMax : Nat) (s : State) :
    (compareField showMax s 0x10 0 4).2 = some 0 ∧ (∀ k < 4, (0x10 : Nat).testBit k = (0 : Nat).testBit k) := by
  constructor
  · rw [compareField, if_pos (by decide), compareFieldInt_eq]; rfl
  · decide

/-- C52: more than 64 bits are never compared: whatever the values, nothing is counted and the answer is `None`. -/
theorem C52_wide_fails (showMax : Nat) (s : State) (l r : Int) (size : Nat) (h : 64 < size) :
    compareField showMax s l r size = (s, none) := by
  rw [compareField, if_neg (by omega)]

/-- Strings and reals: the comparison succeeds exactly when the values are equal. -/
theorem C52_values (showMax : Nat) (s : State) (l r : Nat) :
    (compareVal showMax s l r).2 = (if l = r then some 1 else some 0) ∧
    (compareVal showMax s l r).1.result = s.result + (if l = r then 0 else 1) := by
  unfold compareVal
  by_cases h : l = r <;> simp [h, printMsg]

/-- After every history of comparisons, `result` is the number of comparisons that differed and the first `show_max` of
them were reported. -/
theorem C52_count (showMax : Nat) (h : List Op) :
    (runS (step showMax) init h).result = h.countP differs ∧
    (runS (step showMax) init h).reports = min showMax (h.countP differs) := by
  have step_eq : ∀ (s : State) (o : Op), (step showMax s o).1 = if differs o = true then printMsg showMax s else s := by
    intro s o
    cases o with
    | field l r n =>
      simp only [step, compareField, differs]
      by_cases hn : n ≤ 64
      · rw [if_pos hn, compareFieldInt_eq]
        by_cases e : l = r <;> simp [e, hn]
      · rw [if_neg hn]; simp [hn]
    | val l r =>
      simp only [step, compareVal, differs]
      by_cases e : l = r <;> simp [e]
  have gen : ∀ (s : State), (s.reports = min showMax s.result) →
      (runS (step showMax) s h).result = s.result + h.countP differs ∧
      (runS (step showMax) s h).reports = min showMax (s.result + h.countP differs) := by
    induction h with
    | nil => intro s hs; exact ⟨rfl, hs⟩
    | cons o h ih =>
      intro s hs
      rw [runS_cons, step_eq, List.countP_cons]
      by_cases d : differs o = true
      · rw [if_pos d, if_pos d]
        have := ih (printMsg showMax s) (by simp only [printMsg]; rw [hs]; split <;> omega)
        refine ⟨?_, ?_⟩
        · rw [this.1]; simp only [printMsg]; omega
        · rw [this.2]; simp only [printMsg]; congr 1; omega
      · rw [if_neg d, if_neg d]; exact ih s hs
  have := gen init (by simp [init])
  simpa [init] using this

-- Non-vacuity
example : (runS (step 1) init [.field 3 3 8, .field 3 4 8, .val 1 2, .val 5 5]) = ⟨2, 1⟩ := by decide
example : (compareField 1 init 5 7 3).2 = some 0 := by decide

end Verif.Comparer
