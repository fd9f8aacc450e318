import Verif.Model.SvBits
/-! # C11: the bit helpers change only the addressed bit -/
namespace Verif.SvBits

theorem clearBit_testBit (v i j : Nat) : (clearBit v i).testBit j = (v.testBit j && decide (j ≠ i)) := by
  simp only [clearBit, andNot, Nat.testBit_xor, Nat.testBit_and, Nat.one_shiftLeft, Nat.testBit_two_pow]
  by_cases h : j = i
  · subst h; cases v.testBit j <;> simp
  · have : i ≠ j := fun e => h e.symm
    simp [h, this]

/-- C11. `set_bit(v, i, 1)` sets bit `i` and leaves every other bit; `set_bit(v, i, 0)` and `clear_bit(v, i)` clear it
and leave every other bit; any other bit value is refused with an exception. -/
theorem C11_set_bit (v i : Nat) :
    (∃ r, setBit v i 1 = some r ∧ ∀ j, r.testBit j = if j = i then true else v.testBit j) ∧
    (∃ r, setBit v i 0 = some r ∧ r = clearBit v i ∧ ∀ j, r.testBit j = if j = i then false else v.testBit j) ∧
    (∀ b : Int, b ≠ 0 → b ≠ 1 → setBit v i b = none) := by
  refine ⟨⟨_, rfl, fun j => ?_⟩, ⟨_, rfl, rfl, fun j => ?_⟩, fun b h0 h1 => by simp [setBit, h0, h1]⟩
  · simp only [Nat.testBit_or, Nat.one_shiftLeft, Nat.testBit_two_pow]
    by_cases h : j = i
    · subst h; simp
    · have : i ≠ j := fun e => h e.symm
      simp [h, this]
  · rw [clearBit_testBit]
    by_cases h : j = i <;> simp [h]

/-- C11. `get_bit` reads exactly the addressed bit. -/
theorem C11_get_bit (v i : Nat) : getBit v i = if v.testBit i then 1 else 0 := by
  simp only [getBit, Nat.testBit_eq_decide_div_mod_eq, Nat.shiftRight_eq_div_pow, Nat.and_one_is_mod]
  split
  · next h => simpa using h
  · next h => simp at h; omega

/-- C11. Reading back what was written. -/
theorem C11_get_after_set (v i j b : Nat) (hb : b < 2) :
    ∃ r, setBit v i b = some r ∧ getBit r j = if j = i then b else getBit v j := by
  have : b = 0 ∨ b = 1 := by omega
  rcases this with h | h <;> subst h
  · obtain ⟨_, ⟨r, h1, _, h2⟩, _⟩ := C11_set_bit v i
    refine ⟨r, h1, ?_⟩
    rw [C11_get_bit, C11_get_bit, h2 j]
    by_cases h : j = i <;> simp [h]
  · obtain ⟨⟨r, h1, h2⟩, _⟩ := C11_set_bit v i
    refine ⟨r, h1, ?_⟩
    rw [C11_get_bit, C11_get_bit, h2 j]
    by_cases h : j = i <;> simp [h]

/-- C11. A vector of `n ≥ 1` ones is `2^n - 1`: exactly the `n` low bits are set.  For width 0 it raises. -/
theorem C11_vector_of_ones (n : Nat) :
    vectorOfOnes 0 = none ∧ (1 ≤ n → vectorOfOnes n = some (2 ^ n - 1) ∧
      ∀ j, (2 ^ n - 1).testBit j = decide (j < n)) := by
  refine ⟨rfl, fun hn => ⟨?_, fun j => Nat.testBit_two_pow_sub_one n j⟩⟩
  have : ∀ n, (List.range n).foldl (fun a (_ : Nat) => a * 2 + 1) 0 = 2 ^ n - 1 := by
    intro n
    induction n with
    | zero => rfl
    | succ n ih =>
      rw [List.range_succ, List.foldl_append, ih]
      have := Nat.two_pow_pos n
      simp [Nat.pow_succ]; omega
  simp only [vectorOfOnes]
  rw [if_neg (by omega), this]

theorem clog2Loop_spec (v r : Nat) : ∃ k, clog2Loop v r = r + k ∧ v < 2 ^ k ∧ ∀ j, v < 2 ^ j → k ≤ j := by
  induction v using Nat.strongRecOn generalizing r with
  | ind v ih =>
    rw [clog2Loop]
    split
    · next h => subst h; exact ⟨0, rfl, by simp, fun j _ => Nat.zero_le j⟩
    · next h =>
      obtain ⟨k, h1, h2, h3⟩ := ih (v >>> 1) (by rw [Nat.shiftRight_eq_div_pow]; omega) (r + 1)
      rw [Nat.shiftRight_eq_div_pow] at h2 h3
      refine ⟨k + 1, by rw [h1]; omega, by rw [Nat.pow_succ]; omega, ?_⟩
      intro j hj
      cases j with
      | zero => simp at hj; omega
      | succ j =>
        rw [Nat.pow_succ] at hj
        have := h3 j (by omega)
        omega

/-- C11. `clog2(v)` for `v ≥ 1` is the least `n` with `v ≤ 2^n` (and 0 for 0). -/
theorem C11_clog2 (v : Nat) : clog2 0 = 0 ∧ (1 ≤ v → v ≤ 2 ^ clog2 v ∧ ∀ n, v ≤ 2 ^ n → clog2 v ≤ n) := by
  refine ⟨by simp [clog2, clog2Loop], fun hv => ?_⟩
  obtain ⟨k, h1, h2, h3⟩ := clog2Loop_spec (v - 1) 0
  simp only [clog2, h1, Nat.zero_add]
  exact ⟨by omega, fun n hn => h3 n (by omega)⟩

-- Non-vacuity.
example : setBit 0b1010 2 1 = some 0b1110 ∧ setBit 0b1010 3 0 = some 0b10 ∧ setBit 0 0 2 = none := by decide
example : vectorOfOnes 5 = some 31 := by decide

end Verif.SvBits
