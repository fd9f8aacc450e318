import Verif.Lemmas.Text
/-! # C56: parsing severities and actions; C54: glob patterns; C72: strings as bit vectors -/
namespace Verif.Text

/-- C56. For every list of words (without `|`), parsing the words joined by `|` gives the union of the flags they name:
bit `k` is set exactly when the name of flag `k` is among them. -/
theorem C56_action (ws : List Str) (hne : ws ≠ []) (h : ∀ w ∈ ws, '|' ∉ w) (k : Nat) :
    (stringToAction (joinWith '|' ws)).testBit k = true ↔ ∃ w ∈ ws, (w, k) ∈ actionBits := by
  rw [stringToAction, splitOn_join _ _ hne h, actionFold_testBit]
  simp

/-- C56. Every string is such a list of words, so the previous theorem covers all of them. -/
theorem C56_action_total (s : Str) :
    ∃ ws, ws ≠ [] ∧ (∀ w ∈ ws, '|' ∉ w) ∧ joinWith '|' ws = s :=
  ⟨splitOn '|' s, splitOn_ne_nil _ _, split_no_sep _ _, join_split _ _⟩

/-- C56. The severity parser answers a severity exactly on the four names, and -1 on every other string. -/
theorem C56_severity (s : Str) (v : Int) :
    stringToSeverity s = v ↔ (s, v) ∈ severities ∨ (v = -1 ∧ ∀ u, (s, u) ∉ severities) := by
  simp only [stringToSeverity, severities, List.mem_cons, Prod.mk.injEq, List.not_mem_nil, or_false]
  have e : ∀ {a b : Int}, a = b ↔ b = a := ⟨Eq.symm, Eq.symm⟩
  by_cases h0 : s = "UVM_INFO".toList
  · subst h0; simp [e (b := v)]
  by_cases h1 : s = "UVM_WARNING".toList
  · subst h1; simp [e (b := v)]
  by_cases h2 : s = "UVM_ERROR".toList
  · subst h2; simp [e (b := v)]
  by_cases h3 : s = "UVM_FATAL".toList
  · subst h3; simp [e (b := v)]
  rw [if_neg h0, if_neg h1, if_neg h2, if_neg h3]
  simp only [h0, h1, h2, h3, false_and, or_false, false_or, not_false_eq_true, implies_true, and_true]
  exact e

/-- C107 fails for actions: a string that names no action is not refused, its unknown words are ignored; and the
answer for the valid name UVM_NO_ACTION is the one for a wholly unknown string. -/
theorem C107_action_unknown_fails :
    stringToAction "UVM_DISPLAY|UVM_BOGUS".toList = 1 ∧
    stringToAction "garbage".toList = stringToAction "UVM_NO_ACTION".toList := by decide

/-- C107 fails in general: the answer for a string depends on the action names among its words alone; any other words, whatever they are and
wherever they stand, are ignored. -/
theorem C107_other_words_ignored_fails (ws us : List Str) (hws : ws ≠ []) (hus : us ≠ []) (h : ∀ w ∈ ws, '|' ∉ w) (h' : ∀ w ∈ us, '|' ∉ w)
    (hsame : ∀ w k, (w, k) ∈ actionBits → (w ∈ ws ↔ w ∈ us)) : stringToAction (joinWith '|' ws) = stringToAction (joinWith '|' us) := by
  refine Nat.eq_of_testBit_eq fun k => ?_
  rw [Bool.eq_iff_iff, C56_action ws hws h, C56_action us hus h']
  exact ⟨fun ⟨w, hw, hk⟩ => ⟨w, (hsame w k hk).1 hw, hk⟩, fun ⟨w, hw, hk⟩ => ⟨w, (hsame w k hk).2 hw, hk⟩⟩

example : ∀ w k, (w, k) ∈ actionBits → (w ∈ ["UVM_LOG".toList, "huh".toList] ↔ w ∈ ["x".toList, "UVM_LOG".toList]) := by
  intro w k h
  simp only [actionBits, List.mem_cons, Prod.mk.injEq, List.not_mem_nil, or_false] at h
  rcases h with h | h | h | h | h | h | h <;> obtain ⟨rfl, rfl⟩ := h <;> decide

/-- C54, what the code decides: for a plain pattern the answer is whether some *part* of the text matches the pattern,
wildcards standing for text without newlines. -/
theorem C54_search (p s : Str) (hp : plain p) : ∃ r, isMatch p s = some r ∧
    (r = true ↔ ∃ a m b, s = a ++ m ++ b ∧ GlobL p m) := isMatch_eq p s hp

/-- C54, the half that holds for every plain pattern: a text that as a whole matches the pattern is accepted. -/
theorem C54_complete_partial (p s : Str) (hp : plain p) (hs : '\n' ∉ s) (h : Glob p s) : isMatch p s = some true := by
  obtain ⟨r, hr, hi⟩ := isMatch_eq p s hp
  rw [hr, hi.mpr ⟨[], s, [], by simp, h.toGlobL hs⟩]

/-- C54 holds for plain patterns that begin and end with `*`.
Missing: the other patterns (`C54_substring_fails`), regular expression characters (`C54_plus_fails`). -/
theorem C54_whole_partial (p s : Str) (hp : plain p) (hs : '\n' ∉ s) (h1 : p.head? = some '*')
    (h2 : p.getLast? = some '*') : ∃ r, isMatch p s = some r ∧ (r = true ↔ Glob p s) := by
  obtain ⟨r, hr, hi⟩ := isMatch_eq p s hp
  refine ⟨r, hr, hi.trans ⟨?_, fun h => ⟨[], s, [], by simp, h.toGlobL hs⟩⟩⟩
  rintro ⟨a, m, b, rfl, hg⟩
  exact ((hg.extend_left h1 a (fun h => hs (by simp [h]))).extend_right h2 b (fun h => hs (by simp [h]))).toGlob

/-- C54 fails: a pattern matches every text that contains a match, so an exact name also selects longer ones. -/
theorem C54_substring_fails :
    isMatch "env.agent".toList "top.env.agent1.driver".toList = some true ∧
    ¬ Glob "env.agent".toList "top.env.agent1.driver".toList ∧
    isMatch "a?".toList "xabc".toList = some true ∧ isMatch [] "anything".toList = some true := by
  refine ⟨by decide, ?_, by decide, by decide⟩
  intro h
  cases h

/-- C54 fails for `+` in a name: it is taken as a repetition, so the name does not match itself. -/
theorem C54_plus_fails :
    isMatch "a+b".toList "a+b".toList = some false ∧ isMatch "a+b".toList "aab".toList = some true := by decide

/-- C54: a `/regular expression/` keeps its slashes, so it matches no path without slashes. -/
theorem C54_slash_fails :
    isMatch "/top.*/".toList "top.env".toList = some false ∧ isMatch "/top.*/".toList "/top.env/".toList = some true := by
  decide

theorem or_append (r b n : Nat) (hb : b < 2 ^ n) : (r <<< n) ||| b = r * 2 ^ n + b := by
  rw [← Nat.shiftLeft_add_eq_or_of_lt hb, Nat.shiftLeft_eq]

/-- C72, the part that holds: one- and two-byte strings. -/
theorem C72_string_to_bits_partial (bs : List Nat) (hb : ∀ b ∈ bs, b < 256) (hl : bs.length ≤ 2) :
    stringToBits bs = bytesBE bs := by
  match bs, hl with
  | [], _ => rfl
  | [b], _ => simp [stringToBits, bitsLoop, bytesBE]
  | [a, b], _ =>
    have h2 : b < 2 ^ 8 := hb b (by simp)
    have := or_append a b 8 h2
    simp only [stringToBits, bitsLoop, bytesBE, Nat.zero_shiftLeft, Nat.zero_or, Nat.zero_add]
    rw [this]; simp

/-- C72 fails from three bytes on: the shift grows with the position, so the characters end up apart ("abc"). -/
theorem C72_string_to_bits_fails :
    stringToBits [97, 98, 99] = 0x61620063 ∧ bytesBE [97, 98, 99] = 0x616263 := by decide

-- Non-vacuity
example : ∀ w ∈ ["UVM_DISPLAY".toList, "UVM_LOG".toList], '|' ∉ w := by decide
example : stringToAction (joinWith '|' ["UVM_DISPLAY".toList, "UVM_LOG".toList]) = 3 := by decide
example : plain "*env?.*".toList := ⟨by decide, by decide⟩
example : isMatch "*env?.*".toList "top.env1.drv".toList = some true := by decide
example : isMatch "*env?.*".toList "top.env.drv".toList = some false := by decide
example : Glob "*b?".toList "aabc".toList := .star "aa".toList (.lit (by decide) (by decide) (.quest 'c' .nil))
example : stringToBits [97, 98] = 0x6162 := by decide

end Verif.Text
