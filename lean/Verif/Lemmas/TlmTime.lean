import Verif.Spec.TlmTime
import Mathlib.Algebra.Order.Field.Rat
import Mathlib.Tactic.FieldSimp
import Mathlib.Tactic.Linarith
import Mathlib.Tactic.Positivity
import Mathlib.Tactic.Ring
namespace Verif.TlmTime
open Spec

theorem call_res (o : Time) (c : Call) : (call o c).obj.res = o.res := by
  cases c <;> simp only [call, reset, incr, decr, setAbs] <;> grind

theorem call_after (o : Time) (h : 0 < o.res) (c : Call) :
    (call o c).obj.time * o.res = after (o.time * o.res) c ∧ (call o c).msgs = reports (o.time * o.res) c := by
  have h0 : o.res ≠ 0 := ne_of_gt h
  cases c with
  | reset => simp [call, reset, after, reports]
  | incr t s u =>
    simp only [call, incr, toRes, after, reports]
    by_cases ht : t < 0
    · simp [ht]
    · by_cases hs : s = 0
      · simp [ht, hs]
      · simp only [ht, hs, h0, or_false, if_false, and_true]
        field_simp
  | decr t s u =>
    simp only [call, decr, toRes, after, reports]
    by_cases ht : t < 0
    · simp [ht]
    · by_cases hs : s = 0
      · simp [ht, hs]
      · simp only [ht, hs, h0, or_false, if_false]
        have e : (o.time - t / s * (u / o.res)) * o.res = o.time * o.res - t / s * u := by field_simp
        have e2 : o.time - t / s * (u / o.res) < 0 ↔ o.time * o.res - t / s * u < 0 := by
          rw [← e]; constructor
          · intro hh; exact mul_neg_of_neg_of_pos hh h
          · intro hh; by_contra hc; exact absurd hh (not_lt.2 (mul_nonneg (not_lt.1 hc) h.le))
        by_cases hn : o.time - t / s * (u / o.res) < 0
        · rw [if_pos hn, if_pos (e2.1 hn), if_pos (e2.1 hn)]; simp [reset]
        · rw [if_neg hn, if_neg (fun q => hn (e2.2 q)), if_neg (fun q => hn (e2.2 q))]
          exact ⟨e, rfl⟩
  | set t u =>
    simp only [call, setAbs, h0, if_false, after, reports, and_true]
    field_simp

theorem foldl_step_dflt (as : List Act) (hs : Sane as) : ∀ s : Sys, 0 < s.dflt → (∀ o ∈ s.objs, 0 < o.res) →
    (∀ o ∈ (as.foldl step s).objs, 0 < o.res) ∧ 0 < (as.foldl step s).dflt := by
  induction as with
  | nil => intro s h1 h2; exact ⟨h2, h1⟩
  | cons a as ih =>
    intro s h1 h2
    rw [List.foldl_cons]
    cases a with
    | resolution r => exact ih hs.2 _ hs.1 h2
    | new r =>
      refine ih hs.2 _ h1 ?_
      intro o ho
      simp only [step, List.mem_append, List.mem_singleton] at ho
      rcases ho with ho | rfl
      · exact h2 o ho
      · simp only [mkTime]
        split
        · exact h1
        · next hr => exact lt_of_le_of_ne hs.1 (Ne.symm hr)
    | on i c =>
      refine ih hs _ ?_ ?_
      · simp only [step]; split <;> exact h1
      · simp only [step]
        split
        · exact h2
        · next o ho =>
          intro o' ho'
          rcases List.mem_or_eq_of_mem_set ho' with hh | rfl
          · exact h2 _ hh
          · rw [call_res]; exact h2 _ (List.mem_of_getElem? ho)

theorem foldl_step_len (as : List Act) : ∀ s : Sys, (as.foldl step s).objs.length = s.objs.length + count as := by
  induction as with
  | nil => intro s; rfl
  | cons a as ih =>
    intro s
    rw [List.foldl_cons, ih]
    cases a with
    | resolution r => rfl
    | new r => simp only [step, List.length_append, List.length_singleton, count]; omega
    | on i c => simp only [step, count]; split <;> simp

/-- The reports about the object `i`. -/
def about (i : Nat) (l : List (Nat × Msg)) : List Msg := (l.filter (fun p => p.1 == i)).map (·.2)

theorem about_append (i : Nat) (a b : List (Nat × Msg)) : about i (a ++ b) = about i a ++ about i b := by simp [about]
theorem about_same (i : Nat) (l : List Msg) : about i (l.map (fun m => (i, m))) = l := by
  induction l with
  | nil => rfl
  | cons m l ih => simp [about] at ih ⊢; exact ih
theorem about_other (i j : Nat) (h : j ≠ i) (l : List Msg) : about i (l.map (fun m => (j, m))) = [] := by
  induction l with
  | nil => rfl
  | cons m l ih => simp [about, h] at ih ⊢

theorem foldl_step_obj (i : Nat) (as : List Act) (hs : Sane as) : ∀ s : Sys, 0 < s.dflt → (∀ o ∈ s.objs, 0 < o.res) →
    ∀ o, s.objs[i]? = some o → ∃ o', (as.foldl step s).objs[i]? = some o' ∧ o'.res = o.res ∧
      o'.time * o.res = (callsOf i s.objs.length as).foldl after (o.time * o.res) ∧
      about i (as.foldl step s).log = about i s.log ++ allReports (o.time * o.res) (callsOf i s.objs.length as) := by
  induction as with
  | nil => intro s _ _ o ho; exact ⟨o, ho, rfl, rfl, by simp [callsOf, allReports]⟩
  | cons a as ih =>
    intro s h1 h2 o ho
    have hi : i < s.objs.length := (List.getElem?_eq_some_iff.1 ho).1
    have hor : 0 < o.res := h2 o (List.mem_of_getElem? ho)
    rw [List.foldl_cons]
    have h2' : (∀ o ∈ (step s a).objs, 0 < o.res) ∧ 0 < (step s a).dflt := by
      refine foldl_step_dflt [a] ?_ s h1 h2
      cases a with
      | resolution r => exact ⟨hs.1, trivial⟩
      | new r => exact ⟨hs.1, trivial⟩
      | on i c => exact trivial
    cases a with
    | resolution r =>
      obtain ⟨o', x, y, z, w⟩ := ih hs.2 (step s (.resolution r)) h2'.2 h2'.1 o ho
      exact ⟨o', x, y, z, w⟩
    | new r =>
      have ho2 : (step s (.new r)).objs[i]? = some o := by
        simp only [step]; rw [List.getElem?_append_left hi]; exact ho
      obtain ⟨o', x, y, z, w⟩ := ih hs.2 (step s (.new r)) h2'.2 h2'.1 o ho2
      have hl : (step s (.new r)).objs.length = s.objs.length + 1 := by simp [step]
      rw [hl] at z w
      exact ⟨o', x, y, z, w⟩
    | on j c =>
      by_cases hj : j = i
      · subst hj
        have hst : step s (.on j c) = { s with objs := s.objs.set j (call o c).obj, log := s.log ++ (call o c).msgs.map (fun m => (j, m)) } := by
          simp only [step, ho]
        have ho2 : (step s (.on j c)).objs[j]? = some (call o c).obj := by
          rw [hst]; simp [hi]
        obtain ⟨o', x, y, z, w⟩ := ih hs (step s (.on j c)) h2'.2 h2'.1 _ ho2
        have hl : (step s (.on j c)).objs.length = s.objs.length := by rw [hst]; simp
        have hc := call_after o hor c
        rw [call_res] at y z w
        rw [hc.1, hl] at z w
        refine ⟨o', x, y, ?_, ?_⟩
        · simp only [callsOf, hi, and_self, if_true, List.foldl_cons]; exact z
        · rw [w, hst]
          simp only [callsOf, hi, and_self, if_true, allReports, about_append, about_same, hc.2, List.append_assoc]
      · have ho2 : (step s (.on j c)).objs[i]? = some o := by
          simp only [step]; split
          · exact ho
          · simp only [List.getElem?_set]; rw [if_neg hj]; exact ho
        obtain ⟨o', x, y, z, w⟩ := ih hs (step s (.on j c)) h2'.2 h2'.1 o ho2
        have hl : (step s (.on j c)).objs.length = s.objs.length := by
          simp only [step]; split <;> simp
        have hlog : about i (step s (.on j c)).log = about i s.log := by
          simp only [step]; split
          · rfl
          · simp only [about_append, about_other i j hj, List.append_nil]
        rw [hl] at z w
        rw [hlog] at w
        have hne : ¬ (j = i ∧ i < s.objs.length) := fun q => hj q.1
        refine ⟨o', x, y, ?_, ?_⟩
        · simp only [callsOf, hne, if_false]; exact z
        · simp only [callsOf, hne, if_false]; exact w

theorem after_nonneg (d : Rat) (hd : 0 ≤ d) (c : Call) (hc : Forward c) : 0 ≤ after d c := by
  cases c with
  | reset => exact le_refl _
  | incr t s u =>
    simp only [after]; split
    · exact hd
    · next h =>
      have ht : 0 ≤ t := by by_contra hh; exact h (.inl (not_le.1 hh))
      have := mul_nonneg (div_nonneg ht hc.1) hc.2
      linarith
  | decr t s u =>
    simp only [after]; split
    · exact hd
    · split
      · exact le_refl _
      · next h => exact not_lt.1 h
  | set t u => exact hc

end Verif.TlmTime
