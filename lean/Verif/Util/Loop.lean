/-! # Python `for k in range(a, b)` loops that may raise (vocabulary only) -/
namespace Verif

/-- `for k in range(a, b): s = f k s`, where `none` is a raised exception. -/
def forRange {S : Type} (a b : Nat) (f : Nat → S → Option S) (s : S) : Option S :=
  (List.range' a (b - a)).foldlM (fun s k => f k s) s

theorem forRange_inv {S : Type} (P : Nat → S → Prop) {a b : Nat} (hab : a ≤ b) {f : Nat → S → Option S} {s : S}
    (h0 : P a s) (hstep : ∀ k s, a ≤ k → k < b → P k s → ∃ s', f k s = some s' ∧ P (k + 1) s') :
    ∃ s', forRange a b f s = some s' ∧ P b s' := by
  unfold forRange
  generalize hn : b - a = n
  induction n generalizing a s with
  | zero => have : a = b := by omega
            subst this; exact ⟨s, rfl, h0⟩
  | succ n ih =>
    obtain ⟨s1, h1, h2⟩ := hstep a s (Nat.le_refl a) (by omega) h0
    obtain ⟨s', h3, h4⟩ := ih (a := a + 1) (s := s1) (by omega) h2
      (fun k s hk hb hP => hstep k s (by omega) hb hP) (by omega)
    refine ⟨s', ?_, h4⟩
    rw [List.range'_succ]
    simp [List.foldlM_cons, h1, h3]

end Verif
