import Verif.Spec.PortRel
/-!
# C243: warnings about the places of connected ports
-/
namespace Verif.PortRel
open Verif.Port (Kind)

theorem parent_some {c d : List String} : parent c = some d ↔ ChildOf c d := by
  unfold parent ChildOf
  constructor
  · intro h
    split at h
    · cases h
    · rename_i hc
      simp only [Option.some.injEq] at h
      exact ⟨c.getLast hc, by rw [← h, List.dropLast_concat_getLast]⟩
  · rintro ⟨x, rfl⟩
    rw [if_neg (by simp), List.dropLast_concat]

theorem parent_eq {c d : List String} : parent c = parent d ↔ SameLevel c d := by
  unfold SameLevel
  constructor
  · intro h
    by_cases hc : c = []
    · by_cases hd : d = []
      · exact .inr ⟨hc, hd⟩
      · simp [parent, hc, hd] at h
    · have h1 : parent c = some c.dropLast := by simp [parent, hc]
      exact .inl ⟨_, parent_some.1 h1, parent_some.1 (h ▸ h1)⟩
  · rintro (⟨e, h1, h2⟩ | ⟨rfl, rfl⟩)
    · rw [parent_some.2 h1, parent_some.2 h2]
    · rfl

theorem warns_iff (pk qk : Kind) (p q : Place) (h1 : pk ≠ .imp) (h2 : ¬ (pk = .export ∧ qk = .port)) :
    warns pk p qk q = true ↔ p.analysis = false ∧ ¬ Form p.owner q.owner pk qk := by
  cases hp : p.analysis with
  | true => simp [warns, hp]
  | false =>
    cases pk with
    | imp => exact absurd rfl h1
    | port =>
      cases qk with
      | port =>
        by_cases h : parent p.owner = some q.owner
        · simp only [warns, hp, h, true_and]; simp [Form.up (parent_some.1 h)]
        · have hf : ¬ Form p.owner q.owner .port .port := by rintro ⟨h'⟩; exact h (parent_some.2 h')
          simp [warns, hp, h, hf]
      | «export» =>
        by_cases h : parent p.owner = parent q.owner
        · simp only [warns, hp, h, true_and]; simp [Form.acrossExport (parent_eq.1 h)]
        · have hf : ¬ Form p.owner q.owner .port .export := by rintro ⟨h'⟩; exact h (parent_eq.2 (by assumption))
          simp [warns, hp, h, hf]
      | imp =>
        by_cases h : parent p.owner = parent q.owner
        · simp only [warns, hp, h, true_and]; simp [Form.acrossImp (parent_eq.1 h)]
        · have hf : ¬ Form p.owner q.owner .port .imp := by rintro ⟨h'⟩; exact h (parent_eq.2 (by assumption))
          simp [warns, hp, h, hf]
    | «export» =>
      cases qk with
      | port => exact absurd ⟨rfl, rfl⟩ h2
      | «export» =>
        by_cases h : some p.owner = parent q.owner
        · simp only [warns, hp, h, true_and]; simp [Form.downExport (parent_some.1 h.symm)]
        · have hf : ¬ Form p.owner q.owner .export .export := by rintro ⟨h'⟩; exact h (parent_some.2 (by assumption)).symm
          simp [warns, hp, h, hf]
      | imp =>
        by_cases h : some p.owner = parent q.owner
        · simp only [warns, hp, h, true_and]; simp [Form.downImp (parent_some.1 h.symm)]
        · have hf : ¬ Form p.owner q.owner .export .imp := by rintro ⟨h'⟩; exact h (parent_some.2 (by assumption)).symm
          simp [warns, hp, h, hf]

/-- C243.  A warning is reported exactly for connections that are made and have none of the three forms, except from analysis ports.
With or without a warning the connection is the same. -/
theorem C243_warning (nm : Nat → String) (place : Nat → Place) (s : Port.State) (p : Nat) (prov : Option Nat) :
    ((connect nm place s p prov).2.2 = true ↔
      ∃ q, prov = some q ∧ (connect nm place s p prov).2.1 = .done ∧ (place p).analysis = false ∧
        ¬ Form (place p).owner (place q).owner (s.node p).kind (s.node q).kind) ∧
    ((connect nm place s p prov).1, (connect nm place s p prov).2.1) = Port.connect nm s p prov := by
  refine ⟨?_, rfl⟩
  cases prov with
  | none => exact ⟨nofun, fun ⟨q, h, _⟩ => nomatch h⟩
  | some q =>
    have hc : (connect nm place s p (some q)).2.2 =
        (if (connect nm place s p (some q)).2.1 = .done then warns (s.node p).kind (place p) (s.node q).kind (place q) else false) := rfl
    rw [hc]
    by_cases hd : (connect nm place s p (some q)).2.1 = .done
    · have hk : (s.node p).kind ≠ .imp ∧ ¬ ((s.node p).kind = .export ∧ (s.node q).kind = .port) := by
        have hd' : (Port.connect nm s p (some q)).2 = .done := hd
        simp only [Port.connect] at hd'
        repeat' split at hd'
        all_goals first
          | (refine ⟨?_, ?_⟩ <;> assumption)
          | (exact absurd hd' nofun)
      rw [if_pos hd, warns_iff _ _ _ _ hk.1 hk.2]
      simp only [Option.some.injEq, exists_eq_left', hd, true_and]
    · rw [if_neg hd]
      exact ⟨fun h => absurd h (by decide), fun ⟨_, _, h, _⟩ => absurd h hd⟩

/-- A driver port to a sequencer export beside it, and to the export of a component two levels up. -/
example : warns .port ⟨["env", "agent", "drv"], false⟩ .export ⟨["env", "agent", "sqr"], false⟩ = false ∧
    warns .port ⟨["env", "agent", "drv"], false⟩ .imp ⟨["env"], false⟩ = true ∧
    warns .port ⟨["env", "agent", "mon"], true⟩ .imp ⟨["env"], false⟩ = false := by decide

end Verif.PortRel
