import Verif.Lemmas.ObjectionMore
/-! # Counts are never negative, whatever the history -/
namespace Verif.Objection

def NN (s : State) : Prop := ∀ o, 0 ≤ s.count o ∧ 0 ≤ s.total o

theorem NN.congr {s s' : State} (h : NN s) (h1 : s'.srcC = s.srcC) (h2 : s'.tot = s.tot) : NN s' := by
  intro o; simp only [State.count, State.total, h1, h2]; exact h o

theorem nn_addCounts {s : State} (h : NN s) (o src : Nat) (n : Int) (h1 : 0 ≤ s.total o + n) (h2 : o = src → 0 ≤ s.count o + n) :
    NN (addCounts s o src n) := by
  intro x
  have hx := h x
  have ho := h o
  simp only [State.count, State.total] at *
  by_cases hs : o = src
  · simp only [addCounts, hs, if_true, bump] at *
    by_cases e : x = src
    · simp only [e, if_true, Option.getD_some]; exact ⟨h2 trivial, h1⟩
    · simp only [e, if_false]; exact hx
  · simp only [addCounts, hs, if_false, bump]
    by_cases e : x = o
    · simp only [e, if_true, Option.getD_some]; exact ⟨ho.1, h1⟩
    · simp only [e, if_false]; exact hx

theorem nn_mDrop (l : List Nat) (src : Nat) (n : Int) : ∀ {s : State}, NN s → NN (mDrop l src n s).1 := by
  induction l with
  | nil => intro s h; exact h
  | cons o up ih =>
    intro s h
    unfold mDrop
    split
    · exact h
    split
    · split <;> exact h
    next h1 =>
    split
    · split <;> exact h
    next h2 =>
    have h1' : 0 ≤ s.total o + -n := by simp at h1; omega
    have h2' : o = src → 0 ≤ s.count o + -n := by
      intro e; simp [e] at h2; rw [e]; omega
    have h3 := nn_addCounts h o src (-n) h1' h2'
    split
    · exact ih h3
    · exact NN.congr h3 rfl rfl

theorem takeCtx_counts (s : State) (o : Nat) : (takeCtx s o).2.srcC = s.srcC ∧ (takeCtx s o).2.tot = s.tot := by
  unfold takeCtx
  split
  · exact ⟨rfl, rfl⟩
  · split
    · exact ⟨rfl, rfl⟩
    · split <;> exact ⟨rfl, rfl⟩

theorem nn_mRaise (l : List Nat) (src : Nat) : ∀ (n : Int) {s : State}, 0 ≤ n → NN s → NN (mRaise l src n s).1 := by
  induction l with
  | nil => intro n s _ h; exact h
  | cons o up ih =>
    intro n s hn h
    unfold mRaise
    split
    · exact h
    have h1 := h o
    have h3 := nn_addCounts h o src n (by omega) (by intro _; omega)
    have h4 : NN (takeCtx (addCounts s o src n) o).2 := NN.congr h3 (takeCtx_counts _ _).1 (takeCtx_counts _ _).2
    dsimp only
    split
    · exact ih _ hn h4
    · split
      · exact ih _ (by omega) h4
      · split
        · exact nn_mDrop _ _ _ h4
        · exact h4

theorem nn_delZero {s : State} (h : NN s) (o : Nat) : NN { s with srcC := delZero s.srcC o, tot := delZero s.tot o } := by
  intro x
  have := h x
  simp only [State.count, State.total, delZero] at *
  constructor
  · split <;> first | exact Int.le_refl 0 | exact this.1
  · split <;> first | exact Int.le_refl 0 | exact this.2

theorem nn_step (t : Tree) {s : State} (h : NN s) (op : Op) (hp : ∀ o n, op = .raise o n → 0 ≤ n) : NN (step t s op).1 := by
  cases op with
  | raise o n => exact nn_mRaise _ _ _ (hp o n rfl) (NN.congr h rfl rfl)
  | drop o n => exact nn_mDrop _ _ _ h
  | clear =>
    simp only [step, clear]
    split <;> intro x <;> exact ⟨Int.le_refl 0, Int.le_refl 0⟩
  | foreign => exact NN.congr h rfl rfl
  | foreignRemove i => simp only [step]; split <;> exact NN.congr h rfl rfl
  | bg =>
    simp only [step]
    split
    · split <;> exact NN.congr h rfl rfl
    · exact h
  | start =>
    simp only [step]
    split
    · exact h
    · split <;> exact NN.congr h rfl rfl
  | notify i =>
    simp only [step]
    split
    · exact h
    · split
      · exact h
      · exact NN.congr h rfl rfl
  | finish i =>
    simp only [step]
    split
    · exact h
    · split
      · simp only [finish]
        split
        · exact NN.congr (nn_mDrop _ _ _ (nn_delZero h _)) rfl rfl
        · exact NN.congr (nn_mDrop _ _ _ (nn_delZero h _)) rfl rfl
      · exact h

theorem nonneg_run (t : Tree) (ops : List Op) (h : ∀ o n, .raise o n ∈ ops → 0 ≤ n) : NN (runS (step t) {} ops) := by
  have : ∀ (ops : List Op) (s : State), NN s → (∀ o n, .raise o n ∈ ops → 0 ≤ n) → NN (runS (step t) s ops) := by
    intro ops
    induction ops with
    | nil => intro s hs _; exact hs
    | cons a l ih =>
      intro s hs hl
      rw [runS_cons]
      exact ih _ (nn_step t hs a (fun o n e => hl o n (e ▸ List.mem_cons_self))) (fun o n e => hl o n (List.mem_cons_of_mem _ e))
  exact this ops {} (fun o => ⟨Int.le_refl 0, Int.le_refl 0⟩) h

end Verif.Objection
