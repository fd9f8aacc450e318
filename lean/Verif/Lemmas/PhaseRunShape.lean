import Verif.Lemmas.PhaseRun
/-! # What the position of a task says about the siblings it waits for and about objections -/
namespace Verif.PhaseRun

/-- What holds of a task of `p` at a position. -/
def Shp (G : Graph) (obj : Nat → Nat) (p : Nat) : Pc → Prop
  | .ownFirst w => w = true ∨ obj p ≠ 0
  | .startW _ => ∃ l, sibs G p = some l
  | .ownDrop _ w => (∃ l, sibs G p = some l) ∧ (w = true ∨ obj p ≠ 0)
  | .sib _ _ l _ => l ≠ [] ∧ ∃ pre, sibs G p = some (pre ++ l)
  | .sibDrop _ l w => (∃ q t, l = q :: t ∧ (w = true ∨ obj q ≠ 0)) ∧ ∃ pre, sibs G p = some (pre ++ l)
  | .beforeRte => ∃ l, sibs G p = some l
  | .predWait l w => (∃ pre, sibs G p = some (pre ++ l)) ∧ (l = [] → w = true)
  | .crashed => sibs G p = none
  | _ => True

theorem shp_wakeSt {G obj p c} (q : Nat) (h : Shp G obj p c) : Shp G obj p (wakeSt q c) := by
  unfold wakeSt
  split
  · simpa [Shp] using h
  · simpa [Shp] using h
  · exact h

/-- Waking the tasks that wait for objections to `q`, which may now be none. -/
theorem shp_wakeDrop {G : Graph} {obj obj' : Nat → Nat} {p : Nat} {c : Pc} (q : Nat) (ho : ∀ r, r ≠ q → obj' r = obj r) (h : Shp G obj p c) :
    Shp G obj' p (wakeDrop q p c) := by
  unfold wakeDrop
  split
  · by_cases e : p = q
    · simp [Shp, e]
    · simpa [Shp, e, ho p e] using h
  · by_cases e : p = q
    · have e' : (p == q) = true := by simp [e]
      exact ⟨h.1, .inl (by simp [e'])⟩
    · simpa [Shp, e, ho p e] using h
  · rename_i sec r l w
    obtain ⟨⟨r', t, e1, e2⟩, h2⟩ := h
    refine ⟨⟨r, l, rfl, ?_⟩, h2⟩
    cases e1
    by_cases e : r = q
    · simp [e]
    · simpa [e, ho r e] using e2
  · rename_i h1 h2 h3
    cases c <;> try exact h
    · exact absurd rfl (h1 _)
    · exact absurd rfl (h2 _ _)
    · obtain ⟨⟨r', t, e1, e2⟩, _⟩ := h
      subst e1; exact absurd rfl (h3 _ _ _ _)

def AllShp (G : Graph) (s : State) : Prop := ∀ r, Shp G s.obj r (s.pc r)

theorem allShp_setPc {G : Graph} {t : State} {p : Nat} {c : Pc} (h : ∀ r, r ≠ p → Shp G t.obj r (t.pc r)) (hc : Shp G t.obj p c) :
    AllShp G (setPc t p c) := by
  intro r
  by_cases e : r = p
  · subst e; simpa [setPc] using hc
  · simpa [setPc, upd_other _ _ e] using h r e

theorem allShp_setSt {G : Graph} {t : State} {q : Nat} {x : St} (h : AllShp G t) : AllShp G (setSt t q x) :=
  fun r => shp_wakeSt q (h r)

theorem shp_exitW {G : Graph} {t : State} {p : Nat} {sec : Bool} (h : AllShp G t) (hs : ∃ l, sibs G p = some l) : AllShp G (exitW t p sec) := by
  unfold exitW
  split
  · exact allShp_setPc (fun r _ => h r) hs
  · split
    · exact allShp_setPc (fun r _ => h r) hs
    · exact allShp_setPc (fun r _ => allShp_setSt h r) trivial

theorem shp_topW {G : Graph} {t : State} {p : Nat} {sec : Bool} {l : List Nat} (h : AllShp G t) (hs : sibs G p = some l) :
    AllShp G (topW t p sec l) := by
  unfold topW
  split
  · rename_i ho
    exact allShp_setPc (fun r _ => allShp_setSt h r) ⟨⟨_, hs⟩, .inr ho⟩
  · split
    · exact shp_exitW h ⟨_, hs⟩
    · exact allShp_setPc (fun r _ => h r) ⟨by simp, [], hs⟩

theorem shp_nextSib {G : Graph} {t : State} {p : Nat} {sec need : Bool} {all pre l : List Nat} (h : AllShp G t) (hs : sibs G p = some all)
    (hl : all = pre ++ l) : AllShp G (nextSib t p sec need all l) := by
  unfold nextSib
  split
  · exact allShp_setPc (fun r _ => h r) ⟨by simp, pre, by rw [hs, hl]⟩
  · split
    · exact shp_topW h hs
    · exact shp_exitW h ⟨_, hs⟩

theorem shp_nextPred {G : Graph} {t : State} {p : Nat} {all pre l : List Nat} (h : AllShp G t) (hs : sibs G p = some all)
    (hl : all = pre ++ l) : AllShp G (nextPred t p l) := by
  unfold nextPred
  split
  · exact allShp_setPc (fun r _ => h r) ⟨⟨pre, by rw [hs, hl]⟩, nofun⟩
  · exact allShp_setPc (fun r _ => h r) ⟨⟨pre, by rw [hs, hl]⟩, fun _ => rfl⟩

theorem shp_finish {G : Graph} {t : State} {p : Nat} (h : AllShp G t) : AllShp G (finish G t p) := by
  unfold finish
  dsimp only
  split
  · exact allShp_setPc (fun r _ => allShp_setSt (x := .done) h r) trivial
  · exact allShp_setPc (fun r _ => allShp_setSt h r) trivial

theorem shp_adv {G : Graph} {s s' : State} {p : Nat} (hi : AllShp G s) (h : adv G s p = some s') : AllShp G s' := by
  have hp := hi p
  unfold adv at h
  split at h
  · simp at h
  · split at h
    · split at h
      · cases h; exact allShp_setPc (fun r _ => hi r) trivial
      · cases h; exact allShp_setPc (fun r _ => allShp_setSt hi r) trivial
    · simp at h
  · cases h; exact allShp_setPc (fun r _ => allShp_setSt (t := { s with rte := upd s.rte p 0 }) hi r) trivial
  · cases h; refine allShp_setPc (fun r _ => allShp_setSt hi r) ?_; cases G.kind p <;> trivial
  · cases h; exact shp_finish hi
  · split at h
    · rename_i hs; cases h; exact allShp_setPc (fun r _ => hi r) hs
    · rename_i hs; cases h; exact shp_nextPred hi hs (pre := []) rfl
  · cases h; exact allShp_setPc (fun r _ => allShp_setSt hi r) trivial
  · rename_i q l w hpc
    rw [hpc] at hp
    obtain ⟨⟨pre, hs⟩, _⟩ := hp
    split at h
    · dsimp only at h
      split at h
      · cases h; exact shp_nextPred (t := { s with ev := upd s.ev q false }) hi hs (pre := pre ++ [q]) (by simp)
      · cases h; exact allShp_setPc (t := { s with ev := upd s.ev q false }) (fun r _ => hi r) ⟨⟨pre, hs⟩, nofun⟩
    · simp at h
  · split at h
    · rename_i ho; cases h; exact allShp_setPc (fun r _ => hi r) (.inr ho)
    · split at h
      · rename_i hs; cases h; exact allShp_setPc (fun r _ => hi r) hs
      · rename_i hs; cases h; exact allShp_setPc (fun r _ => hi r) ⟨_, hs⟩
  · split at h
    · split at h
      · rename_i hs; cases h; exact allShp_setPc (fun r _ => hi r) hs
      · rename_i hs; cases h; exact allShp_setPc (fun r _ => hi r) ⟨_, hs⟩
    · simp at h
  · rename_i sec hpc
    rw [hpc] at hp
    obtain ⟨l, hs⟩ := hp
    cases h; rw [hs]; exact shp_topW hi hs
  · rename_i sec w hpc
    rw [hpc] at hp
    obtain ⟨⟨l, hs⟩, _⟩ := hp
    split at h
    · cases h; rw [hs]; exact shp_nextSib hi hs (pre := []) rfl
    · simp at h
  · rename_i sec need w hpc
    rw [hpc] at hp
    exact absurd rfl hp.1
  · rename_i sec need q l w hpc
    rw [hpc] at hp
    obtain ⟨_, pre, hs⟩ := hp
    split at h
    · dsimp only at h
      split at h
      · split at h
        · rename_i ho
          cases h
          exact allShp_setPc (fun r _ => allShp_setSt (t := { s with ev := upd s.ev q false }) hi r) ⟨⟨q, l, rfl, .inr ho⟩, pre, hs⟩
        · cases h; rw [hs]; exact shp_nextSib (t := { s with ev := upd s.ev q false }) hi hs (pre := pre ++ [q]) (by simp)
      · cases h; exact allShp_setPc (t := { s with ev := upd s.ev q false }) (fun r _ => hi r) ⟨by simp, pre, hs⟩
    · simp at h
  · rename_i sec l w hpc
    rw [hpc] at hp
    obtain ⟨⟨q, t, rfl, _⟩, pre, hs⟩ := hp
    split at h
    · cases h; rw [hs]; exact shp_nextSib hi hs (pre := pre ++ [q]) (by simp)
    · simp at h
  · rename_i hpc
    rw [hpc] at hp
    cases h; exact allShp_setPc (fun r _ => allShp_setSt (t := { s with rte := upd s.rte p (s.rte p + 1) }) hi r) hp
  · cases h; exact allShp_setPc (fun r _ => allShp_setSt hi r) trivial
  · cases h
    refine shp_finish ?_
    intro r
    exact shp_wakeDrop p (fun r hr => upd_other _ _ hr) (hi r)
  · cases h; exact allShp_setPc (fun r _ => hi r) trivial
  · cases h
    refine allShp_setPc (fun r _ => ?_) trivial
    split
    · exact allShp_setSt (x := .scheduled) hi r
    · exact hi r
  · simp at h
  · simp at h

theorem shp_step {G : Graph} {s : State} (hi : AllShp G s) (o : Op) : AllShp G (step G s o) := by
  cases o with
  | adv p =>
    show AllShp G ((adv G s p).getD s)
    cases h : adv G s p with
    | none => exact hi
    | some t => exact shp_adv hi h
  | spawn =>
    unfold step spawn
    cases s.hopper with
    | nil => exact hi
    | cons q t =>
      dsimp only
      split
      · exact allShp_setPc (t := s) (fun r _ => hi r) trivial
      · exact hi
  | raise p =>
    unfold step
    dsimp only
    split
    · intro r
      have up : ∀ q, s.obj q ≠ 0 → upd s.obj p (s.obj p + 1) q ≠ 0 := by
        intro q hq; by_cases e : q = p
        · simp [e]
        · rwa [upd_other _ _ e]
      have := hi r
      show Shp G (upd s.obj p (s.obj p + 1)) r (s.pc r)
      generalize s.pc r = c at this ⊢
      cases c <;> try exact this
      · exact this.imp id (up r)
      · exact ⟨this.1, this.2.imp id (up r)⟩
      · obtain ⟨⟨q, t, e, h⟩, h'⟩ := this
        exact ⟨⟨q, t, e, h.imp id (up q)⟩, h'⟩
    · exact hi
  | drop p =>
    unfold step
    dsimp only
    split
    · exact hi
    · rename_i h0
      split
      · intro r; exact shp_wakeDrop p (fun r hr => upd_other _ _ hr) (hi r)
      · rename_i h1
        intro r
        have up : ∀ q, s.obj q ≠ 0 → upd s.obj p (s.obj p - 1) q ≠ 0 := by
          intro q hq; by_cases e : q = p
          · subst e; simp; omega
          · rwa [upd_other _ _ e]
        have := hi r
        show Shp G (upd s.obj p (s.obj p - 1)) r (s.pc r)
        generalize s.pc r = c at this ⊢
        cases c <;> try exact this
        · exact this.imp id (up r)
        · exact ⟨this.1, this.2.imp id (up r)⟩
        · obtain ⟨⟨q, t, e, h⟩, h'⟩ := this
          exact ⟨⟨q, t, e, h.imp id (up q)⟩, h'⟩

theorem shp_run (G : Graph) : ∀ (ops : List Op) (s : State), AllShp G s → AllShp G (run G s ops)
  | [], _, h => h
  | o :: ops, s, h => shp_run G ops (step G s o) (shp_step h o)

theorem shp_reach (G : Graph) (ops : List Op) : AllShp G (run G {} ops) := shp_run G ops {} fun _ => trivial

end Verif.PhaseRun
