import Verif.Spec.PhaseCalls
import Verif.Props.PhaseObj
import Verif.Props.Traverse
import Verif.Lemmas.Phase
/-! # Which methods of which components the phases call, and in which order -/
namespace Verif.PhaseCalls
open Verif
open Verif.PhaseRun (Pc St Kind Inv setPc upd)

/-! ## Traversals -/

theorem loop_kids {rec : Nat → Traverse.State → Option (Traverse.State × List Nat)} {c : Nat}
    (hrec : ∀ d s r, rec d s = some r → r.1.kids = s.kids ∧ r.1.next = s.next) :
    ∀ (m : Nat) (d : Option Nat) (s : Traverse.State) (r : Traverse.State × List Nat), Traverse.loop rec c m d s = some r →
      r.1.kids = s.kids ∧ r.1.next = s.next := by
  intro m
  induction m with
  | zero =>
    intro d s r h
    cases d with
    | none => simp only [Traverse.loop, Option.some.injEq] at h; subst h; exact ⟨rfl, rfl⟩
    | some d => simp only [Traverse.loop] at h; cases h
  | succ m ih =>
    intro d s r h
    cases d with
    | none => simp only [Traverse.loop, Option.some.injEq] at h; subst h; exact ⟨rfl, rfl⟩
    | some d =>
      simp only [Traverse.loop] at h
      cases hx : rec d s with
      | none => simp only [hx] at h; cases h
      | some x =>
        simp only [hx] at h
        cases hz : Traverse.loop rec c m (Traverse.getNext x.1 c).2 (Traverse.getNext x.1 c).1 with
        | none => simp only [hz] at h; cases h
        | some z =>
          simp only [hz, Option.some.injEq] at h
          subst h
          have h1 := ih _ _ _ hz
          have h2 := hrec _ _ _ hx
          exact ⟨h1.1.trans h2.1, h1.2.trans h2.2⟩

theorem topdown_kids {ex : Nat → Traverse.State → Traverse.State} (hex : Traverse.Keeps ex) (act : Nat → Bool) (m : Nat) :
    ∀ (n c : Nat) (s : Traverse.State) (r : Traverse.State × List Nat), Traverse.topdown ex act m n c s = some r →
      r.1.kids = s.kids ∧ r.1.next = s.next := by
  intro n
  induction n with
  | zero => intro c s r h; simp only [Traverse.topdown] at h; cases h
  | succ n ih =>
    intro c s r h
    have h0 : (if act c = true then ex c s else s).kids = s.kids ∧ (if act c = true then ex c s else s).next = s.next := by
      split
      · exact ⟨(hex c s).1, (hex c s).2.1⟩
      · exact ⟨rfl, rfl⟩
    simp only [Traverse.topdown] at h
    generalize (if act c = true then ex c s else s) = t at h h0
    split at h
    · simp only [Option.some.injEq] at h; subst h; exact h0
    · cases hz : Traverse.loop (Traverse.topdown ex act m n) c m (Traverse.getFirst t c).2 (Traverse.getFirst t c).1 with
      | none => simp only [hz] at h; cases h
      | some z =>
        simp only [hz, Option.some.injEq] at h
        subst h
        have h1 := loop_kids (fun d s r hr => ih d s r hr) _ _ _ _ hz
        exact ⟨h1.1.trans h0.1, h1.2.trans h0.2⟩

/-- A traversal with callbacks that create nothing. -/
theorem visit_keeps {C : Config} {t : Traverse.State} {p : Nat} {w : Call} {r : Traverse.State × List Nat} (ht : Traverse.Tree t) (h0 : 0 < t.next)
    (hex : Traverse.Keeps (C.ex p w)) (h : visit C t p w = some r) : r.1.kids = t.kids ∧ r.1.next = t.next ∧ Listed C t.kids p r.2 := by
  unfold visit at h
  split at h
  · next hk =>
    cases hl : Traverse.taskOrder t.kids (C.act p) C.bound 0 with
    | none => simp only [hl] at h; cases h
    | some l =>
      simp only [hl, Option.map_some, Option.some.injEq] at h
      subst h
      obtain ⟨full, h1, h2⟩ := Traverse.task_post _ _ _ _ _ hl
      exact ⟨rfl, rfl, full, by rw [if_neg (fun x => x.1 hk)]; exact h1, h2⟩
  · next hk =>
    split at h
    · next htop =>
      have h1 := topdown_kids hex _ _ _ _ _ _ h
      obtain ⟨full, h2, h3⟩ := (Traverse.topdown_done (Traverse.keeps_builds hex) _ _ _ _ _ _ ht h0 h).pre
      exact ⟨h1.1, h1.2, full, by rw [if_pos ⟨hk, htop⟩, ← h1.1]; exact h2, h3⟩
    · next htop =>
      have h1 := Traverse.bottomup_same hex _ _ _ _ _ _ ht h
      obtain ⟨full, h2, h3⟩ := h1.post
      exact ⟨h1.kids, h1.next, full, by rw [if_neg (fun x => htop x.2)]; exact h2, h3⟩

/-- A top-down traversal that creates components. -/
theorem visit_builds {C : Config} {t : Traverse.State} {p : Nat} {w : Call} {r : Traverse.State × List Nat} (ht : Traverse.Tree t) (h0 : 0 < t.next)
    (hk : C.G.kind p = .func) (htop : C.top p = true) (hex : Traverse.Builds (C.ex p w)) (h : visit C t p w = some r) :
    Traverse.Tree r.1 ∧ 0 < r.1.next ∧ Listed C r.1.kids p r.2 := by
  have hk' : C.G.kind p ≠ .task := by rw [hk]; decide
  unfold visit at h
  rw [if_neg hk', if_pos htop] at h
  have hd := Traverse.topdown_done hex _ _ _ _ _ _ ht h0 h
  obtain ⟨full, h2, h3⟩ := hd.pre
  exact ⟨hd.below.tree, Nat.lt_of_lt_of_le h0 hd.below.next, full, by rw [if_pos ⟨hk', htop⟩]; exact h2, h3⟩

/-! ## How far a task is -/

/-- How far a task is, in numbers. -/
def sg : Pc → Nat
  | .idle => 0 | .waitPreds => 1 | .syncing => 2 | .started => 3 | .fexec => 4 | .crit => 5 | .oexec => 6
  | .ended => 8 | .cleanup => 9 | .sched _ => 9 | .over => 9
  | _ => 7

theorem sg_wakeSt (q : Nat) (c : Pc) : sg (PhaseRun.wakeSt q c) = sg c := by
  cases c <;> simp only [PhaseRun.wakeSt] <;> (try split) <;> simp only [sg]

theorem sg_wakeDrop (q p : Nat) (c : Pc) : sg (PhaseRun.wakeDrop q p c) = sg c := by
  cases c <;> simp only [PhaseRun.wakeDrop] <;> (try split) <;> simp only [sg]

theorem sg_other {G : PhaseRun.Graph} {s s' : PhaseRun.State} {p q : Nat} (hpq : p ≠ q) (h : PhaseRun.adv G s q = some s') :
    sg (s'.pc p) = sg (s.pc p) :=
  PhaseObj.other_pc (G := G) (P := fun c => sg c = sg (s.pc p)) (fun q c h => (sg_wakeSt q c).trans h) (fun c h => (sg_wakeDrop _ _ c).trans h) hpq rfl h

theorem crit_sg (c : Pc) : sg c = 5 ↔ c = .crit := by cases c <;> simp [sg]
theorem ended_sg (c : Pc) : sg c = 8 ↔ c = .ended := by cases c <;> simp [sg]

/-- Steps of a task. -/
def goOk (k : Kind) : Nat → Nat → Bool
  | 1, 2 => true
  | 2, 3 => true
  | 3, 4 => k == .func
  | 3, 5 => k == .task
  | 3, 6 => k == .other
  | 4, 7 => true
  | 5, 7 => true
  | 6, 9 => true
  | 7, 7 => true
  | 7, 8 => true
  | 8, 9 => true
  | 9, 9 => true
  | _, _ => false

theorem sg_setPc (s : PhaseRun.State) (p : Nat) (c : Pc) : sg ((setPc s p c).pc p) = sg c := by simp [setPc]

theorem sg_finish (G : PhaseRun.Graph) (s : PhaseRun.State) (p : Nat) : sg ((PhaseRun.finish G s p).pc p) = 9 := by
  unfold PhaseRun.finish; dsimp only; split <;> rw [sg_setPc] <;> rfl

theorem sg_nextPred (s : PhaseRun.State) (p : Nat) (l : List Nat) : sg ((PhaseRun.nextPred s p l).pc p) = 7 := by
  unfold PhaseRun.nextPred; split <;> rw [sg_setPc] <;> rfl

theorem sg_exitW (s : PhaseRun.State) (p : Nat) (b : Bool) : sg ((PhaseRun.exitW s p b).pc p) = 7 ∨ sg ((PhaseRun.exitW s p b).pc p) = 8 := by
  unfold PhaseRun.exitW; repeat' split
  all_goals (rw [sg_setPc]; simp [sg])

theorem sg_topW (s : PhaseRun.State) (p : Nat) (b : Bool) (l : List Nat) : sg ((PhaseRun.topW s p b l).pc p) = 7 ∨ sg ((PhaseRun.topW s p b l).pc p) = 8 := by
  unfold PhaseRun.topW; repeat' split
  all_goals first | exact sg_exitW _ _ _ | (rw [sg_setPc]; simp [sg])

theorem sg_nextSib (s : PhaseRun.State) (p : Nat) (b c : Bool) (l m : List Nat) :
    sg ((PhaseRun.nextSib s p b c l m).pc p) = 7 ∨ sg ((PhaseRun.nextSib s p b c l m).pc p) = 8 := by
  unfold PhaseRun.nextSib; repeat' split
  all_goals first | exact sg_exitW _ _ _ | exact sg_topW _ _ _ _ | (rw [sg_setPc]; simp [sg])

theorem go_mid {k : Kind} {n : Nat} (h : n = 7 ∨ n = 8) : goOk k 7 n = true := by rcases h with rfl | rfl <;> rfl

theorem adv_sg {G : PhaseRun.Graph} {s s' : PhaseRun.State} {p : Nat} (hi : Inv G s) (h : PhaseRun.adv G s p = some s') :
    goOk (G.kind p) (sg (s.pc p)) (sg (s'.pc p)) = true := by
  have hp := hi.pcs p
  unfold PhaseRun.adv at h
  generalize hc : s.pc p = c at h hp
  cases c with
  | idle => cases h
  | waitPreds =>
    dsimp only at h
    split at h
    · split at h
      · next hd => rw [hd] at hp; cases hp
      · cases h; rw [sg_setPc]; rfl
    · cases h
  | syncing => cases h; rw [sg_setPc]; rfl
  | started => cases h; rw [sg_setPc]; cases G.kind p <;> rfl
  | oexec => cases h; rw [sg_finish]; rfl
  | fexec =>
    dsimp only at h
    split at h <;> cases h
    · rw [sg_setPc]; rfl
    · rw [sg_nextPred]; rfl
  | predWait l w =>
    cases l with
    | nil => cases h; rw [sg_setPc]; rfl
    | cons q l =>
      dsimp only at h
      split at h
      · split at h <;> cases h
        · rw [sg_nextPred]; rfl
        · rw [sg_setPc]; rfl
      · cases h
  | crit =>
    dsimp only at h
    split at h
    · cases h; rw [sg_setPc]; rfl
    · split at h <;> cases h <;> rw [sg_setPc] <;> rfl
  | ownFirst w =>
    dsimp only at h
    split at h
    · split at h <;> cases h <;> rw [sg_setPc] <;> rfl
    · cases h
  | startW b => cases h; exact go_mid (sg_topW _ _ _ _)
  | ownDrop b w =>
    dsimp only at h
    split at h <;> cases h
    exact go_mid (sg_nextSib _ _ _ _ _ _)
  | sib b n l w =>
    cases l with
    | nil => cases h; exact go_mid (sg_nextSib _ _ _ _ _ _)
    | cons q l =>
      dsimp only at h
      split at h
      · split at h
        · split at h <;> cases h
          · rw [sg_setPc]; rfl
          · exact go_mid (sg_nextSib _ _ _ _ _ _)
        · cases h; rw [sg_setPc]; rfl
      · cases h
  | sibDrop b l w =>
    dsimp only at h
    split at h <;> cases h
    exact go_mid (sg_nextSib _ _ _ _ _ _)
  | beforeRte => cases h; rw [sg_setPc]; rfl
  | ended => cases h; rw [sg_setPc]; rfl
  | cleanup => cases h; rw [sg_finish]; rfl
  | sched l =>
    cases l with
    | nil => cases h; rw [sg_setPc]; rfl
    | cons q l => cases h; rw [sg_setPc]; rfl
  | over => cases h
  | crashed => cases h

/-! ## The invariant -/

/-- The calls `w` of phase `p` have been made. -/
def did (s : State) (p : Nat) : Call → Bool
  | .started => decide (3 ≤ sg (s.ph.pc p))
  | .exec => decide (5 ≤ sg (s.ph.pc p)) && !decide (p ∈ s.forks)
  | .readyToEnd => decide (7 ≤ sg (s.ph.pc p))
  | .ended => decide (8 ≤ sg (s.ph.pc p))

structure J (C : Config) (b : Nat) (s : State) : Prop where
  inv : Inv C.G s.ph
  tree : Traverse.Tree s.tree
  pos : 0 < s.tree.next
  fk : ∀ p ∈ s.forks, s.ph.pc p = .crit
  fnd : s.forks.Nodup
  list : ∀ p, C.G.kind p ≠ .other → ∀ w, w ≠ .readyToEnd → ¬ (p = b ∧ w = .started) →
    if did s p w = true then Listed C s.tree.kids p (callsOf s p w) else callsOf s p w = []
  made : ∀ e ∈ s.calls, did s e.1 e.2.2 = true
  apart : ∀ e ∈ s.calls, ¬ Prior C.G e.1 e.1
  sorted : s.calls.Pairwise fun e f => ¬ Prior C.G f.1 e.1 ∧ (e.1 = f.1 → e.2.2.rank ≤ f.2.2.rank)

theorem past_sg {c : Pc} (h : 2 ≤ sg c) : PhaseRun.past c = true := by cases c <;> simp [sg] at h <;> rfl

theorem past_of_done {G : PhaseRun.Graph} {s : PhaseRun.State} (hi : Inv G s) {p : Nat} (h : s.st p = .done) : 9 ≤ sg (s.pc p) := by
  have hp := hi.pcs p
  rw [h] at hp
  cases hc : s.pc p <;> rw [hc] at hp <;> first | (simp [PhaseRun.pcst] at hp; done) | simp [sg]

theorem prior_done {G : PhaseRun.Graph} {s : PhaseRun.State} (hi : Inv G s) {p q : Nat} (h : Prior G p q) (hq : 2 ≤ sg (s.pc q)) : s.st p = .done := by
  obtain ⟨r, hb, hr⟩ := h
  have hd : s.st r = .done := hi.past q (past_sg hq) r hr
  clear hr
  induction hb with
  | refl => exact hd
  | step _ hm ih => exact ih (hi.past _ (past_sg (by have := past_of_done hi hd; omega)) _ hm)

theorem did_sg {s : State} {p : Nat} {w : Call} (h : did s p w = true) : 3 ≤ sg (s.ph.pc p) := by
  cases w <;> simp [did] at h <;> omega

/-- A step without calls. -/
theorem j_quiet {C : Config} {b : Nat} {s s' : State} (hj : J C b s) (hi : Inv C.G s'.ph) (ht : s'.tree = s.tree) (hc : s'.calls = s.calls)
    (hfk : ∀ p ∈ s'.forks, s'.ph.pc p = .crit) (hfn : s'.forks.Nodup) (d1 : ∀ r w, did s r w = true → did s' r w = true)
    (d2 : ∀ r w, w ≠ .readyToEnd → C.G.kind r ≠ .other → did s' r w = did s r w) : J C b s' := by
  refine ⟨hi, ht ▸ hj.tree, ht ▸ hj.pos, hfk, hfn, ?_, ?_, hc ▸ hj.apart, hc ▸ hj.sorted⟩
  · intro p hp w hw hb
    rw [d2 p w hw hp, ht]
    have : callsOf s' p w = callsOf s p w := by simp only [callsOf, hc]
    rw [this]
    exact hj.list p hp w hw hb
  · rw [hc]; exact fun e he => d1 _ _ (hj.made e he)

theorem callsOf_map (p r : Nat) (w w' : Call) (l : List Nat) :
    ((l.map fun c => (p, c, w)).filter fun e : Nat × Nat × Call => e.1 == r && e.2.2 == w').map (·.2.1) = if p = r ∧ w = w' then l else [] := by
  induction l with
  | nil => simp
  | cons a l ih =>
    simp only [List.map_cons, List.filter_cons]
    by_cases h : p = r ∧ w = w'
    · obtain ⟨rfl, rfl⟩ := h
      simp only [beq_self_eq_true, Bool.and_self, if_true, List.map_cons, and_self] at ih ⊢
      rw [ih]
    · have : (p == r && w == w') = false := by
        simp only [Bool.and_eq_false_iff, beq_eq_false_iff_ne]
        by_cases h1 : p = r
        · exact .inr fun h2 => h ⟨h1, h2⟩
        · exact .inl h1
      simp only [this, if_neg h, Bool.false_eq_true, if_false] at ih ⊢
      exact ih

/-- A step with calls. -/
theorem j_traverse {C : Config} {b : Nat} (hB : Built C b) {s s' : State} {p : Nat} {w : Call} {ph : PhaseRun.State} {fs : List Nat} (hj : J C b s)
    (hs' : s' = { s with ph := ph, forks := fs, tree := s'.tree, calls := s'.calls })
    (hv : visit C s.tree p w = some (s'.tree, l)) (hcalls : s'.calls = s.calls ++ l.map fun c => (p, c, w)) (hi : Inv C.G ph)
    (hk : C.G.kind p ≠ .other) (hsg : 2 ≤ sg (s.ph.pc p)) (hsg' : sg (s.ph.pc p) < 8) (hcap : ∀ w', did s p w' = true → w'.rank ≤ w.rank)
    (hnot : w ≠ .readyToEnd → did s p w = false) (hdid : did s' p w = true)
    (hfk : ∀ p ∈ fs, ph.pc p = .crit) (hfn : fs.Nodup) (d1 : ∀ r w, did s r w = true → did s' r w = true)
    (d2 : ∀ r w', w' ≠ .readyToEnd → C.G.kind r ≠ .other → ¬ (r = p ∧ w' = w) → did s' r w' = did s r w') : J C b s' := by
  have e1 : s'.ph = ph := congrArg State.ph hs'
  have e2 : s'.forks = fs := congrArg State.forks hs'
  have hnd : s.ph.st p ≠ .done := fun h => by have := past_of_done hj.inv h; omega
  have hof : ∀ r w', callsOf s' r w' = callsOf s r w' ++ if p = r ∧ w = w' then l else [] := by
    intro r w'
    simp only [callsOf, hcalls, List.filter_append, List.map_append]
    rw [callsOf_map]
  have hof' : ∀ r w', ¬ (r = p ∧ w' = w) → callsOf s' r w' = callsOf s r w' := by
    intro r w' h
    rw [hof, if_neg (fun x => h ⟨x.1.symm, x.2.symm⟩), List.append_nil]
  have hmade : ∀ e ∈ s'.calls, did s' e.1 e.2.2 = true := by
    intro e he
    rw [hcalls, List.mem_append] at he
    rcases he with he | he
    · exact d1 _ _ (hj.made e he)
    · obtain ⟨c, _, rfl⟩ := List.mem_map.1 he; exact hdid
  have hapart : ∀ e ∈ s'.calls, ¬ Prior C.G e.1 e.1 := by
    intro e he
    rw [hcalls, List.mem_append] at he
    rcases he with he | he
    · exact hj.apart e he
    · obtain ⟨c, _, rfl⟩ := List.mem_map.1 he
      exact fun h => hnd (prior_done hj.inv h hsg)
  have hsorted : s'.calls.Pairwise fun e f => ¬ Prior C.G f.1 e.1 ∧ (e.1 = f.1 → e.2.2.rank ≤ f.2.2.rank) := by
    rw [hcalls, List.pairwise_append]
    refine ⟨hj.sorted, ?_, ?_⟩
    · rw [List.pairwise_map]
      refine List.Pairwise.imp (R := fun _ _ => True) (fun _ => ?_) (List.pairwise_of_forall (fun _ _ => trivial))
      exact ⟨fun h => hnd (prior_done hj.inv h hsg), fun _ => Nat.le_refl _⟩
    · intro e he f hf
      obtain ⟨c, _, rfl⟩ := List.mem_map.1 hf
      have hm := hj.made e he
      refine ⟨fun h => hnd (prior_done hj.inv h (Nat.le_trans (by decide) (did_sg hm))), fun h => ?_⟩
      rw [h] at hm
      exact hcap _ hm
  by_cases hbe : p = b ∧ w = .exec
  · obtain ⟨rfl, rfl⟩ := hbe
    have hvb := visit_builds hj.tree hj.pos hB.kind hB.top hB.builds hv
    refine ⟨e1 ▸ hi, hvb.1, hvb.2.1, by rw [e1, e2]; exact hfk, e2 ▸ hfn, ?_, hmade, hapart, hsorted⟩
    intro r hr w' hw' hb
    have hold := hj.list r hr w' hw' hb
    by_cases hrw : r = p ∧ w' = .exec
    · obtain ⟨rfl, rfl⟩ := hrw
      rw [hnot (by decide), if_neg (by decide)] at hold
      rw [hdid, if_pos rfl, hof, if_pos ⟨rfl, rfl⟩, hold]
      exact hvb.2.2
    · rw [d2 r w' hw' hr hrw, hof' r w' hrw]
      have hfalse : did s r w' = false := by
        by_cases hrp : r = p
        · subst hrp
          cases w' with
          | started => exact absurd ⟨rfl, rfl⟩ hb
          | exec => exact absurd ⟨rfl, rfl⟩ hrw
          | readyToEnd => exact absurd rfl hw'
          | ended => simp only [did, decide_eq_false_iff_not]; omega
        · cases hd : did s r w' with
          | false => rfl
          | true => exact absurd (prior_done hj.inv (hB.first r hr hrp) (Nat.le_trans (by decide) (did_sg hd))) hnd
      rw [hfalse] at hold ⊢
      exact hold
  · have hvk := visit_keeps hj.tree hj.pos (hB.keeps p w hbe) hv
    refine ⟨e1 ▸ hi, hj.tree.congr hvk.1 hvk.2.1, hvk.2.1 ▸ hj.pos, by rw [e1, e2]; exact hfk, e2 ▸ hfn, ?_, hmade, hapart, hsorted⟩
    intro r hr w' hw' hb
    have hold := hj.list r hr w' hw' hb
    have hkids : s'.tree.kids = s.tree.kids := hvk.1
    rw [hkids]
    by_cases hrw : r = p ∧ w' = w
    · obtain ⟨rfl, rfl⟩ := hrw
      rw [hnot hw', if_neg (by decide)] at hold
      rw [hdid, if_pos rfl, hof, if_pos ⟨rfl, rfl⟩, hold]
      exact hvk.2.2
    · rw [d2 r w' hw' hr hrw, hof' r w' hrw]
      exact hold

theorem did_congr {s s' : State} {r : Nat} (h : sg (s'.ph.pc r) = sg (s.ph.pc r)) (hf : r ∈ s'.forks ↔ r ∈ s.forks) (w : Call) :
    did s' r w = did s r w := by
  cases w <;> simp only [did, h, hf]

theorem crit_other {G : PhaseRun.Graph} {s s' : PhaseRun.State} {p q : Nat} (hpq : p ≠ q) (h : PhaseRun.adv G s q = some s') (hc : s.pc p = .crit) :
    s'.pc p = .crit := by
  rw [← crit_sg, sg_other hpq h, hc]; rfl

theorem j_fork {C : Config} {b : Nat} (hB : Built C b) {s : State} (hj : J C b s) {p : Nat} (hp : p ∈ s.forks) :
    (traverse C s p .exec s.ph (s.forks.erase p)).hung = false → s.hung = false → J C b (traverse C s p .exec s.ph (s.forks.erase p)) := by
  intro hh _
  unfold traverse at hh ⊢
  have hc := hj.fk p hp
  have hkt : C.G.kind p = .task := by
    have := hj.inv.pcs p
    rw [hc] at this
    cases hst : s.ph.st p <;> rw [hst] at this <;> simp [PhaseRun.pcst] at this
    exact this
  cases hv : visit C s.tree p .exec with
  | none => simp only [hv] at hh; cases hh
  | some r =>
    simp only
    have hne : ∀ r, r ≠ p → (r ∈ s.forks.erase p ↔ r ∈ s.forks) := fun r h => List.mem_erase_of_ne h
    have hpe : p ∉ s.forks.erase p := fun h => (List.Nodup.mem_erase_iff hj.fnd).1 h |>.1 rfl
    refine j_traverse (p := p) (w := .exec) (ph := s.ph) (fs := s.forks.erase p) (l := r.2) hB hj rfl hv rfl hj.inv (by rw [hkt]; decide) (by rw [hc]; decide)
      (by rw [hc]; decide) ?_ ?_ ?_ ?_ ?_ ?_ ?_
    · intro w' hw'
      cases w' with
      | started => decide
      | exec => decide
      | readyToEnd => simp only [did, hc] at hw'; cases hw'
      | ended => simp only [did, hc] at hw'; cases hw'
    · intro _; simp [did, hp]
    · simp [did, hc, hpe]; decide
    · exact fun q hq => hj.fk q (List.mem_of_mem_erase hq)
    · exact hj.fnd.erase p
    · intro r' w' hd
      by_cases hr : r' = p
      · subst hr
        cases w' with
        | exec => simp [did, hp] at hd
        | started => exact hd
        | readyToEnd => exact hd
        | ended => exact hd
      · exact (did_congr (s := s) (by rfl) (hne r' hr) w').trans hd
    · intro r' w' _ _ hn
      by_cases hr : r' = p
      · subst hr
        cases w' with
        | exec => exact absurd ⟨rfl, rfl⟩ hn
        | started => rfl
        | readyToEnd => rfl
        | ended => rfl
      · exact did_congr (s := s) (by rfl) (hne r' hr) w'

theorem due_some {G : PhaseRun.Graph} {s ph : PhaseRun.State} {p : Nat} {w : Call} (hi : Inv G s) (hi' : Inv G ph) (h : PhaseRun.adv G s p = some ph)
    (hd : due (G.kind p) (s.pc p) (ph.pc p) = some w) :
    G.kind p ≠ .other ∧ ((w = .started ∧ sg (s.pc p) = 2 ∧ sg (ph.pc p) = 3) ∨ (w = .exec ∧ sg (s.pc p) = 4 ∧ sg (ph.pc p) = 7) ∨
      (w = .readyToEnd ∧ sg (s.pc p) = 7 ∧ sg (ph.pc p) = 7) ∨ (w = .ended ∧ sg (s.pc p) = 7 ∧ sg (ph.pc p) = 8)) := by
  have hgo := adv_sg hi h
  have hp := hi.pcs p
  have hp' := hi'.pcs p
  unfold due at hd
  split at hd
  · next hc =>
    split at hd
    · cases hd
    · next hk =>
      cases hd
      refine ⟨hk, .inl ⟨rfl, by rw [hc]; rfl, ?_⟩⟩
      simp only [PhaseRun.adv, hc, Option.some.injEq] at h
      rw [← h, sg_setPc]; rfl
  · next hc =>
    cases hd
    rw [hc] at hp
    refine ⟨fun hk => ?_, .inr (.inl ⟨rfl, by rw [hc]; rfl, ?_⟩)⟩
    · rw [hk] at hp; cases hst : s.st p <;> rw [hst] at hp <;> simp [PhaseRun.pcst] at hp
    · rw [hc] at hgo
      generalize sg (ph.pc p) = n at hgo
      simp only [sg] at hgo
      unfold goOk at hgo
      split at hgo <;> first | omega | cases hgo
  · next hc =>
    cases hd
    rw [hc] at hp
    refine ⟨fun hk => ?_, .inr (.inr (.inl ⟨rfl, by rw [hc]; rfl, ?_⟩))⟩
    · rw [hk] at hp; cases hst : s.st p <;> rw [hst] at hp <;> simp [PhaseRun.pcst] at hp
    · simp only [PhaseRun.adv, hc, Option.some.injEq] at h
      rw [← h, sg_setPc]; rfl
  · split at hd
    · next he =>
      cases hd
      rw [he] at hp'
      refine ⟨fun hk => ?_, .inr (.inr (.inr ⟨rfl, ?_, (ended_sg _).2 he⟩))⟩
      · rw [hk] at hp'; cases hst : ph.st p <;> rw [hst] at hp' <;> simp [PhaseRun.pcst] at hp'
      · rw [he] at hgo
        generalize sg (s.pc p) = n at hgo
        simp only [sg] at hgo
        unfold goOk at hgo
        split at hgo <;> first | omega | cases hgo
    · cases hd

theorem due_none {G : PhaseRun.Graph} {s ph : PhaseRun.State} {p : Nat} (hi : Inv G s) (h : PhaseRun.adv G s p = some ph)
    (hd : due (G.kind p) (s.pc p) (ph.pc p) = none) :
    (G.kind p = .task ∧ sg (s.pc p) = 3 ∧ sg (ph.pc p) = 5) ∨
    (¬ (s.pc p = .started ∧ G.kind p = .task) ∧ (G.kind p = .other ∧ sg (s.pc p) ≤ sg (ph.pc p) ∨
      (sg (s.pc p), sg (ph.pc p)) ∈ [(1, 2), (3, 4), (5, 7), (7, 7), (8, 9), (9, 9)])) := by
  have hgo := adv_sg hi h
  have hp := hi.pcs p
  have h4 : sg (s.pc p) ≠ 4 := by
    intro h4
    have : s.pc p = .fexec := by cases hc : s.pc p <;> rw [hc] at h4 <;> simp [sg] at h4
    rw [this] at hd; cases hd
  have h2 : sg (s.pc p) = 2 → G.kind p = .other := by
    intro h2
    have : s.pc p = .syncing := by cases hc : s.pc p <;> rw [hc] at h2 <;> simp [sg] at h2
    rw [this] at hd
    simp only [due] at hd
    split at hd
    · next h => exact h
    · cases hd
  have h8 : sg (ph.pc p) ≠ 8 := by
    intro h8
    have := (ended_sg _).1 h8
    rw [this] at hd
    unfold due at hd
    split at hd
    · next hc => simp only [PhaseRun.adv, hc, Option.some.injEq] at h; rw [← h, sg_setPc] at h8; simp [sg] at h8
    · cases hd
    · cases hd
    · simp at hd
  have h6 : sg (s.pc p) = 6 → G.kind p = .other := by
    intro h6
    have : s.pc p = .oexec := by cases hc : s.pc p <;> rw [hc] at h6 <;> simp [sg] at h6
    rw [this] at hp
    cases hst : s.st p <;> rw [hst] at hp <;> simp [PhaseRun.pcst] at hp
    exact hp
  have h3 : s.pc p = .started → sg (s.pc p) = 3 := fun h => by rw [h]; rfl
  generalize sg (s.pc p) = a at *
  generalize sg (ph.pc p) = a' at *
  unfold goOk at hgo
  split at hgo
  · exact .inr ⟨fun h => by have := h3 h.1; omega, .inr (by decide)⟩
  · exact .inr ⟨fun h => by have := h3 h.1; omega, .inl ⟨h2 rfl, by decide⟩⟩
  · exact .inr ⟨fun h => (by rw [h.2] at hgo; cases hgo), .inr (by decide)⟩
  · exact .inl ⟨by simpa using hgo, rfl, rfl⟩
  · exact .inr ⟨fun h => (by rw [h.2] at hgo; cases hgo), .inl ⟨by simpa using hgo, by decide⟩⟩
  · exact absurd rfl h4
  · exact .inr ⟨fun h => by have := h3 h.1; omega, .inr (by decide)⟩
  · exact .inr ⟨fun h => by have := h3 h.1; omega, .inl ⟨h6 rfl, by decide⟩⟩
  · exact .inr ⟨fun h => by have := h3 h.1; omega, .inr (by decide)⟩
  · exact absurd rfl h8
  · exact .inr ⟨fun h => by have := h3 h.1; omega, .inr (by decide)⟩
  · exact .inr ⟨fun h => by have := h3 h.1; omega, .inr (by decide)⟩
  · cases hgo

theorem j_adv {C : Config} {b : Nat} (hG : PhaseRun.Wf C.G) (hB : Built C b) {s : State} (hj : J C b s) (p : Nat) (h0 : s.hung = false)
    (hh : (adv C s p).hung = false) : J C b (adv C s p) := by
  unfold adv at hh ⊢
  split
  · exact hj
  next hcf =>
  rw [if_neg hcf] at hh
  cases ha : PhaseRun.adv C.G s.ph p with
  | none => exact hj
  | some ph =>
    simp only [ha] at hh ⊢
    have hi' := PhaseRun.inv_adv hG hj.inv ha
    have hoth : ∀ r, r ≠ p → sg (ph.pc r) = sg (s.ph.pc r) := fun r hr => sg_other hr ha
    have hpf : p ∉ s.forks := fun h => hcf ⟨hj.fk p h, h⟩
    have hfk' : ∀ q ∈ s.forks, ph.pc q = .crit := fun q hq => crit_other (fun h : q = p => hpf (h ▸ hq)) ha (hj.fk q hq)
    cases hd : due (C.G.kind p) (s.ph.pc p) (ph.pc p) with
    | some w =>
      simp only [hd] at hh ⊢
      unfold traverse at hh ⊢
      cases hv : visit C s.tree p w with
      | none => simp only [hv] at hh; cases hh
      | some r =>
        simp only
        obtain ⟨hk, hds⟩ := due_some hj.inv hi' ha hd
        refine j_traverse (p := p) (w := w) (ph := ph) (fs := s.forks) (l := r.2) hB hj rfl hv rfl hi' hk ?_ ?_ ?_ ?_ ?_ hfk' hj.fnd ?_ ?_
        · omega
        · omega
        · intro w' hw'
          rcases hds with ⟨rfl, h1, h2⟩ | ⟨rfl, h1, h2⟩ | ⟨rfl, h1, h2⟩ | ⟨rfl, h1, h2⟩ <;> cases w' <;> simp [did, h1] at hw' <;> decide
        · intro hw
          rcases hds with ⟨rfl, h1, h2⟩ | ⟨rfl, h1, h2⟩ | ⟨rfl, h1, h2⟩ | ⟨rfl, h1, h2⟩ <;> simp [did, h1] at hw ⊢
        · rcases hds with ⟨rfl, h1, h2⟩ | ⟨rfl, h1, h2⟩ | ⟨rfl, h1, h2⟩ | ⟨rfl, h1, h2⟩ <;> simp [did, h2, hpf]
        · intro r' w' hd
          by_cases hr : r' = p
          · subst hr
            rcases hds with ⟨rfl, h1, h2⟩ | ⟨rfl, h1, h2⟩ | ⟨rfl, h1, h2⟩ | ⟨rfl, h1, h2⟩ <;> cases w' <;> simp [did, h1, h2, hpf] at hd ⊢
          · exact (did_congr (s := s) (hoth r' hr) (by exact Iff.rfl) w').trans hd
        · intro r' w' hw' _ hn
          by_cases hr : r' = p
          · subst hr
            rcases hds with ⟨rfl, h1, h2⟩ | ⟨rfl, h1, h2⟩ | ⟨rfl, h1, h2⟩ | ⟨rfl, h1, h2⟩ <;> cases w' <;> simp [did, h1, h2, hpf] at hn hw' ⊢
          · exact did_congr (s := s) (hoth r' hr) (by exact Iff.rfl) w'
    | none =>
      simp only
      rcases due_none hj.inv ha hd with ⟨hk, h1, h2⟩ | ⟨hn, h12⟩
      · have hst : s.ph.pc p = .started := by cases hc : s.ph.pc p <;> rw [hc] at h1 <;> simp [sg] at h1
        rw [if_pos ⟨hst, hk⟩]
        refine j_quiet hj hi' rfl rfl ?_ ?_ ?_ ?_
        · intro q hq
          rcases List.mem_cons.1 hq with rfl | hq
          · exact (crit_sg _).1 h2
          · exact hfk' q hq
        · exact List.nodup_cons.2 ⟨hpf, hj.fnd⟩
        · intro r w hd
          by_cases hr : r = p
          · subst hr
            cases w <;> simp [did, h1, h2, hpf] at hd ⊢
          · exact (did_congr (s := s) (hoth r hr) (by simp [hr]) w).trans hd
        · intro r w hw _
          by_cases hr : r = p
          · subst hr
            cases w <;> simp [did, h1, h2, hpf] at hw ⊢
          · exact did_congr (s := s) (hoth r hr) (by simp [hr]) w
      · rw [if_neg hn]
        refine j_quiet hj hi' rfl rfl hfk' hj.fnd ?_ ?_
        · intro r w hd
          by_cases hr : r = p
          · subst hr
            have hle : sg (s.ph.pc r) ≤ sg (ph.pc r) := by
              rcases h12 with h | h
              · exact h.2
              · simp only [List.mem_cons, List.not_mem_nil, or_false, Prod.mk.injEq] at h; omega
            cases w <;> simp [did, hpf] at hd ⊢ <;> omega
          · exact (did_congr (s := s) (hoth r hr) (by exact Iff.rfl) w).trans hd
        · intro r w hw hk
          by_cases hr : r = p
          · subst hr
            rcases h12 with h | h
            · exact absurd h.1 hk
            · simp only [List.mem_cons, List.not_mem_nil, or_false, Prod.mk.injEq] at h
              rcases h with ⟨h1, h2⟩ | ⟨h1, h2⟩ | ⟨h1, h2⟩ | ⟨h1, h2⟩ | ⟨h1, h2⟩ | ⟨h1, h2⟩ <;> cases w <;> simp [did, h1, h2, hpf] at hw ⊢
          · exact did_congr (s := s) (hoth r hr) (by exact Iff.rfl) w

theorem sg_step {G : PhaseRun.Graph} {s : PhaseRun.State} {o : PhaseRun.Op} (ho : ∀ p, o ≠ .adv p) (hi : Inv G s) (r : Nat) :
    sg ((PhaseRun.step G s o).pc r) = sg (s.pc r) ∨ (sg (s.pc r) = 0 ∧ sg ((PhaseRun.step G s o).pc r) = 1) := by
  cases o with
  | adv p => exact absurd rfl (ho p)
  | spawn =>
    simp only [PhaseRun.step, PhaseRun.spawn]
    cases hh : s.hopper with
    | nil => exact .inl rfl
    | cons q t =>
      simp only
      split
      · next hc =>
        by_cases hr : r = q
        · subst hr; exact .inr ⟨by rw [hc]; rfl, by simp [setPc, sg]⟩
        · exact .inl (by simp [setPc, upd, hr])
      · exact .inl rfl
  | raise p => simp only [PhaseRun.step]; split <;> exact .inl rfl
  | drop p =>
    simp only [PhaseRun.step]
    repeat' split
    · exact .inl rfl
    · exact .inl (by simp [PhaseRun.wakeDropped, sg_wakeDrop])
    · exact .inl rfl

theorem j_step {C : Config} {b : Nat} (hG : PhaseRun.Wf C.G) (hB : Built C b) {s : State} (hj : J C b s) (o : Op) (h0 : s.hung = false)
    (hh : (step C s o).hung = false) : J C b (step C s o) := by
  have hquiet : ∀ o : PhaseRun.Op, (∀ p, o ≠ .adv p) → J C b { s with ph := PhaseRun.step C.G s.ph o } := by
    intro o ho
    have hs := fun r => sg_step (G := C.G) ho hj.inv r
    have hsame : ∀ r w, did { s with ph := PhaseRun.step C.G s.ph o } r w = did s r w := by
      intro r w
      rcases hs r with h | ⟨h1, h2⟩
      · exact did_congr (s := s) h (by exact Iff.rfl) w
      · cases w <;> simp [did, h1, h2]
    refine j_quiet hj (PhaseRun.inv_step hG hj.inv o) rfl rfl ?_ hj.fnd (fun r w h => (hsame r w).trans h) (fun r w _ _ => hsame r w)
    intro q hq
    have hc := hj.fk q hq
    rw [← crit_sg]
    rcases hs q with h | ⟨h1, _⟩
    · exact h.trans ((crit_sg _).2 hc)
    · rw [hc] at h1; cases h1
  unfold step at hh ⊢
  have hs0 : ¬ (s.hung = true) := by rw [h0]; decide
  rw [if_neg hs0] at hh ⊢
  cases o with
  | ph o =>
    cases o with
    | adv p => exact j_adv hG hB hj p h0 hh
    | spawn => exact hquiet (.spawn) (fun _ h => nomatch h)
    | raise p => exact hquiet (.raise p) (fun _ h => nomatch h)
    | drop p => exact hquiet (.drop p) (fun _ h => nomatch h)
  | fork p =>
    simp only at hh ⊢
    split
    · next hp => rw [if_pos hp] at hh; exact j_fork hB hj hp hh h0
    · exact hj

theorem step_hung {C : Config} {s : State} (h : s.hung = true) (o : Op) : step C s o = s := by
  unfold step; rw [h]; rfl

theorem run_hung {C : Config} (ops : List Op) {s : State} (h : s.hung = true) : run C s ops = s := by
  induction ops with
  | nil => rfl
  | cons o ops ih => show run C (step C s o) ops = s; rw [step_hung h]; exact ih

theorem j_run {C : Config} {b : Nat} (hG : PhaseRun.Wf C.G) (hB : Built C b) (ops : List Op) : ∀ {s : State}, J C b s → s.hung = false →
    (run C s ops).hung = false → J C b (run C s ops) := by
  induction ops with
  | nil => exact fun hj _ _ => hj
  | cons o ops ih =>
    intro s hj h0 hh
    change (run C (step C s o) ops).hung = false at hh
    show J C b (run C (step C s o) ops)
    cases h1 : (step C s o).hung with
    | true => rw [run_hung ops h1, h1] at hh; cases hh
    | false => exact ih (j_step hG hB hj o h0 h1) h1 hh

theorem j_start {C : Config} {b : Nat} {t : Traverse.State} (ht : Traverse.Tree t) (h0 : 0 < t.next) : J C b (start t) where
  inv := PhaseRun.inv_init C.G
  tree := ht
  pos := h0
  fk := nofun
  fnd := List.nodup_nil
  list p _ w _ _ := by
    have : did (start t) p w = false := by cases w <;> simp [did, start, sg]
    rw [this]; rfl
  made := nofun
  apart := nofun
  sorted := List.Pairwise.nil

/-! ## The properties -/

theorem listed_once {C : Config} {t : Traverse.State} {p : Nat} {l : List Nat} (ht : Traverse.Tree t) (h : Listed C t.kids p l) :
    l.Nodup ∧ ∀ c, c ∈ l ↔ Traverse.Desc t.kids 0 c ∧ C.act p c = true := by
  obtain ⟨full, h1, rfl⟩ := h
  have hap : Traverse.Apart t.kids [0] := by
    refine ⟨by simp, ?_⟩
    intro a ha b hb hne
    exact absurd ((List.mem_singleton.mp ha).trans (List.mem_singleton.mp hb).symm) hne
  have hfull : full.Nodup ∧ ∀ c, c ∈ full ↔ Traverse.Desc t.kids 0 c := by
    split at h1
    · refine ⟨Traverse.pre_nodup ht h1 hap, fun c => ⟨fun hc => ?_, fun hc => Traverse.pre_all h1 0 (by simp) c hc⟩⟩
      obtain ⟨d, hd, hdx⟩ := Traverse.pre_desc h1 c hc
      obtain rfl := List.mem_singleton.mp hd
      exact hdx
    · refine ⟨Traverse.post_nodup ht h1 hap, fun c => ⟨fun hc => ?_, fun hc => Traverse.post_all h1 0 (by simp) c hc⟩⟩
      obtain ⟨d, hd, hdx⟩ := Traverse.post_desc h1 c hc
      obtain rfl := List.mem_singleton.mp hd
      exact hdx
  refine ⟨List.Pairwise.filter _ hfull.1, fun c => ?_⟩
  rw [List.mem_filter, hfull.2]

theorem mem_callsOf {s : State} {p c : Nat} {w : Call} : c ∈ callsOf s p w ↔ (p, c, w) ∈ s.calls := by
  simp only [callsOf, List.mem_map, List.mem_filter]
  constructor
  · rintro ⟨⟨a, b, d⟩, ⟨h1, h2⟩, h3⟩
    simp only [Bool.and_eq_true, beq_iff_eq] at h2 h3
    rw [← h2.1, ← h2.2, ← h3]; exact h1
  · exact fun h => ⟨_, ⟨h, by simp⟩, rfl⟩

theorem count_callsOf (s : State) (p c : Nat) (w : Call) : (callsOf s p w).count c = s.calls.count (p, c, w) := by
  unfold callsOf
  induction s.calls with
  | nil => rfl
  | cons e l ih =>
    obtain ⟨a, b, d⟩ := e
    rw [List.filter_cons, List.count_cons, ← ih]
    by_cases h : (a == p && d == w) = true
    · rw [if_pos h, List.map_cons, List.count_cons]
      simp only [Bool.and_eq_true, beq_iff_eq] at h
      obtain ⟨rfl, rfl⟩ := h
      by_cases hb : b = c
      · subst hb; simp
      · have h1 : (b == c) = false := by simpa using hb
        have h2 : ((a, b, d) == (a, c, d)) = false := by simpa using hb
        rw [h1, h2]
    · rw [if_neg h]
      have h2 : ((a, b, d) == (p, c, w)) = false := by
        rw [beq_eq_false_iff_ne]
        intro he
        cases he
        exact h (by simp)
      rw [h2]; simp

/-- C352: when a function or task phase is done, its method has been called once on every component of the tree that takes part in it and on no
other, parents first in a top-down phase, else children first; likewise `phase_ended`, and `phase_started` except that of the phase that
creates the components. -/
theorem C352_once (C : Config) (b : Nat) (hG : PhaseRun.Wf C.G) (hB : Built C b) (t : Traverse.State) (ht : Traverse.Tree t) (h0 : 0 < t.next)
    (ops : List Op) (hh : (run C (start t) ops).hung = false) (p : Nat) (hk : C.G.kind p ≠ .other) (hd : (run C (start t) ops).ph.st p = .done)
    (w : Call) (hw : w ≠ .readyToEnd) (hb : ¬ (p = b ∧ w = .started)) :
    Listed C (run C (start t) ops).tree.kids p (callsOf (run C (start t) ops) p w) ∧
    ∀ c, (Traverse.Desc (run C (start t) ops).tree.kids 0 c ∧ C.act p c = true → (run C (start t) ops).calls.count (p, c, w) = 1) ∧
      (¬ (Traverse.Desc (run C (start t) ops).tree.kids 0 c ∧ C.act p c = true) → (run C (start t) ops).calls.count (p, c, w) = 0) := by
  have hj := j_run hG hB ops (j_start ht h0) rfl hh
  generalize run C (start t) ops = s at *
  have h9 := past_of_done hj.inv hd
  have hdid : did s p w = true := by
    have hf : p ∉ s.forks := fun h => by rw [hj.fk p h] at h9; simp [sg] at h9
    cases w <;> simp [did, hf] <;> omega
  have hl := hj.list p hk w hw hb
  rw [hdid, if_pos rfl] at hl
  obtain ⟨hn, hm⟩ := listed_once hj.tree hl
  refine ⟨hl, fun c => ?_⟩
  rw [← count_callsOf, hn.count]
  exact ⟨fun h => if_pos ((hm c).2 h), fun h => if_neg (fun hc => h ((hm c).1 hc))⟩

/-- C352: at no time has a method of a phase been called twice on a component. -/
theorem C352_at_most_once (C : Config) (b : Nat) (hG : PhaseRun.Wf C.G) (hB : Built C b) (t : Traverse.State) (ht : Traverse.Tree t) (h0 : 0 < t.next)
    (ops : List Op) (hh : (run C (start t) ops).hung = false) (p : Nat) (hk : C.G.kind p ≠ .other) (c : Nat) :
    (run C (start t) ops).calls.count (p, c, .exec) ≤ 1 := by
  have hj := j_run hG hB ops (j_start ht h0) rfl hh
  generalize run C (start t) ops = s at *
  rw [← count_callsOf]
  have hl := hj.list p hk .exec (by decide) (fun h => nomatch h.2)
  split at hl
  · rw [(listed_once hj.tree hl).1.count]; split <;> decide
  · rw [hl]; exact Nat.zero_le _

/-- C352: when the end of all phases is announced, every component has had the method of every function and task phase before a last one. -/
theorem C352_all (C : Config) (b : Nat) (hG : PhaseRun.Wf C.G) (hB : Built C b) (t : Traverse.State) (ht : Traverse.Tree t) (h0 : 0 < t.next)
    (ops : List Op) (hh : (run C (start t) ops).hung = false) (hd : (run C (start t) ops).ph.allDone = true) :
    ∃ e, C.G.succs e = [] ∧ ∀ p, PhaseRun.Before C.G p e → C.G.kind p ≠ .other →
      ∀ c, Traverse.Desc (run C (start t) ops).tree.kids 0 c → C.act p c = true → (run C (start t) ops).calls.count (p, c, .exec) = 1 := by
  have hj := j_run hG hB ops (j_start ht h0) rfl hh
  obtain ⟨e, he, hed⟩ := hj.inv.allDone.1 hd
  refine ⟨e, he, fun p hb hk c hc ha => ?_⟩
  have hpd : (run C (start t) ops).ph.st p = .done := by
    cases hb with
    | refl => exact hed
    | step h1 h2 => exact prior_done hj.inv ⟨_, h1, h2⟩ (by have := past_of_done hj.inv hed; omega)
  exact ((C352_once C b hG hB t ht h0 ops hh p hk hpd .exec (by decide) (fun h => nomatch h.2)).2 c).1 ⟨hc, ha⟩

/-- C353: whenever a phase calls anything on any component, every phase before it has called its method and `phase_ended` on all components
that take part in it, and calls nothing afterwards. -/
theorem C353_order (C : Config) (b : Nat) (hG : PhaseRun.Wf C.G) (hB : Built C b) (t : Traverse.State) (ht : Traverse.Tree t) (h0 : 0 < t.next)
    (ops : List Op) (hh : (run C (start t) ops).hung = false) (xs ys : List (Nat × Nat × Call)) (q c : Nat) (w : Call)
    (hc : (run C (start t) ops).calls = xs ++ (q, c, w) :: ys) (p : Nat) (hpq : Prior C.G p q) :
    (∀ e ∈ ys, e.1 ≠ p) ∧ (C.G.kind p ≠ .other → ∀ d, Traverse.Desc (run C (start t) ops).tree.kids 0 d → C.act p d = true →
      (p, d, .exec) ∈ xs ∧ (p, d, .ended) ∈ xs) := by
  have hj := j_run hG hB ops (j_start ht h0) rfl hh
  have hs := hj.sorted
  rw [hc, List.pairwise_append] at hs
  have hys : ∀ e ∈ ys, e.1 ≠ p := by
    rintro e he rfl
    exact ((List.pairwise_cons.1 hs.2.1).1 e he).1 hpq
  have hq : (q, c, w) ∈ (run C (start t) ops).calls := by rw [hc]; simp
  have hqs := did_sg (hj.made _ hq)
  have hpd := prior_done hj.inv hpq (Nat.le_trans (by decide) hqs)
  refine ⟨hys, fun hk d hd ha => ?_⟩
  have hin : ∀ w', w' ≠ .readyToEnd → w' ≠ .started → (p, d, w') ∈ xs := by
    intro w' h1 h2
    have hcount := ((C352_once C b hG hB t ht h0 ops hh p hk hpd w' h1 (fun h => h2 h.2)).2 d).1 ⟨hd, ha⟩
    have hm : (p, d, w') ∈ (run C (start t) ops).calls := List.count_pos_iff.1 (by omega)
    rw [hc, List.mem_append, List.mem_cons] at hm
    rcases hm with hm | hm | hm
    · exact hm
    · cases hm; exact absurd hpq (hj.apart _ hq)
    · exact absurd rfl (hys _ hm)
  exact ⟨hin .exec (by decide) (by decide), hin .ended (by decide) (by decide)⟩

/-- C353: the calls of one phase come in the order `phase_started`, the method of the phase, `phase_ready_to_end`, `phase_ended`, each on all
components before the next. -/
theorem C353_one_phase (C : Config) (b : Nat) (hG : PhaseRun.Wf C.G) (hB : Built C b) (t : Traverse.State) (ht : Traverse.Tree t) (h0 : 0 < t.next)
    (ops : List Op) (hh : (run C (start t) ops).hung = false) (xs ys : List (Nat × Nat × Call)) (q c : Nat) (w : Call)
    (hc : (run C (start t) ops).calls = xs ++ (q, c, w) :: ys) :
    (∀ d w', (q, d, w') ∈ ys → w.rank ≤ w'.rank) ∧ ∀ d w', (q, d, w') ∈ xs → w'.rank ≤ w.rank := by
  have hj := j_run hG hB ops (j_start ht h0) rfl hh
  have hs := hj.sorted
  rw [hc, List.pairwise_append] at hs
  exact ⟨fun d w' he => ((List.pairwise_cons.1 hs.2.1).1 _ he).2 rfl, fun d w' he => (hs.2.2 _ he (q, c, w) (by simp)).2 rfl⟩

/-! ## Traversals end -/

theorem task_some {t : Traverse.State} (ht : Traverse.Tree t) (act : Nat → Bool) :
    ∀ (n c : Nat), c < t.next → t.next ≤ n + c → ∃ l, Traverse.taskOrder t.kids act n c = some l := by
  intro n
  induction n with
  | zero => intro c h1 h2; omega
  | succ n ih =>
    intro c h1 h2
    have hf : ∀ (ds : List Nat) (acc : List Nat), (∀ d ∈ ds, d ∈ t.kids c) →
        ∃ l, ds.foldl (fun acc d => acc.bind fun l => (Traverse.taskOrder t.kids act n d).map fun l' => l ++ l') (some acc) = some l := by
      intro ds
      induction ds with
      | nil => exact fun acc _ => ⟨acc, rfl⟩
      | cons d ds ihd =>
        intro acc hds
        have hd := ht.lt c d (hds d (by simp))
        obtain ⟨l, hl⟩ := ih d hd.2 (by omega)
        rw [List.foldl_cons, hl]
        exact ihd _ (fun x hx => hds x (by simp [hx]))
    obtain ⟨l, hl⟩ := hf (t.kids c) [] (fun _ h => h)
    exact ⟨_, by rw [Traverse.taskOrder, hl]; rfl⟩

theorem visit_some {C : Config} {t : Traverse.State} {p : Nat} {w : Call} (ht : Traverse.Tree t) (h0 : 0 < t.next) (hn : t.next ≤ C.bound)
    (hex : Traverse.Keeps (C.ex p w)) : ∃ r, visit C t p w = some r := by
  have hlen : ∀ d, (t.kids d).length ≤ C.bound := fun d =>
    Nat.le_trans (Phase.nodup_bound t.next _ (ht.nodup d) (fun x hx => (ht.lt d x hx).2)) hn
  unfold visit
  split
  · obtain ⟨l, hl⟩ := task_some ht (C.act p) C.bound 0 h0 (by omega)
    exact ⟨_, by rw [hl]; rfl⟩
  · split
    · obtain ⟨r, hr, _⟩ := Traverse.topdown_some hex (C.act p) C.bound C.bound 0 t ht h0 (by omega) hlen
      exact ⟨r, hr⟩
    · exact Traverse.bottomup_some hex (C.act p) C.bound C.bound 0 t ht h0 (by omega) hlen

theorem traverse_free {C : Config} {b : Nat} (hB : Built C b) {s : State} (hj : J C b s) (h0 : s.hung = false) (hn : s.tree.next ≤ C.bound) (p : Nat) (w : Call)
    (hne : ¬ (p = b ∧ w = .exec)) (ph : PhaseRun.State) (fs : List Nat) :
    (traverse C s p w ph fs).hung = false ∧ (traverse C s p w ph fs).tree.next = s.tree.next := by
  obtain ⟨r, hr⟩ := visit_some hj.tree hj.pos hn (hB.keeps p w hne)
  simp only [traverse, hr]
  exact ⟨h0, (visit_keeps hj.tree hj.pos (hB.keeps p w hne) hr).2.1⟩

theorem step_free {C : Config} {b : Nat} (hB : Built C b) {s : State} (hj : J C b s) (h0 : s.hung = false) (hn : s.tree.next ≤ C.bound)
    (hb : 7 ≤ sg (s.ph.pc b)) (o : Op) : (step C s o).hung = false ∧ (step C s o).tree.next = s.tree.next := by
  have hs0 : ¬ (s.hung = true) := by rw [h0]; decide
  unfold step
  rw [if_neg hs0]
  cases o with
  | ph o =>
    cases o with
    | adv p =>
      show (adv C s p).hung = false ∧ (adv C s p).tree.next = s.tree.next
      unfold adv
      split
      · exact ⟨h0, rfl⟩
      · cases ha : PhaseRun.adv C.G s.ph p with
        | none => exact ⟨h0, rfl⟩
        | some ph =>
          simp only
          cases hd : due (C.G.kind p) (s.ph.pc p) (ph.pc p) with
          | none => exact ⟨h0, rfl⟩
          | some w =>
            refine traverse_free hB hj h0 hn p w ?_ _ _
            rintro ⟨rfl, rfl⟩
            unfold due at hd
            split at hd
            · split at hd <;> cases hd
            · next hc => rw [hc] at hb; simp [sg] at hb
            · cases hd
            · split at hd <;> cases hd
    | spawn => exact ⟨h0, rfl⟩
    | raise p => exact ⟨h0, rfl⟩
    | drop p => exact ⟨h0, rfl⟩
  | fork p =>
    simp only
    split
    · next hp =>
      refine traverse_free hB hj h0 hn p .exec ?_ _ _
      rintro ⟨rfl, _⟩
      rw [hj.fk p hp] at hb; simp [sg] at hb
    · exact ⟨h0, rfl⟩

theorem sg_mono {C : Config} {b : Nat} {s : State} (hj : J C b s) (o : Op) (h : 7 ≤ sg (s.ph.pc b)) : 7 ≤ sg ((step C s o).ph.pc b) := by
  have htr : ∀ p w ph fs, 7 ≤ sg (ph.pc b) → 7 ≤ sg ((traverse C s p w ph fs).ph.pc b) := by
    intro p w ph fs hp
    unfold traverse
    split
    · exact h
    · exact hp
  have hph : ∀ o : PhaseRun.Op, (∀ p, o ≠ .adv p) → 7 ≤ sg ((PhaseRun.step C.G s.ph o).pc b) := by
    intro o ho
    rcases sg_step (G := C.G) ho hj.inv b with h' | h' <;> omega
  unfold step
  split
  · exact h
  cases o with
  | ph o =>
    cases o with
    | adv p =>
      show 7 ≤ sg ((adv C s p).ph.pc b)
      unfold adv
      split
      · exact h
      · cases ha : PhaseRun.adv C.G s.ph p with
        | none => exact h
        | some ph =>
          have hp : 7 ≤ sg (ph.pc b) := by
            by_cases hbp : b = p
            · subst hbp
              have hgo := adv_sg hj.inv ha
              generalize sg (s.ph.pc b) = x at *
              generalize sg (ph.pc b) = y at *
              unfold goOk at hgo
              split at hgo <;> first | omega | cases hgo
            · rw [sg_other hbp ha]; exact h
          simp only
          split
          · exact htr _ _ _ _ hp
          · exact hp
    | spawn => exact hph .spawn (fun _ h => nomatch h)
    | raise p => exact hph (.raise p) (fun _ h => nomatch h)
    | drop p => exact hph (.drop p) (fun _ h => nomatch h)
  | fork p =>
    simp only
    split
    · exact htr _ _ _ _ h
    · exact h

/-- C352: once the components have been created, no traversal goes on for ever, whatever happens: with as many calls allowed as there are
components, the bound of the model is never reached. -/
theorem C352_ends (C : Config) (b : Nat) (hG : PhaseRun.Wf C.G) (hB : Built C b) (t : Traverse.State) (ht : Traverse.Tree t) (h0 : 0 < t.next)
    (ops : List Op) (hh : (run C (start t) ops).hung = false) (hd : (run C (start t) ops).ph.st b = .done)
    (hn : (run C (start t) ops).tree.next ≤ C.bound) (more : List Op) : (run C (start t) (ops ++ more)).hung = false := by
  have hj := j_run hG hB ops (j_start ht h0) rfl hh
  have hb : 7 ≤ sg ((run C (start t) ops).ph.pc b) := by have := past_of_done hj.inv hd; omega
  have e : run C (start t) (ops ++ more) = run C (run C (start t) ops) more := List.foldl_append
  rw [e]
  generalize run C (start t) ops = s at *
  clear e hd
  induction more generalizing s with
  | nil => exact hh
  | cons o more ih =>
    show (run C (step C s o) more).hung = false
    have h1 := step_free hB hj hh hn hb o
    exact ih _ h1.1 (h1.2 ▸ hn) (j_step hG hB hj o hh h1.1) (sg_mono hj o hb)

/-! ## Non-vacuity: build, connect, run and final phase over a tree that grows while it is built -/

/-- The common domain, the build, connect, run and final phase, and the end of the schedule. -/
def chain : PhaseRun.Graph :=
  PhaseRun.ofEdges 6 [(0, 1), (1, 2), (2, 3), (3, 4), (4, 5)] (fun p => if p = 1 ∨ p = 2 ∨ p = 4 then .func else if p = 3 then .task else .other)
    (fun p => p == 4)

/-- Component 1 creates a child when it is built; component 3 is not in the domain of the run phase. -/
def demo : Config where
  G := chain
  top p := p == 1 || p == 4
  act p c := !(p == 3 && c == 3)
  ex p w := if p = 1 ∧ w = .exec then Traverse.buildEx else fun _ s => s
  bound := 10

theorem demo_built : Built demo 1 where
  kind := by decide
  top := by decide
  first p hk hp := by
    have h : p = 2 ∨ p = 3 ∨ p = 4 := by
      simp only [demo, chain, PhaseRun.ofEdges] at hk
      split at hk
      · omega
      · split at hk
        · omega
        · exact absurd rfl hk
    rcases h with rfl | rfl | rfl
    · exact ⟨1, .refl 1, by decide⟩
    · exact ⟨2, .step (.refl 1) (by decide : 1 ∈ demo.G.preds 2), by decide⟩
    · exact ⟨3, .step (.step (.refl 1) (by decide : 1 ∈ demo.G.preds 2)) (by decide : 2 ∈ demo.G.preds 3), by decide⟩
  builds := Traverse.buildEx_builds
  keeps p w h := by
    have : demo.ex p w = fun _ s => s := if_neg h
    rw [this]
    exact fun _ _ => ⟨rfl, rfl, fun _ _ => rfl⟩

/-- A whole run; the run phase is kept from ending for a while. -/
def demoOps : List Op :=
  [.ph .spawn] ++ List.replicate 6 (.ph (.adv 0)) ++ [.ph .spawn] ++ List.replicate 9 (.ph (.adv 1)) ++ [.ph .spawn] ++ List.replicate 9 (.ph (.adv 2)) ++
  [.ph .spawn, .ph (.adv 3), .ph (.adv 3), .ph (.raise 3), .ph (.adv 3), .ph (.adv 3), .fork 3, .ph (.adv 3), .ph (.drop 3)] ++
  List.replicate 9 (.ph (.adv 3)) ++ [.ph .spawn] ++ List.replicate 9 (.ph (.adv 4)) ++ [.ph .spawn] ++ List.replicate 5 (.ph (.adv 5))

theorem demo_wf : PhaseRun.Wf demo.G where
  agree := PhaseRun.ofEdges_agree _ _ _ _
  root := by decide

set_option maxRecDepth 20000 in
example : PhaseRun.Wf demo.G ∧ Built demo 1 ∧ Traverse.Tree Traverse.flat ∧ (run demo (start Traverse.flat) demoOps).hung = false ∧
    (run demo (start Traverse.flat) demoOps).ph.allDone = true ∧
    callsOf (run demo (start Traverse.flat) demoOps) 1 .exec = [0, 1, 4, 2, 3] ∧ callsOf (run demo (start Traverse.flat) demoOps) 1 .started = [0, 1, 2, 3] ∧
    callsOf (run demo (start Traverse.flat) demoOps) 2 .exec = [4, 1, 2, 3, 0] ∧ callsOf (run demo (start Traverse.flat) demoOps) 3 .exec = [4, 1, 2, 0] ∧
    callsOf (run demo (start Traverse.flat) demoOps) 4 .exec = [0, 1, 4, 2, 3] :=
  ⟨demo_wf, demo_built, Traverse.flat_tree, by decide, by decide, by decide, by decide, by decide, by decide, by decide⟩

end Verif.PhaseCalls
