import Verif.Spec.PhaseObj
import Verif.Props.PhaseRun
import Verif.Props.Objection
/-!
# C347, C348, C349: phases with their objections

C84 and C114 with whole objections: components anywhere in the tree, drains and their coroutines, instead of one number per phase.
-/
namespace Verif.PhaseObj
open Verif.PhaseRun (Graph Pc St Kind upd setPc wakeDropped sibs Inv Wf Before Life history upd_other upd_same)
open Verif.Objection (Tree Reach Allowed pending)

variable {G : Graph} {t : Tree}

theorem inv_view {s : State} (hi : Inv G s.ph) : Inv G (view s) :=
  PhaseRun.inv_same hi rfl rfl rfl rfl rfl rfl fun _ => .refl _

theorem inv_seen {s : State} (hi : Inv G s.ph) (p : Nat) : Inv G (seen s p) := by
  unfold seen
  split
  · rename_i h
    refine PhaseRun.inv_same hi rfl rfl rfl rfl rfl rfl fun r => ?_
    by_cases hr : r = p
    · subst hr
      simp only [setPc, upd_same, h.1]
      exact ⟨fun k r x => by cases x <;> rfl, rfl, by simp, by simp, by simp⟩
    · simp only [setPc, upd_other _ _ hr]; exact .refl _
  · exact inv_view hi

theorem inv_crash {s : PhaseRun.State} {p : Nat} (hi : Inv G s) (hp : s.pc p = .cleanup) (hk : G.kind p = .task) : Inv G (setPc s p .crashed) := by
  have hst : s.st p = .cleanup := PhaseRun.pcst_cleanup (by have := hi.pcs p; rwa [hp] at this)
  have hq : ∀ q, q ≠ p → (setPc s p .crashed).pc q = s.pc q := fun q h => by simp [setPc, upd_other _ _ h]
  have hpp : (setPc s p .crashed).pc p = .crashed := by simp [setPc]
  refine ⟨fun r => ?_, hi.doneEv, fun q h => ?_, hi.nodup, fun q h => ?_, hi.nodupTask, fun r h => ?_, hi.logDone, hi.order, hi.life, hi.allDone, fun r h => ?_, fun r l h => ?_⟩
  · by_cases hr : r = p
    · subst hr
      rw [hpp]
      show PhaseRun.pcst _ _ _ (s.st r) = true
      rw [hst, hk]; rfl
    · rw [hq r hr]; exact hi.pcs r
  · have hh := hi.hop q h
    have : q ≠ p := fun e => by rw [e, hp] at hh; exact nomatch hh.1
    rw [hq q this]; exact hh
  · have : q ≠ p := fun e => by rw [e, hpp] at h; exact nomatch h
    rw [hq q this] at h; exact hi.idle q h
  · by_cases hr : r = p
    · subst hr; exact hi.past r (by rw [hp]; rfl)
    · rw [hq r hr] at h; exact hi.past r h
  · have : r ≠ p := fun e => by rw [e, hpp] at h; exact nomatch h
    rw [hq r this] at h; exact hi.over r h
  · have : r ≠ p := fun e => by rw [e, hpp] at h; exact nomatch h
    rw [hq r this] at h; exact hi.sched r l h

theorem inv_advD (hG : Wf G) {s s0 : PhaseRun.State} (hi : Inv G s) (h0 : Inv G s0) (p : Nat) : Inv G ((PhaseRun.adv G s p).getD s0) := by
  cases h : PhaseRun.adv G s p with
  | none => exact h0
  | some s' => exact PhaseRun.inv_adv hG hi h

theorem inv_step (hG : Wf G) {s : State} (hi : Inv G s.ph) (o : Op) : Inv G (step G t s o).ph := by
  cases o with
  | adv p =>
    unfold step
    dsimp only
    split
    · rename_i h
      unfold clean
      dsimp only
      split
      · exact inv_advD hG (inv_view hi) hi p
      · exact inv_crash hi h.1 h.2
    · exact inv_advD hG (inv_seen hi p) hi p
  | spawn =>
    show Inv G ((PhaseRun.spawn s.ph).getD s.ph)
    cases h : PhaseRun.spawn s.ph with
    | none => exact hi
    | some s' => exact PhaseRun.inv_spawn hi h
  | obj p o =>
    unfold step
    dsimp only
    split
    · dsimp only
      split
      · exact PhaseRun.inv_same hi rfl rfl rfl rfl rfl rfl fun _ => PhaseRun.same_wakeDrop _ _ _
      · exact hi
    · exact hi

theorem inv_run (hG : Wf G) (ops : List Op) : Inv G (run G t {} ops).ph := by
  have : ∀ (ops : List Op) (s : State), Inv G s.ph → Inv G (run G t s ops).ph := by
    intro ops
    induction ops with
    | nil => intro s h; exact h
    | cons o ops ih => intro s h; exact ih _ (inv_step hG h o)
  exact this ops _ (PhaseRun.inv_init G)

/-- C347. With whole objections, whatever components do to them and however their drains are interleaved with the tasks: whatever happens to a phase other than being
scheduled happens after all its predecessors were done; -/
theorem C347_order (G : Graph) (hG : Wf G) (t : Tree) (ops : List Op) (newer older : List (Nat × St)) (p : Nat) (x : St)
    (h : (run G t {} ops).ph.log = newer ++ (p, x) :: older) (hx : x ≠ .scheduled) : ∀ q ∈ G.preds p, (q, St.done) ∈ older :=
  (inv_run hG ops).order newer older p x h hx

/-- every phase goes through its states in the documented order, starts at most once and has one task; -/
theorem C347_states (G : Graph) (hG : Wf G) (t : Tree) (ops : List Op) :
    (∀ p, Life (G.kind p) (p == 0) .dormant (history (run G t {} ops).ph p) ∧ (history (run G t {} ops).ph p).getLastD .dormant = (run G t {} ops).ph.st p ∧
      (history (run G t {} ops).ph p).count .started ≤ 1) ∧ (run G t {} ops).ph.dup = false :=
  ⟨fun p => ⟨((inv_run hG ops).life p).1, ((inv_run hG ops).life p).2, (PhaseRun.life_started _ _ ((inv_run hG ops).life p).1).2⟩, (inv_run hG ops).nodupTask⟩

/-- and the end of all phases is announced only when a last phase and everything before it is done. -/
theorem C347_all_done (G : Graph) (hG : Wf G) (t : Tree) (ops : List Op) (h : (run G t {} ops).ph.allDone = true) :
    ∃ e, G.succs e = [] ∧ ∀ p, Before G p e → (run G t {} ops).ph.st p = .done := by
  have hi := inv_run (t := t) hG ops
  obtain ⟨e, he, hd⟩ := hi.allDone.1 h
  refine ⟨e, he, fun p hb => ?_⟩
  clear he
  induction hb with
  | refl => exact hd
  | @step b c _ hbc ih =>
    apply ih
    refine hi.past c ?_ b hbc
    have := hi.pcs c
    rw [hd] at this
    revert this
    cases (run G t {} ops).ph.pc c <;> simp [PhaseRun.pcst, PhaseRun.past]

/-! ## A phase ends only when nobody objects -/

/-- The task of a phase without siblings does not wait for siblings. -/
def Alone : Pc → Prop
  | .sib _ _ _ _ => False
  | .sibDrop _ _ _ => False
  | _ => True

theorem alone_wakeSt (q : Nat) {c : Pc} (h : Alone c) : Alone (PhaseRun.wakeSt q c) := by
  unfold PhaseRun.wakeSt; split <;> first | exact h | exact trivial
theorem alone_wakeDrop (q x : Nat) {c : Pc} (h : Alone c) : Alone (PhaseRun.wakeDrop q x c) := by
  unfold PhaseRun.wakeDrop; split <;> first | exact h | exact trivial

theorem alone_setSt {s : PhaseRun.State} {p : Nat} (h : Alone (s.pc p)) (q : Nat) (x : St) : Alone ((PhaseRun.setSt s q x).pc p) := alone_wakeSt q h
theorem alone_setPc {s : PhaseRun.State} {p : Nat} {c : Pc} (h : Alone c) : Alone ((setPc s p c).pc p) := by simp only [setPc, upd_same]; exact h
theorem alone_setPc_ne {s : PhaseRun.State} {p q : Nat} {c : Pc} (hne : p ≠ q) (h : Alone (s.pc p)) : Alone ((setPc s q c).pc p) := by
  simp only [setPc, upd_other _ _ hne]; exact h

theorem alone_exitW {s : PhaseRun.State} {p : Nat} (b : Bool) : Alone ((PhaseRun.exitW s p b).pc p) := by
  unfold PhaseRun.exitW
  split
  · exact alone_setPc trivial
  · split <;> exact alone_setPc trivial

theorem alone_topW {s : PhaseRun.State} {p : Nat} (b : Bool) : Alone ((PhaseRun.topW s p b []).pc p) := by
  unfold PhaseRun.topW
  split
  · exact alone_setPc trivial
  · exact alone_exitW b

theorem alone_adv {s s' : PhaseRun.State} {p : Nat} (hs : sibs G p = some []) (hi : Inv G s) (h : Alone (s.pc p)) (hadv : PhaseRun.adv G s p = some s') :
    Alone (s'.pc p) := by
  unfold PhaseRun.adv at hadv
  split at hadv
  · simp at hadv
  · split at hadv
    · split at hadv <;> cases hadv <;> exact alone_setPc trivial
    · simp at hadv
  · cases hadv; exact alone_setPc trivial
  · cases hadv; cases G.kind p <;> exact alone_setPc trivial
  · cases hadv; unfold PhaseRun.finish; dsimp only; split <;> exact alone_setPc trivial
  · split at hadv
    · cases hadv; exact alone_setPc trivial
    · cases hadv; unfold PhaseRun.nextPred; split <;> exact alone_setPc trivial
  · cases hadv; exact alone_setPc trivial
  · split at hadv
    · dsimp only at hadv
      split at hadv
      · cases hadv; unfold PhaseRun.nextPred; split <;> exact alone_setPc trivial
      · cases hadv; exact alone_setPc trivial
    · simp at hadv
  · split at hadv
    · cases hadv; exact alone_setPc trivial
    · split at hadv <;> cases hadv <;> exact alone_setPc trivial
  · split at hadv
    · split at hadv <;> cases hadv <;> exact alone_setPc trivial
    · simp at hadv
  · cases hadv; rw [hs]; exact alone_topW _
  · split at hadv
    · cases hadv
      rw [hs]
      simp only [Option.getD_some, PhaseRun.nextSib, if_true]
      exact alone_topW _
    · simp at hadv
  · rename_i hpc; rw [hpc] at h; exact h.elim
  · rename_i hpc; rw [hpc] at h; exact h.elim
  · rename_i hpc; rw [hpc] at h; exact h.elim
  · cases hadv; exact alone_setPc trivial
  · cases hadv; exact alone_setPc trivial
  · cases hadv; unfold PhaseRun.finish; dsimp only; split <;> exact alone_setPc trivial
  · cases hadv; exact alone_setPc trivial
  · cases hadv; exact alone_setPc trivial
  · simp at hadv
  · simp at hadv

/-- What holds of the position of a task and survives being woken survives the steps of the other tasks. -/
theorem other_pc {P : Pc → Prop} (hw1 : ∀ q c, P c → P (PhaseRun.wakeSt q c)) {s s' : PhaseRun.State} {p q : Nat}
    (hw2 : ∀ c, P c → P (PhaseRun.wakeDrop q p c)) (hpq : p ≠ q) (h : P (s.pc p)) (hadv : PhaseRun.adv G s q = some s') : P (s'.pc p) := by
  have k0 : ∀ (s : PhaseRun.State) c, P (s.pc p) → P ((setPc s q c).pc p) := fun s c h => by simp only [setPc, upd_other _ _ hpq]; exact h
  have kst : ∀ (s : PhaseRun.State) r x, P (s.pc p) → P ((PhaseRun.setSt s r x).pc p) := fun s r x h => hw1 r _ h
  have k1 : ∀ (s : PhaseRun.State) c, P (s.pc p) → P ((setPc s q c).pc p) := fun s c h => k0 _ _ h
  have k2 : ∀ (s : PhaseRun.State) c r x, P (s.pc p) → P ((setPc (PhaseRun.setSt s r x) q c).pc p) := fun s c r x h => k0 _ _ (kst _ r x h)
  have k3 : ∀ (s : PhaseRun.State) b, P (s.pc p) → P ((PhaseRun.exitW s q b).pc p) := by
    intro s b h; unfold PhaseRun.exitW
    split
    · exact k1 _ _ h
    · split
      · exact k1 _ _ h
      · exact k2 _ _ _ _ h
  have k4 : ∀ (s : PhaseRun.State) b l, P (s.pc p) → P ((PhaseRun.topW s q b l).pc p) := by
    intro s b l h; unfold PhaseRun.topW
    split
    · exact k2 _ _ _ _ h
    · split
      · exact k3 _ _ h
      · exact k1 _ _ h
  have k5 : ∀ (s : PhaseRun.State) b n a l, P (s.pc p) → P ((PhaseRun.nextSib s q b n a l).pc p) := by
    intro s b n a l h; unfold PhaseRun.nextSib
    split
    · exact k1 _ _ h
    · split
      · exact k4 _ _ _ h
      · exact k3 _ _ h
  have k6 : ∀ (s : PhaseRun.State) l, P (s.pc p) → P ((PhaseRun.nextPred s q l).pc p) := by
    intro s l h; unfold PhaseRun.nextPred; split <;> exact k1 _ _ h
  have k7 : ∀ (s : PhaseRun.State), P (s.pc p) → P ((PhaseRun.finish G s q).pc p) := by
    intro s h; unfold PhaseRun.finish; dsimp only
    split
    · exact k0 _ _ (kst _ q .done h)
    · exact k2 _ _ _ _ h
  unfold PhaseRun.adv at hadv
  split at hadv
  · simp at hadv
  · split at hadv
    · split at hadv <;> cases hadv
      · exact k1 _ _ h
      · exact k2 _ _ _ _ h
    · simp at hadv
  · cases hadv; exact k0 _ _ (hw1 q _ h)
  · cases hadv; exact k2 _ _ _ _ h
  · cases hadv; exact k7 _ h
  · split at hadv
    · cases hadv; exact k1 _ _ h
    · cases hadv; exact k6 _ _ h
  · cases hadv; exact k2 _ _ _ _ h
  · split at hadv
    · dsimp only at hadv
      split at hadv
      · cases hadv; exact k6 _ _ h
      · cases hadv; exact k1 _ _ h
    · simp at hadv
  · split at hadv
    · cases hadv; exact k1 _ _ h
    · split at hadv <;> cases hadv <;> exact k1 _ _ h
  · split at hadv
    · split at hadv <;> cases hadv <;> exact k1 _ _ h
    · simp at hadv
  · cases hadv; exact k4 _ _ _ h
  · split at hadv
    · cases hadv; exact k5 _ _ _ _ _ h
    · simp at hadv
  · cases hadv; exact k5 _ _ _ _ _ h
  · split at hadv
    · dsimp only at hadv
      split at hadv
      · split at hadv
        · cases hadv; exact k0 _ _ (hw1 q _ h)
        · cases hadv; exact k5 _ _ _ _ _ h
      · cases hadv; exact k1 _ _ h
    · simp at hadv
  · split at hadv
    · cases hadv; exact k5 _ _ _ _ _ h
    · simp at hadv
  · cases hadv; exact k0 _ _ (hw1 q _ h)
  · cases hadv; exact k2 _ _ _ _ h
  · cases hadv; exact k7 _ (hw2 _ h)
  · cases hadv; exact k1 _ _ h
  · cases hadv
    refine k1 _ _ ?_
    split
    · exact hw1 _ _ h
    · exact h
  · simp at hadv
  · simp at hadv

theorem alone_other {s s' : PhaseRun.State} {p q : Nat} (hpq : p ≠ q) (h : Alone (s.pc p)) (hadv : PhaseRun.adv G s q = some s') : Alone (s'.pc p) :=
  other_pc (fun q _ => alone_wakeSt q) (fun _ => alone_wakeDrop q p) hpq h hadv

/-- A task that has died stays dead. -/
theorem crashed_adv {s s' : PhaseRun.State} {p q : Nat} (h : s.pc p = .crashed) (hadv : PhaseRun.adv G s q = some s') : s'.pc p = .crashed := by
  by_cases hpq : p = q
  · subst hpq; unfold PhaseRun.adv at hadv; rw [h] at hadv; exact nomatch hadv
  · exact other_pc (P := (· = .crashed)) (fun q c h => by rw [h]; rfl) (fun c h => by rw [h]; rfl) hpq h hadv

/-- No step of another task ends a phase. -/
theorem other_st {s s' : PhaseRun.State} {p q : Nat} (hpq : p ≠ q) (hi : Inv G s) (hadv : PhaseRun.adv G s q = some s') : s'.st p = s.st p ∨ s'.st p = .scheduled := by
  cases PhaseRun.adv_eff G (hi.pcs q) hadv with
  | quiet _ e1 => rw [e1]; exact .inl rfl
  | set _ x e1 => rw [e1, upd_other _ _ hpq]; exact .inl rfl
  | sched r l _ hpc hs' =>
    subst hs'
    by_cases hc : (s.st r).code < St.scheduled.code
    · rw [if_pos hc]
      by_cases hr : p = r
      · subst hr; simp [setPc, PhaseRun.setSt]
      · simp [setPc, PhaseRun.setSt, upd, hr]
    · rw [if_neg hc]; exact .inl rfl

/-- A phase without siblings does not end while the total of its root is not 0. -/
theorem alone_no_end {s s' : PhaseRun.State} {p : Nat} (hk : G.kind p = .task) (hs : sibs G p = some []) (hi : Inv G s) (ha : Alone (s.pc p))
    (ho : s.obj p ≠ 0) (h' : s.st p ≠ .ended) (h : PhaseRun.adv G s p = some s') : s'.st p ≠ .ended := by
  have hpcs := hi.pcs p
  rw [hk] at hpcs
  unfold PhaseRun.adv at h
  split at h
  · simp at h
  · split at h
    · split at h
      · cases h; exact h'
      · cases h; simp [setPc, PhaseRun.setSt]
    · simp at h
  · cases h; simp [setPc, PhaseRun.setSt]
  · cases h; simp [setPc, PhaseRun.setSt]
  · cases h; unfold PhaseRun.finish; dsimp only; split <;> simp [setPc, PhaseRun.setSt]
  · split at h
    · cases h; exact h'
    · cases h; unfold PhaseRun.nextPred; split <;> exact h'
  · rename_i hpc
    rw [hpc] at hpcs; have := (PhaseRun.pcst_predWait hpcs).2; simp at this
  · rename_i hpc
    rw [hpc] at hpcs; have := (PhaseRun.pcst_predWait hpcs).2; simp at this
  · split at h
    · cases h; exact h'
    · rename_i hh; exact absurd ho hh
  · split at h
    · split at h <;> cases h <;> exact h'
    · simp at h
  · cases h; rw [PhaseRun.topW_objected ho]; nofun
  · split at h
    · cases h
      rw [hs]
      simp only [Option.getD_some, PhaseRun.nextSib, if_true]
      rw [PhaseRun.topW_objected ho]; nofun
    · simp at h
  · rename_i hpc; rw [hpc] at ha; exact ha.elim
  · rename_i hpc; rw [hpc] at ha; exact ha.elim
  · rename_i hpc; rw [hpc] at ha; exact ha.elim
  · cases h; simp [setPc, PhaseRun.setSt]
  · cases h; simp [setPc, PhaseRun.setSt]
  · cases h; unfold PhaseRun.finish; dsimp only; split <;> simp [setPc, PhaseRun.setSt]
  · cases h; exact h'
  · rename_i hpc
    rw [hpc] at hpcs
    have hd := PhaseRun.pcst_sched hpcs
    cases h
    rename_i q l
    split
    · rename_i hc
      have : q ≠ p := by rintro rfl; rw [hd] at hc; simp [St.code] at hc
      simp [setPc, PhaseRun.setSt, upd, Ne.symm this, hd]
    · exact h'
  · simp at h
  · simp at h

/-- The objection of a phase whose task has not died is in a state of the given kind. -/
def Booked (R : Objection.State → Prop) (s : State) : Prop := ∀ p, s.ph.pc p ≠ .crashed → R (s.ob p)

theorem seen_other {s : State} {p q : Nat} (h : q ≠ p) : (seen s p).pc q = s.ph.pc q := by
  unfold seen; split
  · simp [setPc, upd_other _ _ h, view]
  · rfl

theorem seen_crashed {s : State} {p q : Nat} (h : s.ph.pc q = .crashed) : (seen s p).pc q = .crashed := by
  unfold seen; split
  · rename_i hc
    by_cases hq : q = p
    · subst hq; rw [h] at hc; exact nomatch hc.1
    · simp [setPc, upd_other _ _ hq, view, h]
  · exact h

/-- A task that has died stays dead, whatever happens. -/
theorem crashed_step {s : State} {p : Nat} (h : s.ph.pc p = .crashed) (o : Op) : (step G t s o).ph.pc p = .crashed := by
  cases o with
  | adv q =>
    unfold step
    dsimp only
    split
    · unfold clean; dsimp only
      split
      · show ((PhaseRun.adv G (view s) q).getD s.ph).pc p = _
        cases hv : PhaseRun.adv G (view s) q with
        | none => exact h
        | some s' => exact crashed_adv (s := view s) h hv
      · show (setPc s.ph q .crashed).pc p = _
        simp only [setPc, upd]; split <;> first | rfl | exact h
    · show ((PhaseRun.adv G (seen s q) q).getD s.ph).pc p = _
      cases hv : PhaseRun.adv G (seen s q) q with
      | none => exact h
      | some s' => exact crashed_adv (seen_crashed h) hv
  | spawn =>
    show ((PhaseRun.spawn s.ph).getD s.ph).pc p = _
    unfold PhaseRun.spawn
    split
    · exact h
    · rename_i q l hq
      split
      · rename_i hi
        have : p ≠ q := by rintro rfl; rw [h] at hi; exact nomatch hi
        simp [setPc, upd_other _ _ this, h]
      · exact h
  | obj q o =>
    unfold step; dsimp only
    split
    · dsimp only
      split
      · simp only [wakeDropped, h]; rfl
      · exact h
    · exact h

theorem booked_step {R : Objection.State → Prop} (hR : ∀ s : Objection.State, R s → s.forked = [] ∧ s.fctx = [] → R (Objection.step t s .clear).1)
    {s : State} (hb : Booked R s) {o : Op}
    (hf : ∀ p x, o = .obj p x → G.kind p = .task → R (s.ob p) → R (Objection.step t (s.ob p) x).1) : Booked R (step G t s o) := by
  intro p hp
  have hp0 : s.ph.pc p ≠ .crashed := fun h => hp (crashed_step h o)
  have hr := hb p hp0
  cases o with
  | adv q =>
    unfold step at hp ⊢
    dsimp only at hp ⊢
    split at hp
    · rename_i hc
      rw [if_pos hc]
      unfold clean at hp ⊢
      dsimp only at hp ⊢
      by_cases hpq : p = q
      · subst hpq
        by_cases hcl : (Objection.clear (s.ob p)).2 = []
        · rw [if_pos hcl]
          simp only [upd_same]
          have ha : (s.ob p).forked = [] ∧ (s.ob p).fctx = [] := by
            unfold Objection.clear at hcl
            dsimp only at hcl
            split at hcl
            · exact nomatch hcl
            · rename_i hn
              simp only [not_or, Decidable.not_not] at hn
              exact hn
          exact hR _ hr ha
        · rw [if_neg hcl] at hp; simp [setPc] at hp
      · split <;> (simp only [upd_other _ _ hpq]; exact hr)
    · rename_i hc
      rw [if_neg hc]
      exact hr
  | spawn => exact hr
  | obj q x =>
    unfold step
    dsimp only
    split
    · rename_i hk
      by_cases hpq : p = q
      · subst hpq
        simp only [upd_same]
        exact hf p x rfl hk hr
      · simp only [upd_other _ _ hpq]; exact hr
    · exact hr

theorem alone_step {s : State} {p : Nat} (hs : sibs G p = some []) (hi : Inv G s.ph) (h : Alone (s.ph.pc p)) (o : Op) : Alone ((step G t s o).ph.pc p) := by
  cases o with
  | adv q =>
    unfold step
    dsimp only
    split
    · unfold clean; dsimp only
      split
      · show Alone (((PhaseRun.adv G (view s) q).getD s.ph).pc p)
        cases hv : PhaseRun.adv G (view s) q with
        | none => exact h
        | some s' =>
          by_cases hpq : p = q
          · subst hpq; exact alone_adv (s := view s) hs (inv_view hi) h hv
          · exact alone_other (s := view s) hpq h hv
      · show Alone ((setPc s.ph q .crashed).pc p)
        simp only [setPc, upd]; split <;> first | exact trivial | exact h
    · show Alone (((PhaseRun.adv G (seen s q) q).getD s.ph).pc p)
      cases hv : PhaseRun.adv G (seen s q) q with
      | none => exact h
      | some s' =>
        by_cases hpq : p = q
        · subst hpq
          refine alone_adv hs (inv_seen hi p) ?_ hv
          unfold seen; split
          · simp only [setPc, upd_same]; exact trivial
          · exact h
        · exact alone_other hpq (by rw [seen_other hpq]; exact h) hv
  | spawn =>
    show Alone (((PhaseRun.spawn s.ph).getD s.ph).pc p)
    unfold PhaseRun.spawn
    split
    · exact h
    · split
      · simp only [setPc, Option.getD_some, upd]; split <;> first | exact trivial | exact h
      · exact h
  | obj q o =>
    unfold step; dsimp only
    split
    · dsimp only
      split
      · exact alone_wakeDrop _ _ h
      · exact h
    · exact h

theorem run_snoc (s : State) (ops : List Op) (o : Op) : run G t s (ops ++ [o]) = step G t (run G t s ops) o := by simp [run]

theorem booked_run {N : Nat} {ops : List Op} (hf : Fair G t N {} ops) : Booked (fun x => ∃ l, Reach t N l x) (run G t {} ops) := by
  have : ∀ (ops : List Op) (s : State), Booked (fun x => ∃ l, Reach t N l x) s → Fair G t N s ops → Booked (fun x => ∃ l, Reach t N l x) (run G t s ops) := by
    intro ops
    induction ops with
    | nil => intro s hb _; exact hb
    | cons o ops ih =>
      intro s hb hf
      refine ih _ (booked_step (fun s h ha => ?_) hb fun p x e hk h => ?_) hf.2
      · obtain ⟨l, h⟩ := h; exact ⟨_, h.snoc ha⟩
      · obtain ⟨l, h⟩ := h
        have h1 := hf.1
        subst e
        exact ⟨_, h.snoc (h1 hk)⟩
  exact this ops _ (fun _ _ => ⟨[], .nil⟩) hf

theorem alone_run (hG : Wf G) {p : Nat} (hs : sibs G p = some []) (ops : List Op) : Alone ((run G t {} ops).ph.pc p) := by
  have : ∀ (ops : List Op) (s : State), Inv G s.ph → Alone (s.ph.pc p) → Alone ((run G t s ops).ph.pc p) := by
    intro ops
    induction ops with
    | nil => intro s _ h; exact h
    | cons o ops ih => intro s hi h; exact ih _ (inv_step hG hi o) (alone_step hs hi h o)
  exact this ops _ (PhaseRun.inv_init G) trivial

/-- The root's total is 0 when a phase without siblings ends. -/
theorem end_total {s : State} {p : Nat} {o : Op} (hk : G.kind p = .task) (hs : sibs G p = some []) (hi : Inv G s.ph) (ha : Alone (s.ph.pc p))
    (h0 : s.ph.st p ≠ .ended) (h1 : (step G t s o).ph.st p = .ended) : o = .adv p ∧ s.ph.pc p ≠ .cleanup ∧ s.ph.pc p ≠ .crashed ∧ (s.ob p).total 0 = 0 := by
  cases o with
  | adv q =>
    unfold step at h1
    dsimp only at h1
    split at h1
    · rename_i hc
      exfalso
      unfold clean at h1; dsimp only at h1
      split at h1
      · replace h1 : ((PhaseRun.adv G (view s) q).getD s.ph).st p = .ended := h1
        cases hv : PhaseRun.adv G (view s) q with
        | none => rw [hv] at h1; exact h0 h1
        | some s' =>
          rw [hv] at h1
          simp only [Option.getD_some] at h1
          by_cases hpq : p = q
          · subst hpq
            unfold PhaseRun.adv at hv
            rw [show (view s).pc p = .cleanup from hc.1] at hv
            simp only [Option.some.injEq] at hv
            subst hv
            unfold PhaseRun.finish at h1
            dsimp only at h1
            split at h1 <;> simp [setPc, PhaseRun.setSt] at h1
          · rcases other_st hpq (inv_view hi) hv with e | e
            · rw [e] at h1; exact h0 h1
            · rw [e] at h1; exact nomatch h1
      · exact h0 h1
    · rename_i hc
      replace h1 : ((PhaseRun.adv G (seen s q) q).getD s.ph).st p = .ended := h1
      have hst : (seen s q).st p = s.ph.st p := by unfold seen; split <;> rfl
      cases hv : PhaseRun.adv G (seen s q) q with
      | none => rw [hv] at h1; exact absurd h1 h0
      | some s' =>
        rw [hv] at h1
        simp only [Option.getD_some] at h1
        by_cases hpq : p = q
        · subst hpq
          refine ⟨rfl, fun h => hc ⟨h, hk⟩, fun h => ?_, ?_⟩
          · unfold PhaseRun.adv at hv; rw [seen_crashed h] at hv; exact nomatch hv
          · apply Decidable.byContradiction
            intro hne
            refine alone_no_end hk hs (inv_seen hi p) ?_ ?_ (by rw [hst]; exact h0) hv h1
            · unfold seen; split
              · simp only [setPc, upd_same]; exact trivial
              · exact ha
            · have : (seen s p).obj p = ((s.ob p).total 0).natAbs := by unfold seen; split <;> rfl
              rw [this]; omega
        · exfalso
          rcases other_st hpq (inv_seen hi q) hv with e | e
          · rw [e, hst] at h1; exact h0 h1
          · rw [e] at h1; exact nomatch h1
  | spawn =>
    exfalso
    replace h1 : ((PhaseRun.spawn s.ph).getD s.ph).st p = .ended := h1
    unfold PhaseRun.spawn at h1
    split at h1
    · exact h0 h1
    · split at h1 <;> exact h0 h1
  | obj q x =>
    exfalso
    unfold step at h1; dsimp only at h1
    split at h1
    · dsimp only at h1
      split at h1 <;> exact h0 h1
    · exact h0 h1

/-- A task phase without siblings ends only when no component objects to it and only the drain of the root itself can be under way. -/
theorem C347_objection (G : Graph) (hG : Wf G) (t : Tree) (N : Nat) (ops : List Op) (o : Op) (p : Nat) (hf : Fair G t N {} ops) (hk : G.kind p = .task)
    (hs : sibs G p = some []) (h0 : (run G t {} ops).ph.st p ≠ .ended) (h1 : (run G t {} (ops ++ [o])).ph.st p = .ended) :
    (∀ x, x < N → ((run G t {} ops).ob p).count x = 0) ∧ ∀ c ∈ pending ((run G t {} ops).ob p), c.obj = 0 := by
  rw [run_snoc] at h1
  obtain ⟨-, -, hcr, htot⟩ := end_total hk hs (inv_run hG ops) (alone_run hG hs ops) h0 h1
  obtain ⟨l, hr⟩ := booked_run hf p hcr
  have hinv := (Objection.inv_reach hr).1
  have h2 := hinv.acc.tot 0
  have h3 := Objection.heldBelow_nonneg (t := t) hinv.acc.pos 0
  have h4 := Objection.sumBelow_nonneg (t := t) (N := N) hinv.cnt 0
  simp only [List.not_mem_nil, if_false] at h2
  refine ⟨fun x hx => ?_, fun c hc => ?_⟩
  · have h5 := Objection.le_sumBelow (t := t) hinv.cnt hx (Objection.top_mem_chain t x)
    have h6 := hinv.cnt x
    omega
  · apply Decidable.byContradiction
    intro hne
    have hm : 0 ∈ (Objection.chain t c.obj).tail := by
      have := Objection.top_mem_chain t c.obj
      revert this
      unfold Objection.chain Objection.chainF
      rw [if_neg hne]
      intro h
      rcases List.mem_cons.mp h with h | h
      · exact absurd h.symm hne
      · exact h
    have h5 := Objection.le_heldBelow hinv.acc.pos hc hm
    have h6 := hinv.acc.pos c hc
    omega

instance (N : Nat) (s : State) (o : Op) : Decidable (OpAllowed G t N s o) := by
  unfold OpAllowed; split <;> infer_instance
instance (N : Nat) : (s : State) → (ops : List Op) → Decidable (Fair G t N s ops)
  | _, [] => isTrue trivial
  | s, o :: ops => @instDecidableAnd _ _ _ (instDecidableFair N (step G t s o) ops)
instance (s : State) (o : Op) : Decidable (OneDrain G s o) := by
  unfold OneDrain; split <;> infer_instance
instance (N : Nat) : (s : State) → (ops : List Op) → Decidable (FairOne G t N s ops)
  | _, [] => isTrue trivial
  | s, o :: ops => @instDecidableAnd _ _ _ (instDecidableFairOne N (step G t s o) ops)

/-! ## C348: the drain of the root -/

theorem wf_single : Wf PhaseRun.single := ⟨PhaseRun.ofEdges_agree _ _ _ _, by decide⟩

/-- Phase 1 of `single` is about to look at its objection. -/
def toCrit : List Op := [.spawn, .adv 0, .adv 0, .adv 0, .adv 0, .adv 0, .adv 0, .spawn, .adv 1, .adv 1, .adv 1]

theorem crashed_run {s : State} {p : Nat} (h : s.ph.pc p = .crashed) (ops : List Op) : (run G t s ops).ph.pc p = .crashed := by
  induction ops generalizing s with
  | nil => exact h
  | cons o ops ih => exact ih (crashed_step h o)

/-- C348 fails: the end of a phase depends on the total of the root alone, not on its drain.  If the last objection is dropped before the phase looks, the phase ends
while the drain of the root is running, the `clear` of its clean-up raises, and the phase never becomes DONE, whatever happens. -/
theorem C348_drain_cut_off_fails : ∃ ops, Fair PhaseRun.single Objection.exTree 4 {} ops ∧ (∀ x, x < 4 → ((run PhaseRun.single Objection.exTree {} ops).ob 1).count x = 0) ∧
    (run PhaseRun.single Objection.exTree {} ops).ph.st 1 = .cleanup ∧ ∀ more, (run PhaseRun.single Objection.exTree {} (ops ++ more)).ph.st 1 ≠ .done := by
  refine ⟨toCrit ++ [.obj 1 (.raise 0 1), .obj 1 (.drop 0 1), .obj 1 .bg, .obj 1 .start, .adv 1, .adv 1, .adv 1, .adv 1, .adv 1, .adv 1],
    by decide, by decide, by decide, fun more hd => ?_⟩
  have hi := inv_run (t := Objection.exTree) wf_single
    (toCrit ++ [.obj 1 (.raise 0 1), .obj 1 (.drop 0 1), .obj 1 .bg, .obj 1 .start, .adv 1, .adv 1, .adv 1, .adv 1, .adv 1, .adv 1] ++ more)
  have hpc : (run PhaseRun.single Objection.exTree {} (toCrit ++
      [.obj 1 (.raise 0 1), .obj 1 (.drop 0 1), .obj 1 .bg, .obj 1 .start, .adv 1, .adv 1, .adv 1, .adv 1, .adv 1, .adv 1] ++ more)).ph.pc 1 = .crashed := by
    unfold run
    rw [List.foldl_append]
    exact crashed_run (by decide) more
  have hp := hi.pcs 1
  rw [hpc, hd] at hp
  exact nomatch hp

/-- C348 (partial): a task phase that has ended and whose objection has no forked or running drain when it is cleaned up becomes DONE in two steps of its task, and
its objection is empty then.  Missing: a drain under way (`C348_drain_cut_off_fails`). -/
theorem C348_done_partial (G : Graph) (hG : Wf G) (t : Tree) (ops : List Op) (p : Nat) (hk : G.kind p = .task) (h : (run G t {} ops).ph.st p = .ended)
    (hd : ((run G t {} ops).ob p).forked = [] ∧ ((run G t {} ops).ob p).fctx = []) :
    (run G t {} (ops ++ [.adv p, .adv p])).ph.st p = .done ∧ ∀ x, ((run G t {} (ops ++ [.adv p, .adv p])).ob p).total x = 0 ∧
      ((run G t {} (ops ++ [.adv p, .adv p])).ob p).count x = 0 := by
  have hi := inv_run (t := t) hG ops
  rw [show ops ++ [Op.adv p, .adv p] = (ops ++ [.adv p]) ++ [.adv p] by simp, run_snoc, run_snoc]
  generalize run G t {} ops = s at *
  have hpc : s.ph.pc p = .ended := by
    have := hi.pcs p
    rw [h] at this
    revert this
    cases s.ph.pc p <;> simp [PhaseRun.pcst]
  have h1 : step G t s (.adv p) = { s with ph := setPc (PhaseRun.setSt (view s) p .cleanup) p .cleanup } := by
    unfold step
    dsimp only
    rw [if_neg (by rw [hpc]; nofun)]
    have : seen s p = view s := by unfold seen; rw [if_neg (by rw [hpc]; nofun)]
    rw [this]
    unfold PhaseRun.adv
    rw [show (view s).pc p = .ended from hpc]
    rfl
  rw [h1]
  unfold step
  dsimp only
  rw [if_pos ⟨by simp [setPc], hk⟩]
  unfold clean
  dsimp only
  have hc : Objection.clear (s.ob p) = ({ s.ob p with srcC := fun _ => none, tot := fun _ => none, sched := (s.ob p).sched.filter (·.isNone), topAllDropped := false, cleared := true }, []) := by
    unfold Objection.clear
    dsimp only
    rw [if_neg (by simp [hd.1, hd.2])]
  rw [hc]
  dsimp only
  rw [if_pos rfl]
  refine ⟨?_, fun x => ?_⟩
  · dsimp only
    unfold PhaseRun.adv
    rw [show (view _).pc p = Pc.cleanup from by simp [view, setPc]]
    dsimp only [Option.getD_some]
    unfold PhaseRun.finish
    dsimp only
    split <;> simp [setPc, PhaseRun.setSt]
  · simp [Objection.State.total, Objection.State.count]

/-- A phase that waited for its objection and ended after the drain of the root. -/
def goodEnd : List Op := toCrit ++ [.obj 1 (.raise 1 1), .adv 1, .obj 1 (.drop 1 1), .obj 1 .bg, .obj 1 .start, .obj 1 (.notify 0), .obj 1 (.finish 0), .obj 1 .bg, .obj 1 .start,
  .obj 1 (.notify 0), .obj 1 (.finish 0), .adv 1, .adv 1, .adv 1]

example : PhaseRun.single.kind 1 = .task ∧ sibs PhaseRun.single 1 = some [] ∧ Fair PhaseRun.single Objection.exTree 4 {} goodEnd ∧
    (run PhaseRun.single Objection.exTree {} goodEnd).ph.st 1 ≠ .ended ∧ (run PhaseRun.single Objection.exTree {} (goodEnd ++ [.adv 1])).ph.st 1 = .ended ∧
    ((run PhaseRun.single Objection.exTree {} (goodEnd ++ [.adv 1])).ob 1).forked = [] ∧ ((run PhaseRun.single Objection.exTree {} (goodEnd ++ [.adv 1])).ob 1).fctx = [] := by decide

set_option maxRecDepth 4000 in
/-- The order theorem on a run in which something was done. -/
example : (run PhaseRun.single Objection.exTree {} (goodEnd ++ [.adv 1, .adv 1, .adv 1, .adv 1, .spawn, .adv 2, .adv 2, .adv 2, .adv 2, .adv 2, .adv 2, .adv 2])).ph.allDone = true := by decide

/-! ## C349: the end of a phase when all objections are dropped -/

/-- Nothing moves any more: the phase waits, and its objection has no coroutine that could go on. -/
def Dead (s : State) : Prop := s.ph.pc 1 = .ownFirst false ∧ (s.ob 1).ev = false ∧ (s.ob 1).toStart = 0 ∧ (s.ob 1).running = []

theorem dead_step {s : State} (h : Dead s) {o : Op} (ho : Internal o) : Dead (step PhaseRun.single t s o) := by
  obtain ⟨h1, h2, h3, h4⟩ := h
  cases o with
  | adv q =>
    have key : ∀ s0 s' : PhaseRun.State, s0.pc 1 = .ownFirst false → PhaseRun.adv PhaseRun.single s0 q = some s' → s'.pc 1 = .ownFirst false := by
      intro s0 s' h0 hv
      by_cases hq : 1 = q
      · subst hq; unfold PhaseRun.adv at hv; rw [h0] at hv; exact nomatch hv
      · exact other_pc (P := (· = .ownFirst false)) (fun _ c h => by rw [h]; rfl) (fun c h => by rw [h]; simp [PhaseRun.wakeDrop, hq]) hq h0 hv
    unfold step
    dsimp only
    split
    · rename_i hc
      have hq : 1 ≠ q := by rintro rfl; rw [h1] at hc; exact nomatch hc.1
      unfold clean
      dsimp only
      have hob : upd s.ob q (Objection.clear (s.ob q)).1 1 = s.ob 1 := upd_other _ _ hq
      split
      · refine ⟨?_, (congrArg Objection.State.ev hob).trans h2, (congrArg Objection.State.toStart hob).trans h3, (congrArg Objection.State.running hob).trans h4⟩
        show ((PhaseRun.adv PhaseRun.single (view s) q).getD s.ph).pc 1 = _
        cases hv : PhaseRun.adv PhaseRun.single (view s) q with
        | none => exact h1
        | some s' => exact key (view s) s' h1 hv
      · exact ⟨by simp [setPc, upd_other _ _ hq, h1], (congrArg Objection.State.ev hob).trans h2, (congrArg Objection.State.toStart hob).trans h3, (congrArg Objection.State.running hob).trans h4⟩
    · refine ⟨?_, h2, h3, h4⟩
      show ((PhaseRun.adv PhaseRun.single (seen s q) q).getD s.ph).pc 1 = _
      cases hv : PhaseRun.adv PhaseRun.single (seen s q) q with
      | none => exact h1
      | some s' =>
        refine key (seen s q) s' ?_ hv
        by_cases hq : 1 = q
        · subst hq; unfold seen; rw [if_neg (by rw [h1]; nofun)]; exact h1
        · rw [seen_other hq]; exact h1
  | spawn =>
    refine ⟨?_, h2, h3, h4⟩
    show ((PhaseRun.spawn s.ph).getD s.ph).pc 1 = _
    unfold PhaseRun.spawn
    split
    · exact h1
    · rename_i q l hq
      split
      · rename_i hi
        have : 1 ≠ q := by rintro rfl; rw [h1] at hi; exact nomatch hi
        simp [setPc, upd_other _ _ this, h1]
      · exact h1
  | obj q x =>
    unfold step
    dsimp only
    by_cases hq : q = 1
    · subst hq
      rw [if_pos (by decide)]
      have hx : Objection.step t (s.ob 1) x = (s.ob 1, []) := by
        cases x <;> simp_all [Internal, Objection.step]
      have ha : announces x [] = false := by
        cases x <;> simp_all [Internal, announces]
      rw [hx]
      dsimp only
      rw [ha]
      exact ⟨h1, by simp [h2], by simp [h3], by simp [h4]⟩
    · rw [if_neg (by unfold PhaseRun.single PhaseRun.ofEdges; dsimp only; rw [if_neg hq]; split <;> nofun)]
      exact ⟨h1, h2, h3, h4⟩

theorem dead_run {s : State} (h : Dead s) {ops : List Op} (ho : ∀ o ∈ ops, Internal o) : Dead (run PhaseRun.single t s ops) := by
  induction ops generalizing s with
  | nil => exact h
  | cons o ops ih => exact ih (dead_step h (ho o (by simp))) fun x hx => ho x (by simp [hx])

/-- C349 fails: two components that drop in the same time step.  The second drain is lost (C30), so the phase waits for ever although nobody objects any more. -/
theorem C349_phase_hangs_fails : ∃ ops, Fair PhaseRun.single Objection.exTree 4 {} ops ∧ (∀ x, x < 4 → ((run PhaseRun.single Objection.exTree {} ops).ob 1).count x = 0) ∧
    ∀ more, (∀ o ∈ more, Internal o) → (run PhaseRun.single Objection.exTree {} (ops ++ more)).ph.st 1 = .executing := by
  refine ⟨toCrit ++ [.obj 1 (.raise 1 1), .obj 1 (.raise 2 1), .adv 1, .obj 1 (.drop 1 1), .obj 1 (.drop 2 1), .obj 1 .bg, .obj 1 .start, .obj 1 (.notify 0), .obj 1 (.finish 0)],
    by decide, by decide, fun more hm => ?_⟩
  have hd : Dead (run PhaseRun.single Objection.exTree {} (toCrit ++ [.obj 1 (.raise 1 1), .obj 1 (.raise 2 1), .adv 1, .obj 1 (.drop 1 1), .obj 1 (.drop 2 1), .obj 1 .bg,
      .obj 1 .start, .obj 1 (.notify 0), .obj 1 (.finish 0)] ++ more)) := by
    unfold run
    rw [List.foldl_append]
    exact dead_run ⟨by decide, by decide, by decide, by decide⟩ hm
  have hp := (inv_run (t := Objection.exTree) wf_single (toCrit ++ [.obj 1 (.raise 1 1), .obj 1 (.raise 2 1), .adv 1, .obj 1 (.drop 1 1), .obj 1 (.drop 2 1), .obj 1 .bg,
      .obj 1 .start, .obj 1 (.notify 0), .obj 1 (.finish 0)] ++ more)).pcs 1
  rw [hd.1] at hp
  exact (PhaseRun.pcst_ownFirst hp).1

/-- The root will still be announced: it has a total, or a drain that has not yet announced it. -/
def Owed (s : Objection.State) : Prop := s.total 0 ≠ 0 ∨ (∃ c, (some c ∈ s.sched ∨ c ∈ s.forked) ∧ c.obj = 0) ∨ 
    ∃ (i : Nat) (r : Objection.Run), s.running[i]? = some r ∧ r.ctx.obj = 0 ∧ r.notified = false

theorem owed_mDrop (src : Nat) : ∀ (p : List Nat) (n : Int) (s : Objection.State), Owed s → Owed (Objection.mDrop p src n s).1 := by
  intro p
  induction p with
  | nil => intro n s h; exact h
  | cons o up ih =>
    intro n s h
    unfold Objection.mDrop
    split
    · exact h
    · split
      · split <;> exact h
      · split
        · split <;> exact h
        · have ht : ∀ x, x ≠ o → (Objection.addCounts s o src (-n)).total x = s.total x := by
            intro x hx; simp [Objection.State.total, Objection.addCounts, Objection.bump, hx]
          split
          · rename_i hne
            refine ih _ _ ?_
            by_cases ho : o = 0
            · subst ho; exact .inl hne
            · rcases h with h | h | h
              · exact .inl (by rw [ht 0 (Ne.symm ho)]; exact h)
              · exact .inr (.inl h)
              · exact .inr (.inr h)
          · by_cases ho : o = 0
            · subst ho; exact .inr (.inl ⟨⟨0, src, n⟩, .inl (by simp [Objection.schedule]), rfl⟩)
            · rcases h with h | ⟨c, hc, hc0⟩ | h
              · refine .inl ?_
                show (Objection.addCounts s o src (-n)).total 0 ≠ 0
                rw [ht 0 (Ne.symm ho)]; exact h
              · refine .inr (.inl ⟨c, ?_, hc0⟩)
                rcases hc with hc | hc
                · exact .inl (by simp [Objection.schedule, Objection.addCounts, hc])
                · exact .inr hc
              · exact .inr (.inr h)

theorem owed_erase {s : Objection.State} {i : Nat} {r : Objection.Run} (hr : s.running[i]? = some r) (hn : r.notified = true) (h : Owed s) (f : List Objection.Ctx) :
    Owed { s with running := s.running.eraseIdx i, fctx := f } := by
  rcases h with h | h | ⟨j, r', hj, h1, h2⟩
  · exact .inl h
  · exact .inr (.inl h)
  · refine .inr (.inr ?_)
    have hne : j ≠ i := by rintro rfl; rw [hj] at hr; cases hr; rw [h2] at hn; exact nomatch hn
    by_cases hlt : j < i
    · exact ⟨j, r', by simp [List.getElem?_eraseIdx, hlt, hj], h1, h2⟩
    · refine ⟨j - 1, r', ?_, h1, h2⟩
      simp only [List.getElem?_eraseIdx]
      rw [if_neg (by omega), show j - 1 + 1 = j by omega]; exact hj

theorem owed_finish {s : Objection.State} {i : Nat} {r : Objection.Run} (hr : s.running[i]? = some r) (hn : r.notified = true) (up : List Nat) (h : Owed s) :
    Owed (Objection.finish s i r up).1 := by
  have h0 : Owed { s with srcC := Objection.delZero s.srcC r.ctx.obj, tot := Objection.delZero s.tot r.ctx.obj } := by
    rcases h with h | h | h
    · refine .inl ?_
      simp only [Objection.State.total, Objection.delZero] at h ⊢
      split
      · rename_i hh; rw [← hh.1] at hh; rw [hh.2] at h; exact absurd rfl h
      · exact h
    · exact .inr (.inl h)
    · exact .inr (.inr h)
  have h1 := owed_mDrop r.ctx.src up r.ctx.count _ h0
  have h2 := (Objection.mDrop_sched r.ctx.src up r.ctx.count { s with srcC := Objection.delZero s.srcC r.ctx.obj, tot := Objection.delZero s.tot r.ctx.obj }).2.running
  unfold Objection.finish
  dsimp only
  generalize Objection.mDrop up r.ctx.src r.ctx.count { s with srcC := Objection.delZero s.srcC r.ctx.obj, tot := Objection.delZero s.tot r.ctx.obj } = d at *
  have h3 : d.1.running[i]? = some r := by rw [h2]; exact hr
  split
  · exact owed_erase h3 hn h1 _
  · exact owed_erase h3 hn h1 _

theorem owed_step {N : Nat} {s : Objection.State} (hi : Objection.Inv t N s) (op : Objection.Op) (ha : Allowed t N s op) (h : Owed s) :
    Owed (Objection.step t s op).1 ∨ announces op (Objection.step t s op).2 = true := by
  cases op with
  | raise o n =>
    left
    by_cases hn : n = 0
    · subst hn
      show Owed (Objection.mRaise (Objection.chain t o) o 0 _).1
      cases hc : Objection.chain t o with
      | nil => exact h
      | cons a up => unfold Objection.mRaise; rw [if_pos rfl]; exact h
    · left
      obtain ⟨h1, h2⟩ := Objection.inv_step hi (.raise o n) ha
      have h3 := h1.acc.tot 0
      have h4 := Objection.heldBelow_nonneg (t := t) h1.acc.pos 0
      have h5 := Objection.le_sumBelow (t := t) h1.cnt ha.1 (Objection.top_mem_chain t o)
      have h6 := hi.cnt o
      have h7 : (Objection.step t s (.raise o n)).1.count o = s.count o + n := by rw [h2]; simp [Objection.specCount]
      have h8 := ha.2.1
      simp only [List.not_mem_nil, if_false] at h3
      omega
  | drop o n => exact .inl (owed_mDrop _ _ _ _ h)
  | clear =>
    right
    show announces .clear (Objection.clear s).2 = true
    unfold Objection.clear
    dsimp only
    rw [if_neg (by simp [ha.1, ha.2])]
    rfl
  | foreign =>
    left
    rcases h with h | ⟨c, hc | hc, h0⟩ | h
    · exact .inl h
    · exact .inr (.inl ⟨c, .inl (by simp [Objection.step, hc]), h0⟩)
    · exact .inr (.inl ⟨c, .inr hc, h0⟩)
    · exact .inr (.inr h)
  | foreignRemove i =>
    left
    unfold Objection.step
    dsimp only
    split
    · rename_i hi
      rcases h with h | ⟨c, hc | hc, h0⟩ | h
      · exact .inl h
      · refine .inr (.inl ⟨c, .inl ?_, h0⟩)
        obtain ⟨j, hj⟩ := List.mem_iff_getElem?.mp hc
        have hne : j ≠ i := by rintro rfl; rw [hi] at hj; exact nomatch hj
        refine List.mem_iff_getElem?.mpr ?_
        by_cases hlt : j < i
        · exact ⟨j, by simp [List.getElem?_eraseIdx, hlt, hj]⟩
        · refine ⟨j - 1, ?_⟩
          simp only [List.getElem?_eraseIdx]
          rw [if_neg (by omega), show j - 1 + 1 = j by omega]; exact hj
      · exact .inr (.inl ⟨c, .inr hc, h0⟩)
      · exact .inr (.inr h)
    · exact h
  | bg =>
    left
    unfold Objection.step
    dsimp only
    split
    · split
      · rename_i he; exact h
      · rename_i q he
        rcases h with h | ⟨c, hc | hc, h0⟩ | h
        · exact .inl h
        · rw [he] at hc; exact .inr (.inl ⟨c, .inl (by simpa using hc), h0⟩)
        · exact .inr (.inl ⟨c, .inr hc, h0⟩)
        · exact .inr (.inr h)
      · rename_i d q he
        rcases h with h | ⟨c, hc | hc, h0⟩ | h
        · exact .inl h
        · rw [he] at hc
          refine .inr (.inl ⟨c, ?_, h0⟩)
          rcases List.mem_cons.mp hc with hc | hc
          · cases hc; exact .inr (by simp)
          · exact .inl hc
        · exact .inr (.inl ⟨c, .inr (by simp [hc]), h0⟩)
        · exact .inr (.inr h)
    · exact h
  | start =>
    left
    unfold Objection.step
    dsimp only
    split
    · exact h
    · split
      · exact h
      · rename_i d q he
        rcases h with h | ⟨c, hc | hc, h0⟩ | ⟨j, r, hj, h1, h2⟩
        · exact .inl h
        · exact .inr (.inl ⟨c, .inl hc, h0⟩)
        · rw [he] at hc
          rcases List.mem_cons.mp hc with hc | hc
          · subst hc
            exact .inr (.inr ⟨s.running.length, { ctx := c }, by simp, h0, rfl⟩)
          · exact .inr (.inl ⟨c, .inr hc, h0⟩)
        · refine .inr (.inr ⟨j, r, ?_, h1, h2⟩)
          have : j < s.running.length := by
            apply Decidable.byContradiction; intro hge
            rw [List.getElem?_eq_none (by omega)] at hj; exact nomatch hj
          dsimp only
          rw [List.getElem?_append_left this]; exact hj
  | notify i =>
    unfold Objection.step
    dsimp only
    cases hr : s.running[i]? with
    | none => exact .inl h
    | some r =>
      dsimp only
      by_cases hn : r.notified = true
      · rw [if_pos hn]; exact .inl h
      · rw [if_neg hn]
        by_cases h0 : r.ctx.obj = 0
        · right; simp [announces, h0]
        · left
          rcases h with h | h | ⟨j, r', hj, h1, h2⟩
          · exact .inl h
          · exact .inr (.inl h)
          · refine .inr (.inr ⟨j, r', ?_, h1, h2⟩)
            have hne : i ≠ j := by rintro rfl; rw [hj] at hr; cases hr; exact h0 h1
            dsimp only
            rw [List.getElem?_set_ne hne]; exact hj
  | finish i =>
    left
    unfold Objection.step
    dsimp only
    cases hr : s.running[i]? with
    | none => exact h
    | some r =>
      dsimp only
      by_cases hn : r.notified = true
      · rw [if_pos hn]; exact owed_finish hr hn _ h
      · rw [if_neg hn]; exact h

/-- The task waits for the objection of its own phase. -/
def Waiting : Pc → Prop
  | .ownFirst w => w = false
  | .ownDrop _ w => w = false
  | _ => False

theorem waiting_wakeSt {q : Nat} {c : Pc} (h : Waiting (PhaseRun.wakeSt q c)) : Waiting c := by
  unfold PhaseRun.wakeSt at h; split at h <;> first | exact h | exact h.elim
theorem waiting_wakeDrop {q x : Nat} {c : Pc} (h : Waiting (PhaseRun.wakeDrop q x c)) : Waiting c := by
  unfold PhaseRun.wakeDrop at h
  split at h
  · simp only [Waiting, Bool.or_eq_false_iff] at h ⊢; exact h.1
  · simp only [Waiting, Bool.or_eq_false_iff] at h ⊢; exact h.1
  · exact h.elim
  · exact h
theorem waiting_woken {q : Nat} {c : Pc} (h : Waiting (PhaseRun.wakeDrop q q c)) : False := by
  unfold PhaseRun.wakeDrop at h
  split at h
  · simp [Waiting] at h
  · simp [Waiting] at h
  · exact h
  · rename_i h1 h2 _; cases c <;> first | exact h | exact h1 _ rfl | exact h2 _ _ rfl

theorem waiting_setPc {s : PhaseRun.State} {p : Nat} {c : Pc} (hc : ¬ Waiting c) : ¬ Waiting ((setPc s p c).pc p) := by simp only [setPc, upd_same]; exact hc

theorem waiting_exitW {s : PhaseRun.State} {p : Nat} (b : Bool) : ¬ Waiting ((PhaseRun.exitW s p b).pc p) := by
  unfold PhaseRun.exitW
  split
  · exact waiting_setPc nofun
  · split <;> exact waiting_setPc nofun

theorem waiting_topW {s : PhaseRun.State} {p : Nat} (b : Bool) (l : List Nat) (h : s.obj p = 0) : ¬ Waiting ((PhaseRun.topW s p b l).pc p) := by
  unfold PhaseRun.topW
  rw [if_neg (by simp [h])]
  split
  · exact waiting_exitW b
  · exact waiting_setPc nofun

theorem waiting_nextSib {s : PhaseRun.State} {p : Nat} (b n : Bool) (a l : List Nat) (h : s.obj p = 0) : ¬ Waiting ((PhaseRun.nextSib s p b n a l).pc p) := by
  unfold PhaseRun.nextSib
  split
  · exact waiting_setPc nofun
  · split
    · exact waiting_topW _ _ h
    · exact waiting_exitW b

theorem waiting_nextPred {s : PhaseRun.State} {p : Nat} (l : List Nat) : ¬ Waiting ((PhaseRun.nextPred s p l).pc p) := by
  unfold PhaseRun.nextPred; split <;> exact waiting_setPc nofun

theorem waiting_finish {s : PhaseRun.State} {p : Nat} : ¬ Waiting ((PhaseRun.finish G s p).pc p) := by
  unfold PhaseRun.finish; dsimp only; split <;> exact waiting_setPc nofun

/-- A task begins to wait for its objection only when there is one. -/
theorem adv_waits {s s' : PhaseRun.State} {p : Nat} (h0 : s.obj p = 0) (hadv : PhaseRun.adv G s p = some s') : ¬ Waiting (s'.pc p) := by
  unfold PhaseRun.adv at hadv
  split at hadv
  · simp at hadv
  · split at hadv
    · split at hadv <;> cases hadv <;> exact waiting_setPc nofun
    · simp at hadv
  · cases hadv; exact waiting_setPc nofun
  · cases hadv; cases G.kind p <;> exact waiting_setPc nofun
  · cases hadv; exact waiting_finish
  · split at hadv
    · cases hadv; exact waiting_setPc nofun
    · cases hadv; exact waiting_nextPred _
  · cases hadv; exact waiting_setPc nofun
  · split at hadv
    · dsimp only at hadv
      split at hadv
      · cases hadv; exact waiting_nextPred _
      · cases hadv; exact waiting_setPc nofun
    · simp at hadv
  · split at hadv
    · rename_i hne; exact absurd h0 hne
    · split at hadv <;> cases hadv <;> exact waiting_setPc nofun
  · split at hadv
    · split at hadv <;> cases hadv <;> exact waiting_setPc nofun
    · simp at hadv
  · cases hadv; exact waiting_topW _ _ h0
  · split at hadv
    · cases hadv; exact waiting_nextSib _ _ _ _ h0
    · simp at hadv
  · cases hadv; exact waiting_nextSib _ _ _ _ h0
  · split at hadv
    · dsimp only at hadv
      split at hadv
      · split at hadv
        · cases hadv; exact waiting_setPc nofun
        · cases hadv; exact waiting_nextSib _ _ _ _ h0
      · cases hadv; exact waiting_setPc nofun
    · simp at hadv
  · split at hadv
    · cases hadv; exact waiting_nextSib _ _ _ _ h0
    · simp at hadv
  · cases hadv; exact waiting_setPc nofun
  · cases hadv; exact waiting_setPc nofun
  · cases hadv; exact waiting_finish
  · cases hadv; exact waiting_setPc nofun
  · cases hadv; exact waiting_setPc nofun
  · simp at hadv
  · simp at hadv

/-- Only a missing sibling list or the clean-up ends a task prematurely. -/
theorem adv_alive {s s' : PhaseRun.State} {p : Nat} (hs : sibs G p ≠ none) (hadv : PhaseRun.adv G s p = some s') : s'.pc p ≠ .crashed := by
  have k1 : ∀ (s : PhaseRun.State) c, c ≠ Pc.crashed → (setPc s p c).pc p ≠ .crashed := fun s c h => by simpa [setPc] using h
  have k2 : ∀ (s : PhaseRun.State) b, (PhaseRun.exitW s p b).pc p ≠ .crashed := by
    intro s b; unfold PhaseRun.exitW
    split
    · exact k1 _ _ nofun
    · split <;> exact k1 _ _ nofun
  have k3 : ∀ (s : PhaseRun.State) b l, (PhaseRun.topW s p b l).pc p ≠ .crashed := by
    intro s b l; unfold PhaseRun.topW
    split
    · exact k1 _ _ nofun
    · split
      · exact k2 _ _
      · exact k1 _ _ nofun
  have k4 : ∀ (s : PhaseRun.State) b n a l, (PhaseRun.nextSib s p b n a l).pc p ≠ .crashed := by
    intro s b n a l; unfold PhaseRun.nextSib
    split
    · exact k1 _ _ nofun
    · split
      · exact k3 _ _ _
      · exact k2 _ _
  have k5 : ∀ (s : PhaseRun.State) l, (PhaseRun.nextPred s p l).pc p ≠ .crashed := by
    intro s l; unfold PhaseRun.nextPred; split <;> exact k1 _ _ nofun
  have k6 : ∀ (s : PhaseRun.State), (PhaseRun.finish G s p).pc p ≠ .crashed := by
    intro s; unfold PhaseRun.finish; dsimp only; split <;> exact k1 _ _ nofun
  unfold PhaseRun.adv at hadv
  split at hadv
  · simp at hadv
  · split at hadv
    · split at hadv <;> cases hadv <;> exact k1 _ _ nofun
    · simp at hadv
  · cases hadv; exact k1 _ _ nofun
  · cases hadv; cases G.kind p <;> exact k1 _ _ nofun
  · cases hadv; exact k6 _
  · split at hadv
    · rename_i hn; exact absurd hn hs
    · cases hadv; exact k5 _ _
  · cases hadv; exact k1 _ _ nofun
  · split at hadv
    · dsimp only at hadv
      split at hadv
      · cases hadv; exact k5 _ _
      · cases hadv; exact k1 _ _ nofun
    · simp at hadv
  · split at hadv
    · cases hadv; exact k1 _ _ nofun
    · split at hadv
      · rename_i hn; exact absurd hn hs
      · cases hadv; exact k1 _ _ nofun
  · split at hadv
    · split at hadv
      · rename_i hn; exact absurd hn hs
      · cases hadv; exact k1 _ _ nofun
    · simp at hadv
  · cases hadv; exact k3 _ _ _
  · split at hadv
    · cases hadv; exact k4 _ _ _ _ _
    · simp at hadv
  · cases hadv; exact k4 _ _ _ _ _
  · split at hadv
    · dsimp only at hadv
      split at hadv
      · split at hadv
        · cases hadv; exact k1 _ _ nofun
        · cases hadv; exact k4 _ _ _ _ _
      · cases hadv; exact k1 _ _ nofun
    · simp at hadv
  · split at hadv
    · cases hadv; exact k4 _ _ _ _ _
    · simp at hadv
  · cases hadv; exact k1 _ _ nofun
  · cases hadv; exact k1 _ _ nofun
  · cases hadv; exact k6 _
  · cases hadv; exact k1 _ _ nofun
  · cases hadv; exact k1 _ _ nofun
  · simp at hadv
  · simp at hadv

/-- A phase that waits for its objection is still owed the announcement; a phase whose task died had ended. -/
structure Good (G : Graph) (s : State) (p : Nat) : Prop where
  waits : Waiting (s.ph.pc p) → Owed (s.ob p)
  dead : s.ph.pc p = .crashed → s.ph.st p = .cleanup

theorem good_step (hG : Wf G) {N : Nat} {s : State} {p : Nat} (hk : G.kind p = .task) (hs : sibs G p ≠ none) (hi : Inv G s.ph)
    (hb : s.ph.pc p ≠ .crashed → Objection.Inv t N (s.ob p)) (hg : Good G s p) {o : Op} (ho : OpAllowed G t N s o) : Good G (step G t s o) p := by
  have adv_case : ∀ (s0 s' : PhaseRun.State) (q : Nat) (ob' : Nat → Objection.State), Inv G s0 → PhaseRun.adv G s0 q = some s' → ob' p = s.ob p →
      (p = q → s0.obj p = ((s.ob p).total 0).natAbs) → (p ≠ q → s0.pc p = s.ph.pc p ∧ s0.st p = s.ph.st p) → Good G { ph := s', ob := ob' } p := by
    intro s0 s' q ob' hi0 hv hob ho0 hne
    by_cases hpq : p = q
    · subst hpq
      refine ⟨fun hw => ?_, fun hc => absurd hc (adv_alive hs hv)⟩
      show Owed (ob' p)
      rw [hob]
      refine .inl fun h0 => adv_waits (by rw [ho0 rfl, h0]; rfl) hv hw
    · obtain ⟨e1, e2⟩ := hne hpq
      refine ⟨fun hw => ?_, fun hc => ?_⟩
      · show Owed (ob' p)
        rw [hob]
        refine hg.waits (Classical.byContradiction fun hn => ?_)
        exact other_pc (P := fun c => ¬ Waiting c) (fun _ _ h1 h2 => h1 (waiting_wakeSt h2)) (fun _ h1 h2 => h1 (waiting_wakeDrop h2)) hpq
          (by rw [e1]; exact hn) hv hw
      · have hc0 : s0.pc p = .crashed := Classical.byContradiction fun hn =>
          other_pc (P := fun c => c ≠ .crashed) (fun q c h1 => by unfold PhaseRun.wakeSt; split <;> first | exact h1 | nofun)
            (fun c h1 => by unfold PhaseRun.wakeDrop; split <;> first | exact h1 | nofun) hpq hn hv hc
        have hst := hg.dead (by rw [← e1]; exact hc0)
        rcases other_st hpq hi0 hv with e | e
        · exact (e.trans e2).trans hst
        · have := (PhaseRun.inv_adv hG hi0 hv).pcs p
          rw [e, hc] at this
          exact nomatch this
  have hob1 : ∀ q x, p ≠ q → upd s.ob q x p = s.ob p := fun q x h => upd_other _ _ h
  cases o with
  | adv q =>
    unfold step
    dsimp only
    split
    · rename_i hc
      by_cases hpq : p = q
      · subst hpq
        unfold clean
        dsimp only
        split
        · have hv : PhaseRun.adv G (view s) p = some (PhaseRun.finish G (wakeDropped { view s with obj := upd (view s).obj p 0 } p) p) := by
            unfold PhaseRun.adv
            rw [show (view s).pc p = .cleanup from hc.1]
          rw [hv]
          refine ⟨fun hw => absurd hw waiting_finish, fun h => ?_⟩
          exact absurd h (adv_alive hs hv)
        · refine ⟨fun hw => ?_, fun _ => ?_⟩
          · simp [setPc, Waiting] at hw
          · exact PhaseRun.pcst_cleanup (by have := hi.pcs p; rwa [hc.1] at this)
      · unfold clean
        dsimp only
        split
        · cases hv : PhaseRun.adv G (view s) q with
          | none => exact ⟨fun hw => (congrArg Owed (hob1 q _ hpq)).mpr <| hg.waits hw, hg.dead⟩
          | some s' => exact adv_case (view s) s' q _ (inv_view hi) hv (hob1 q _ hpq) (fun e => absurd e hpq) fun _ => ⟨rfl, rfl⟩
        · have hpc : (setPc s.ph q .crashed).pc p = s.ph.pc p := by simp [setPc, upd_other _ _ hpq]
          exact ⟨fun hw => (congrArg Owed (hob1 q _ hpq)).mpr <| hg.waits (hpc ▸ hw), fun h => hg.dead (hpc ▸ h)⟩
    · cases hv : PhaseRun.adv G (seen s q) q with
      | none => exact ⟨hg.waits, hg.dead⟩
      | some s' =>
        exact adv_case (seen s q) s' q s.ob (inv_seen hi q) hv rfl (fun e => by subst e; unfold seen; split <;> rfl)
          fun h => ⟨seen_other h, by unfold seen; split <;> rfl⟩
  | spawn =>
    have key : (step G t s .spawn).ph.st p = s.ph.st p ∧ ((step G t s .spawn).ph.pc p = s.ph.pc p ∨ (step G t s .spawn).ph.pc p = .waitPreds) := by
      show ((PhaseRun.spawn s.ph).getD s.ph).st p = _ ∧ (((PhaseRun.spawn s.ph).getD s.ph).pc p = _ ∨ ((PhaseRun.spawn s.ph).getD s.ph).pc p = _)
      unfold PhaseRun.spawn
      split
      · exact ⟨rfl, .inl rfl⟩
      · split
        · refine ⟨rfl, ?_⟩
          simp only [setPc, Option.getD_some, upd]
          split
          · exact .inr rfl
          · exact .inl rfl
        · exact ⟨rfl, .inl rfl⟩
    refine ⟨fun hw => ?_, fun h => ?_⟩
    · rcases key.2 with e | e
      · rw [e] at hw; exact hg.waits hw
      · rw [e] at hw; exact hw.elim
    · rcases key.2 with e | e
      · rw [e] at h; exact key.1.trans (hg.dead h)
      · rw [e] at h; exact nomatch h
  | obj q x =>
    unfold step
    dsimp only
    split
    · rename_i hkq
      have hcr : ∀ c : Pc, PhaseRun.wakeDrop q p c = .crashed → c = .crashed := by
        intro c h; unfold PhaseRun.wakeDrop at h; split at h <;> first | exact h | exact nomatch h
      by_cases hpq : p = q
      · subst hpq
        by_cases ha : announces x (Objection.step t (s.ob p) x).2 = true
        · rw [if_pos ha]
          exact ⟨fun hw => absurd hw waiting_woken, fun h => hg.dead (hcr _ h)⟩
        · rw [if_neg ha]
          refine ⟨fun hw => ?_, hg.dead⟩
          show Owed (upd _ _ _ p)
          rw [upd_same]
          have hnc : s.ph.pc p ≠ .crashed := by intro h; have := hw; simp only [h] at this; exact this
          exact (owed_step (hb hnc) x (ho hkq) (hg.waits hw)).resolve_right ha
      · split
        · exact ⟨fun hw => (congrArg Owed (hob1 q _ hpq)).mpr <| hg.waits (waiting_wakeDrop hw), fun h => hg.dead (hcr _ h)⟩
        · exact ⟨fun hw => (congrArg Owed (hob1 q _ hpq)).mpr <| hg.waits hw, hg.dead⟩
    · exact hg

theorem one_run (hG : Wf G) {N : Nat} {ops : List Op} (hf : FairOne G t N {} ops) : Booked (fun x => Objection.ReachOne t N x) (run G t {} ops) ∧
    ∀ p, G.kind p = .task → sibs G p ≠ none → Good G (run G t {} ops) p := by
  have : ∀ (ops : List Op) (s : State), Inv G s.ph → Booked (fun x => Objection.ReachOne t N x) s → (∀ p, G.kind p = .task → sibs G p ≠ none → Good G s p) →
      FairOne G t N s ops → Booked (fun x => Objection.ReachOne t N x) (run G t s ops) ∧ ∀ p, G.kind p = .task → sibs G p ≠ none → Good G (run G t s ops) p := by
    intro ops
    induction ops with
    | nil => intro s _ hb hg _; exact ⟨hb, hg⟩
    | cons o ops ih =>
      intro s hi hb hg hf
      refine ih _ (inv_step hG hi o) (booked_step (fun s h ha => ?_) hb fun p x e hk h => ?_) (fun p hk hs => ?_) hf.2
      · exact h.snoc (op := .clear) ha nofun
      · have h1 := hf.1
        subst e
        exact h.snoc (h1.1 hk) fun e => by subst e; exact h1.2 hk
      · exact good_step hG hk hs hi (fun hc => (Objection.reachOne_ev (hb p hc)).1) (hg p hk hs) hf.1.1
  exact this ops _ (PhaseRun.inv_init G) (fun _ _ => .nil) (fun p _ _ => ⟨fun h => h.elim, nofun⟩) hf

/-- The phase ends within `n` steps of its task. -/
def Ends (G : Graph) (t : Tree) (p n : Nat) (s : State) : Prop := ∃ k, k ≤ n ∧ (run G t s (List.replicate k (.adv p))).ph.st p = .ended

theorem Ends.now {p n : Nat} {s : State} (h : s.ph.st p = .ended) : Ends G t p n s := ⟨0, by omega, h⟩
theorem Ends.step {p n : Nat} {s : State} (h : Ends G t p n (step G t s (.adv p))) : Ends G t p (n + 1) s := by
  obtain ⟨k, hk, he⟩ := h
  exact ⟨k + 1, by omega, he⟩

theorem step_calm {s : State} {p : Nat} (h0 : (s.ob p).total 0 = 0) (hc : s.ph.pc p ≠ .cleanup) {s' : PhaseRun.State} (hv : PhaseRun.adv G (view s) p = some s') :
    step G t s (.adv p) = { s with ph := s' } := by
  unfold step
  dsimp only
  rw [if_neg (fun h => hc h.1)]
  have : seen s p = view s := by unfold seen; rw [if_neg (fun h => h.2.1 h0)]
  rw [this, hv]; rfl

theorem view_obj {s : State} {p : Nat} (h0 : (s.ob p).total 0 = 0) : (view s).obj p = 0 := by simp [view, h0]

theorem ends_second {s : State} {p : Nat} (hs : sibs G p = some []) (h0 : (s.ob p).total 0 = 0) (hpc : s.ph.pc p = .startW true) (hst : s.ph.st p = .readyToEnd) :
    Ends G t p 1 s := by
  refine .step (.now ?_)
  rw [step_calm h0 (by rw [hpc]; nofun) (s' := PhaseRun.topW (view s) p true ((sibs G p).getD [])) (by
    unfold PhaseRun.adv; rw [show (view s).pc p = _ from hpc])]
  dsimp only
  rw [hs]
  unfold PhaseRun.topW
  rw [if_neg (by simp [view_obj h0])]
  dsimp only [Option.getD_some]
  unfold PhaseRun.exitW
  rw [if_neg (by simp), if_neg (by show ¬ (s.ph.st p = .executing ∧ _); rw [hst]; nofun)]
  simp [setPc, PhaseRun.setSt]

theorem ends_before {s : State} {p : Nat} (hs : sibs G p = some []) (h0 : (s.ob p).total 0 = 0) (hpc : s.ph.pc p = .beforeRte) : Ends G t p 2 s := by
  refine .step ?_
  rw [step_calm h0 (by rw [hpc]; nofun) (by unfold PhaseRun.adv; rw [show (view s).pc p = _ from hpc])]
  exact ends_second hs h0 (by simp [setPc]) (by simp [setPc, PhaseRun.setSt])

theorem ends_first {s : State} {p : Nat} (hs : sibs G p = some []) (h0 : (s.ob p).total 0 = 0) (hpc : s.ph.pc p = .startW false) : Ends G t p 3 s := by
  refine .step ?_
  rw [step_calm h0 (by rw [hpc]; nofun) (by unfold PhaseRun.adv; rw [show (view s).pc p = _ from hpc])]
  refine ends_before hs h0 ?_
  dsimp only
  rw [hs]
  unfold PhaseRun.topW
  rw [if_neg (by simp [view_obj h0])]
  dsimp only [Option.getD_some]
  simp [PhaseRun.exitW, setPc]

theorem ends_woken {s : State} {p : Nat} (hs : sibs G p = some []) (h0 : (s.ob p).total 0 = 0) {sec : Bool} (hpc : s.ph.pc p = .ownDrop sec true) : Ends G t p 3 s := by
  refine .step ?_
  rw [step_calm h0 (by rw [hpc]; nofun) (s' := PhaseRun.exitW (view s) p sec) (by
    unfold PhaseRun.adv; rw [show (view s).pc p = _ from hpc]; dsimp only; rw [if_pos rfl, hs]
    simp only [Option.getD_some, PhaseRun.nextSib, if_true, PhaseRun.topW]
    rw [if_neg (by simp [view_obj h0])])]
  unfold PhaseRun.exitW
  split
  · exact ends_before hs h0 (by simp [setPc])
  · split
    · exact ends_before hs h0 (by simp [setPc])
    · exact .now (by simp [setPc, PhaseRun.setSt])

/-- C349 (partial): if the background process never finds more than one waiting drain, then a task phase without siblings that is executing ends within four steps of
its task once nobody objects to it and its coroutines have come to rest.  Missing: several drains waiting (`C349_phase_hangs_fails`), siblings (C114). -/
theorem C349_ends_partial (G : Graph) (hG : Wf G) (t : Tree) (N : Nat) (ops : List Op) (p : Nat) (hf : FairOne G t N {} ops) (hk : G.kind p = .task)
    (hs : sibs G p = some []) (hst : (run G t {} ops).ph.st p = .executing ∨ (run G t {} ops).ph.st p = .readyToEnd)
    (hrest : ∀ op, ¬ Objection.Enabled ((run G t {} ops).ob p) op) (hno : ∀ x, x < N → ((run G t {} ops).ob p).count x = 0) :
    ∃ k, k ≤ 4 ∧ (run G t {} (ops ++ List.replicate k (.adv p))).ph.st p = .ended := by
  obtain ⟨hb, hg⟩ := one_run hG hf
  have hi := inv_run (t := t) hG ops
  have hal := alone_run (t := t) hG hs ops
  have hg := hg p hk (by rw [hs]; nofun)
  have hb := hb p
  suffices h : Ends G t p 4 (run G t {} ops) by
    obtain ⟨k, hk, he⟩ := h
    refine ⟨k, hk, ?_⟩
    unfold run at he ⊢
    rw [List.foldl_append]; exact he
  generalize run G t {} ops = s at *
  have hnc : s.ph.pc p ≠ .crashed := fun h => by rw [hg.dead h] at hst; rcases hst with h | h <;> exact nomatch h
  obtain ⟨hpend, htot⟩ := Objection.C30_rest_means_drained_partial t N _ (hb hnc) hrest
  have hinv := (Objection.reachOne_ev (hb hnc)).1
  have h0 : (s.ob p).total 0 = 0 := by
    rw [htot 0]
    unfold Objection.sumBelow
    rw [show (List.range N).map (fun o => if 0 ∈ Objection.chain t o then (s.ob p).count o else 0) = (List.range N).map (fun _ => 0) from
      List.map_congr_left fun x hx => by rw [hno x (List.mem_range.mp hx)]; split <;> rfl]
    have hz : ∀ l : List Nat, (l.map fun _ => (0 : Int)).sum = 0 := fun l => by induction l <;> simp_all
    exact hz _
  have hnw : ¬ Waiting (s.ph.pc p) := by
    intro hw
    rcases hg.waits hw with h | ⟨c, hc, -⟩ | ⟨j, r, hj, h1, h2⟩
    · exact h h0
    · have : c ∈ pending (s.ob p) := by
        rcases hc with hc | hc
        · simp [pending, hc]
        · simp [pending, hc]
      rw [hpend] at this; exact nomatch this
    · exact hrest (.notify j) ⟨r, hj, h2⟩
  have hpcs := hi.pcs p
  have mono : ∀ n, n ≤ 4 → Ends G t p n s → Ends G t p 4 s := fun n hn ⟨k, hk, he⟩ => ⟨k, by omega, he⟩
  cases hpc : s.ph.pc p with
  | crit =>
    refine mono 4 (by omega) (.step ?_)
    rw [step_calm h0 (by rw [hpc]; nofun) (s' := setPc (view s) p (.startW false)) (by
      unfold PhaseRun.adv; rw [show (view s).pc p = _ from hpc]; dsimp only; rw [if_neg (by simp [view_obj h0]), hs])]
    exact ends_first hs h0 (by simp [setPc])
  | ownFirst w =>
    cases w with
    | false => rw [hpc] at hnw; exact absurd rfl hnw
    | true =>
      refine mono 4 (by omega) (.step ?_)
      rw [step_calm h0 (by rw [hpc]; nofun) (s' := setPc (view s) p (.startW false)) (by
        unfold PhaseRun.adv; rw [show (view s).pc p = _ from hpc]; dsimp only; rw [if_pos rfl, hs])]
      exact ends_first hs h0 (by simp [setPc])
  | startW sec =>
    cases sec with
    | false => exact mono 3 (by omega) (ends_first hs h0 hpc)
    | true =>
      refine mono 1 (by omega) (ends_second hs h0 hpc ?_)
      rw [hpc] at hpcs
      rcases hst with h | h
      · rw [h] at hpcs; exact nomatch hpcs
      · exact h
  | ownDrop sec w =>
    cases w with
    | false => rw [hpc] at hnw; exact absurd rfl hnw
    | true => exact mono 3 (by omega) (ends_woken hs h0 hpc)
  | beforeRte => exact mono 2 (by omega) (ends_before hs h0 hpc)
  | sib a b c d => rw [hpc] at hal; exact hal.elim
  | sibDrop a b c => rw [hpc] at hal; exact hal.elim
  | crashed => exact absurd hpc hnc
  | _ => rw [hpc, hk] at hpcs; rcases hst with h | h <;> (rw [h] at hpcs; simp [PhaseRun.pcst] at hpcs)

/-- The hypotheses hold after a component raised and dropped while the phase waited and the drains went up to the root. -/
def atRest : List Op := toCrit ++ [.obj 1 (.raise 1 1), .adv 1, .obj 1 (.drop 1 1), .obj 1 .bg, .obj 1 .start, .obj 1 (.notify 0), .obj 1 (.finish 0), .obj 1 .bg, .obj 1 .start,
  .obj 1 (.notify 0), .obj 1 (.finish 0)]

example : FairOne PhaseRun.single Objection.exTree 4 {} atRest ∧ (run PhaseRun.single Objection.exTree {} atRest).ph.st 1 = .executing ∧
    (∀ op, ¬ Objection.Enabled ((run PhaseRun.single Objection.exTree {} atRest).ob 1) op) ∧
    (∀ x, x < 4 → ((run PhaseRun.single Objection.exTree {} atRest).ob 1).count x = 0) ∧
    (run PhaseRun.single Objection.exTree {} (atRest ++ List.replicate 4 (.adv 1))).ph.st 1 = .ended := by
  refine ⟨by decide, by decide, ?_, by decide, by decide⟩
  have h1 : ((run PhaseRun.single Objection.exTree {} atRest).ob 1).ev = false := by decide
  have h2 : ((run PhaseRun.single Objection.exTree {} atRest).ob 1).toStart = 0 := by decide
  have h3 : ((run PhaseRun.single Objection.exTree {} atRest).ob 1).running = [] := by decide
  intro op
  cases op <;> simp [Objection.Enabled, h1, h2, h3]

end Verif.PhaseObj
