import Verif.Lemmas.ObjectionInv
/-! # Re-raises, and the background process -/
namespace Verif.Objection

theorem chain_nodup (t : Tree) (o : Nat) : (chain t o).Nodup := by
  induction o using Nat.strongRecOn with
  | ind o ih =>
    by_cases h : o = 0
    · subst h; simp
    · have := not_mem_tail t o
      rw [chain_succ t h] at this ⊢
      exact List.nodup_cons.mpr ⟨this, ih _ (t.lt o h)⟩

theorem tail_lt {t : Tree} {o a : Nat} (h : a ∈ (chain t o).tail) : a < o := by
  have h1 := chain_le t _ _ (List.mem_of_mem_tail h)
  have : a ≠ o := by rintro rfl; exact not_mem_tail t _ h
  omega

theorem mDrop_plain (src : Nat) : ∀ (p : List Nat) (n : Int) (s : State), p.Nodup → 0 < n → src ∉ p → (∀ a ∈ p, n < s.total a) →
    (∀ x, (mDrop p src n s).1.total x = s.total x - if x ∈ p then n else 0) ∧ (∀ x, (mDrop p src n s).1.count x = s.count x) ∧
    pending (mDrop p src n s).1 = pending s ∧ (mDrop p src n s).2 = p.map fun a => .dropped a src n := by
  intro p
  induction p with
  | nil => intro n s _ _ _ _; simp [mDrop]
  | cons o up ih =>
    intro n s hnd hn hs h
    unfold mDrop
    have ho := h o (by simp)
    simp only [List.mem_cons, not_or] at hs
    have hcond : ((s.tot o).isNone || decide (n > s.total o)) = false := by
      simp [isSome_of_total (show 0 < s.total o by omega)]; omega
    rw [if_neg (show ¬ n = 0 by omega)]
    simp only [hcond, Bool.false_eq_true, if_false, Ne.symm hs.1, decide_false, Bool.false_and]
    obtain ⟨a1, a2, a3, a4⟩ := addCounts_spec s o src (-n)
    generalize addCounts s o src (-n) = s2 at *
    rw [if_pos (show s2.total o ≠ 0 by rw [a1]; simp; omega)]
    obtain ⟨hno, hnd⟩ := List.nodup_cons.mp hnd
    obtain ⟨i1, i2, i3, i4⟩ := ih n s2 hnd hn hs.2 (by
      intro a ha
      rw [a1, if_neg (by rintro rfl; exact hno ha)]
      have := h a (by simp [ha]); omega)
    refine ⟨?_, ?_, ?_, ?_⟩
    · intro x
      rw [i1, a1]
      by_cases hx : x = o
      · subst hx; simp [hno]; omega
      · simp [hx]
    · intro x; rw [i2, a2]; simp [Ne.symm hs.1]
    · rw [i3]; simp [pending, a3.forked, a3.fctx, a4]
    · simp [i4]

theorem mRaise_plain (src : Nat) : ∀ (p : List Nat) (n : Int) (s : State), p.Nodup → 0 < n → src ∉ p → (∀ a ∈ p, ∀ c ∈ pending s, c.obj ≠ a) →
    (∀ x, (mRaise p src n s).1.total x = s.total x + if x ∈ p then n else 0) ∧ (∀ x, (mRaise p src n s).1.count x = s.count x) ∧
    pending (mRaise p src n s).1 = pending s ∧ (mRaise p src n s).2 = p.map fun a => .raised a src n := by
  intro p
  induction p with
  | nil => intro n s _ _ _ _; simp [mRaise]
  | cons o up ih =>
    intro n s hnd hn hs h
    unfold mRaise
    simp only [List.mem_cons, not_or] at hs
    rw [if_neg (show ¬ n = 0 by omega)]
    obtain ⟨a1, a2, a3, a4⟩ := addCounts_spec s o src n
    have hp2 : pending (addCounts s o src n) = pending s := by simp [pending, a3.forked, a3.fctx, a4]
    generalize addCounts s o src n = s2 at *
    obtain ⟨k1, k2, k3, k4, k5, k6, k7, k8⟩ := takeCtx_spec s2 o (by
      intro c hc; exact h o (by simp) c (by rw [← hp2]; simp [pending, hc]))
    cases hk : (takeCtx s2 o).1 with
    | some c =>
      rw [hk] at k8
      exact absurd k8.1 (h o (by simp) c (by rw [← hp2]; exact k8.2.mem_iff.mpr (by simp)))
    | none =>
      rw [hk] at k8
      simp only [hk]
      rw [k8.1]
      obtain ⟨hno, hnd⟩ := List.nodup_cons.mp hnd
      obtain ⟨i1, i2, i3, i4⟩ := ih n s2 hnd hn hs.2 (by
        intro a ha; rw [hp2]; exact h a (by simp [ha]))
      refine ⟨?_, ?_, ?_, ?_⟩
      · intro x
        rw [i1, a1]
        by_cases hx : x = o
        · subst hx; simp [hno]
        · simp [hx]
      · intro x; rw [i2, a2]; simp [Ne.symm hs.1]
      · rw [i3, hp2]
      · simp [i4]

theorem ctx_unique {l : List Ctx} (hn : (l.map (·.obj)).Nodup) {c d : Ctx} (hc : c ∈ l) (hd : d ∈ l) (h : c.obj = d.obj) : c = d := by
  induction l with
  | nil => simp at hc
  | cons x l ih =>
    obtain ⟨hn1, hn2⟩ := List.nodup_cons.mp hn
    rcases List.mem_cons.mp hc with hc1 | hc1
    · rcases List.mem_cons.mp hd with hd1 | hd1
      · rw [hc1, hd1]
      · exact absurd (List.mem_map.mpr ⟨d, hd1, by rw [← h, hc1]⟩) hn1
    · rcases List.mem_cons.mp hd with hd1 | hd1
      · exact absurd (List.mem_map.mpr ⟨c, hc1, by rw [h, hd1]⟩) hn1
      · exact ih hn2 hc1 hd1

/-- The hooks called above an object that raises by `d` more than its pending drain would have dropped. -/
def diffOut (src : Nat) (d : Int) (a : Nat) : Out := if d > 0 then .raised a src d else .dropped a src (-d)

theorem reraise {t : Tree} {N : Nat} {s : State} (h : Inv t N s) (o : Nat) (n : Int) (hn : 0 < n) (c : Ctx)
    (hc : c ∈ s.sched.filterMap id ++ s.forked) (hco : c.obj = o) :
    (∀ x, (step t s (.raise o n)).1.total x = s.total x + (if x = o then n else 0) + if x ∈ (chain t o).tail then n - c.count else 0) ∧
    (pending s).Perm (c :: pending (step t s (.raise o n)).1) ∧
    (step t s (.raise o n)).2 = .raised o o n :: (if n = c.count then [] else (chain t o).tail.map (diffOut o (n - c.count))) := by
  have hcp : c ∈ pending s := by simp only [pending, List.append_assoc]; rw [← List.append_assoc]; exact List.mem_append_left _ hc
  have hpos := h.acc.pos c hcp
  have hnd := h.acc.nodup
  have hdr : ∀ d ∈ s.fctx, d.obj ≠ o := by
    intro d hd e
    simp only [pending, List.map_append] at hnd
    rw [← List.map_append] at hnd
    have := (List.nodup_append.mp hnd).2.2 c.obj (List.mem_map.mpr ⟨c, hc, rfl⟩) d.obj (List.mem_map.mpr ⟨d, hd, rfl⟩)
    exact this (hco.trans e.symm)
  have hheld : ∀ a ∈ (chain t o).tail, c.count ≤ s.total a := by
    intro a ha
    have h1 := h.acc.tot a
    have h2 := sumBelow_nonneg (t := t) (N := N) h.cnt a
    have h3 := le_heldBelow (t := t) h.acc.pos hcp (by rw [hco]; exact ha)
    simp at h1; omega
  have hnoanc : ∀ a ∈ (chain t o).tail, ∀ d ∈ pending s, d.obj ≠ a := by
    intro a ha d hd e
    have h1 := h.acc.zero d hd
    have h2 := hheld a ha
    rw [e] at h1; omega
  simp only [step]
  rw [chain_cons t o]
  unfold mRaise
  rw [if_neg (show ¬ n = 0 by omega)]
  generalize hs0 : ({ s with cleared := false, topAllDropped := false } : State) = s0
  have e0 : pending s0 = pending s ∧ (∀ x, s0.total x = s.total x) ∧ s0.fctx = s.fctx := by
    rw [← hs0]; exact ⟨rfl, fun _ => rfl, rfl⟩
  obtain ⟨a1, a2, a3, a4⟩ := addCounts_spec s0 o o n
  have hp2 : pending (addCounts s0 o o n) = pending s := by rw [← e0.1]; simp [pending, a3.forked, a3.fctx, a4]
  generalize addCounts s0 o o n = s2 at *
  obtain ⟨k1, k2, k3, k4, k5, k6, k7, k8⟩ := takeCtx_spec s2 o (by
    intro d hd; rw [a3.fctx, e0.2.2] at hd; exact hdr d hd)
  cases hk : (takeCtx s2 o).1 with
  | none =>
    rw [hk] at k8
    exact absurd hco (k8.2 c (by rw [hp2]; exact hcp))
  | some d =>
    rw [hk] at k8
    simp only [hk]
    rw [hp2] at k8
    have hdc : d = c := ctx_unique hnd (k8.2.mem_iff.mpr (by simp)) hcp (k8.1.trans hco.symm)
    subst hdc
    generalize (takeCtx s2 o).2 = s3 at *
    have hnd' := (k8.2.map (·.obj)).nodup_iff.mp hnd
    have ht3 : ∀ x, s3.total x = s.total x + if x = o then n else 0 := by intro x; rw [k1, a1, e0.2.1]
    have hlt : ∀ a ∈ (chain t o).tail, a ≠ o := by intro a ha; have := tail_lt ha; omega
    have hndt : (chain t o).tail.Nodup := (List.nodup_cons.mp (chain_cons t o ▸ chain_nodup t o)).2
    simp only [List.tail_cons]
    by_cases hd1 : n - d.count > 0
    · simp only [hd1, if_true]
      obtain ⟨i1, i2, i3, i4⟩ := mRaise_plain o (chain t o).tail (n - d.count) s3 hndt hd1 (not_mem_tail t o) (by
        intro a ha c' hc'
        exact hnoanc a ha c' (k8.2.mem_iff.mpr (by simp [hc'])))
      refine ⟨?_, ?_, ?_⟩
      · intro x; rw [i1, ht3]
        by_cases hx : x ∈ (chain t o).tail <;> simp [hx]
      · rw [i3]; exact k8.2
      · rw [i4, if_neg (show ¬ n = d.count by omega)]
        congr 1
        apply List.map_congr_left
        intro a _; rw [diffOut, if_pos hd1]
    · simp only [hd1, if_false]
      by_cases hd2 : n - d.count < 0
      · simp only [hd2, if_true]
        obtain ⟨i1, i2, i3, i4⟩ := mDrop_plain o (chain t o).tail (-(n - d.count)) s3 hndt (by omega) (not_mem_tail t o) (by
          intro a ha
          have := hheld a ha
          rw [ht3, if_neg (hlt a ha)]; omega)
        refine ⟨?_, ?_, ?_⟩
        · intro x; rw [i1, ht3]
          by_cases hx : x ∈ (chain t o).tail <;> simp [hx]
        · rw [i3]; exact k8.2
        · rw [i4, if_neg (show ¬ n = d.count by omega)]
          congr 1
          apply List.map_congr_left
          intro a _; rw [diffOut, if_neg hd1]
      · have hd0 : n = d.count := by omega
        simp only [hd2, if_false]
        refine ⟨?_, k8.2, by rw [if_pos hd0]⟩
        intro x; rw [ht3, hd0]; simp

/-! ## The background process -/

theorem mDrop_sched (src : Nat) : ∀ (p : List Nat) (n : Int) (s : State),
    ((mDrop p src n s).1.sched = s.sched ∧ (mDrop p src n s).1.ev = s.ev ∨
      ∃ c, c.obj ∈ p ∧ (mDrop p src n s).1.sched = s.sched ++ [some c] ∧ (mDrop p src n s).1.ev = true) ∧ SameRest s (mDrop p src n s).1 := by
  intro p
  induction p with
  | nil => intro n s; exact ⟨Or.inl ⟨rfl, rfl⟩, SameRest.refl s⟩
  | cons o up ih =>
    intro n s
    unfold mDrop
    have hself : (s.sched = s.sched ∧ s.ev = s.ev ∨ ∃ c : Ctx, c.obj ∈ o :: up ∧ s.sched = s.sched ++ [some c] ∧ s.ev = true) ∧ SameRest s s :=
      ⟨Or.inl ⟨rfl, rfl⟩, SameRest.refl s⟩
    split
    · exact hself
    · split
      · split <;> exact hself
      · split
        · split <;> exact hself
        · obtain ⟨a1, a2, a3, a4⟩ := addCounts_spec s o src (-n)
          have a5 : (addCounts s o src (-n)).ev = s.ev := rfl
          generalize addCounts s o src (-n) = s2 at *
          split
          · obtain ⟨i1, i2⟩ := ih n s2
            refine ⟨?_, a3.trans i2⟩
            rcases i1 with ⟨i1, i3⟩ | ⟨c, hc, i1, i3⟩
            · left; exact ⟨i1.trans a4, i3.trans a5⟩
            · right; exact ⟨c, by simp [hc], by rw [i1, a4], i3⟩
          · refine ⟨Or.inr ⟨⟨o, src, n⟩, by simp, ?_, rfl⟩, ⟨a3.1, a3.2, a3.3, a3.4, a3.5⟩⟩
            simp [schedule, a4]

def weight : Option Ctx → Nat
  | none => 1
  | some c => 6 * c.obj + 5

/-- An upper bound of the number of steps the coroutines can still take on their own. -/
def work (s : State) : Nat :=
  (if s.ev then 1 else 0) + s.toStart + (s.sched.map weight).sum + (s.forked.map fun c => 6 * c.obj + 3).sum +
    (s.running.map fun r => 6 * r.ctx.obj + if r.notified then 1 else 2).sum

theorem sum_eraseIdx (f : Run → Nat) : ∀ (l : List Run) (i : Nat) (r : Run), l[i]? = some r →
    (l.map f).sum = f r + ((l.eraseIdx i).map f).sum := by
  intro l
  induction l with
  | nil => intro i r h; simp at h
  | cons x l ih =>
    intro i r h
    cases i with
    | zero => simp at h; subst h; simp
    | succ i =>
      simp at h
      have := ih i r h
      simp only [List.eraseIdx_cons_succ, List.map_cons, List.sum_cons]; omega

theorem sum_set (f : Run → Nat) : ∀ (l : List Run) (i : Nat) (r r' : Run), l[i]? = some r →
    ((l.set i r').map f).sum + f r = (l.map f).sum + f r' := by
  intro l
  induction l with
  | nil => intro i r r' h; simp at h
  | cons x l ih =>
    intro i r r' h
    cases i with
    | zero => simp at h; subst h; simp; omega
    | succ i =>
      simp at h
      have := ih i r r' h
      simp only [List.set_cons_succ, List.map_cons, List.sum_cons]; omega

theorem work_step (t : Tree) (s : State) (op : Op) (h : Enabled s op) : work (step t s op).1 < work s := by
  cases op with
  | bg =>
    have h : s.ev = true := h
    simp only [step, h, if_true]
    cases hs : s.sched with
    | nil => simp [work, h, hs]
    | cons x q =>
      cases x with
      | none => simp [work, h, hs, weight]; omega
      | some c => simp [work, h, hs, weight, List.map_append, List.sum_append]; omega
  | start =>
    have h : 0 < s.toStart := h
    simp only [step, show ¬ s.toStart = 0 by omega, if_false]
    cases hf : s.forked with
    | nil => simp [work, hf]; omega
    | cons c q => simp [work, hf, List.map_append, List.sum_append]; omega
  | notify i =>
    obtain ⟨r, hr, hn⟩ := h
    simp only [step, hr, hn, Bool.false_eq_true, if_false]
    have := sum_set (fun r : Run => 6 * r.ctx.obj + if r.notified then 1 else 2) s.running i r { r with notified := true } hr
    simp only [hn, Bool.false_eq_true, if_false, if_true] at this
    simp only [work]; omega
  | finish i =>
    obtain ⟨r, hr, hn⟩ := h
    simp only [step, hr, hn, if_true, finish]
    generalize hs1 : ({ s with srcC := delZero s.srcC r.ctx.obj, tot := delZero s.tot r.ctx.obj } : State) = s1
    have e1 : s1.sched = s.sched ∧ s1.ev = s.ev ∧ s1.running = s.running ∧ s1.forked = s.forked ∧ s1.toStart = s.toStart := by
      rw [← hs1]; exact ⟨rfl, rfl, rfl, rfl, rfl⟩
    obtain ⟨d1, d2⟩ := mDrop_sched r.ctx.src (chain t r.ctx.obj).tail r.ctx.count s1
    generalize mDrop (chain t r.ctx.obj).tail r.ctx.src r.ctx.count s1 = d at *
    have hrun := sum_eraseIdx (fun r : Run => 6 * r.ctx.obj + if r.notified then 1 else 2) s.running i r hr
    simp only [hn, if_true] at hrun
    have hw : ∀ f, work ({ d.1 with running := d.1.running.eraseIdx i, fctx := f } : State) < work s := by
      intro f
      simp only [work, d2.running, e1.2.2.1, d2.forked, e1.2.2.2.1, d2.toStart, e1.2.2.2.2]
      rcases d1 with ⟨q1, q2⟩ | ⟨c, hc, q1, q2⟩
      · rw [q1, q2, e1.1, e1.2.1]; omega
      · rw [q1, q2, e1.1]
        have := tail_lt hc
        simp only [List.map_append, List.sum_append, List.map_cons, List.map_nil, List.sum_cons, List.sum_nil, weight, if_true]
        have : (0:Nat) ≤ if s.ev = true then 1 else 0 := Nat.zero_le _
        omega
    split
    · exact hw _
    · exact hw _
  | raise o n => exact absurd h (by simp [Enabled])
  | drop o n => exact absurd h (by simp [Enabled])
  | clear => exact absurd h (by simp [Enabled])
  | foreign => exact absurd h (by simp [Enabled])
  | foreignRemove i => exact absurd h (by simp [Enabled])

theorem takeCtx_sched (s : State) (o : Nat) : (takeCtx s o).2.ev = s.ev ∧ ((takeCtx s o).2.sched ≠ [] → s.sched ≠ []) := by
  unfold takeCtx
  split
  · refine ⟨rfl, ?_⟩
    intro h e
    simp [e] at h
  · split
    · exact ⟨rfl, id⟩
    · split
      · exact ⟨rfl, id⟩
      · exact ⟨rfl, id⟩

theorem mDrop_ev {p src n s} (h : s.sched ≠ [] → s.ev = true) : (mDrop p src n s).1.sched ≠ [] → (mDrop p src n s).1.ev = true := by
  obtain ⟨d1 | ⟨c, _, _, h2⟩, _⟩ := mDrop_sched src p n s
  · rw [d1.1, d1.2]; exact h
  · intro _; exact h2

theorem mRaise_ev (src : Nat) : ∀ (p : List Nat) (n : Int) (s : State), (s.sched ≠ [] → s.ev = true) →
    (mRaise p src n s).1.sched ≠ [] → (mRaise p src n s).1.ev = true := by
  intro p
  induction p with
  | nil => intro n s h; exact h
  | cons o up ih =>
    intro n s h
    unfold mRaise
    split
    · exact h
    · have a4 : (addCounts s o src n).sched = s.sched ∧ (addCounts s o src n).ev = s.ev := ⟨rfl, rfl⟩
      generalize addCounts s o src n = s2 at *
      obtain ⟨k1, k2⟩ := takeCtx_sched s2 o
      have hk : (takeCtx s2 o).2.sched ≠ [] → (takeCtx s2 o).2.ev = true := by
        intro e; rw [k1, a4.2]; exact h (a4.1 ▸ k2 e)
      simp only
      cases (takeCtx s2 o).1 with
      | none => exact ih n _ hk
      | some c =>
        simp only
        split
        · exact ih _ _ hk
        · split
          · exact mDrop_ev hk
          · exact hk

theorem reachOne_ev {t N s} (h : ReachOne t N s) : Inv t N s ∧ (s.sched ≠ [] → s.ev = true) := by
  induction h with
  | nil => exact ⟨inv_init t N, by simp⟩
  | @snoc s op _ ha h1 ih =>
    refine ⟨(inv_step ih.1 op ha).1, ?_⟩
    have ih2 := ih.2
    cases op with
    | raise o n => exact mRaise_ev o _ n _ ih2
    | drop o n => exact mDrop_ev ih2
    | clear =>
      have e : (step t s .clear).1.sched = s.sched.filter (·.isNone) ∧ (step t s .clear).1.ev = s.ev := by
        simp only [step, clear]; split <;> exact ⟨rfl, rfl⟩
      rw [e.1, e.2]
      intro hne
      apply ih2
      rintro e
      simp [e] at hne
    | foreign => intro _; rfl
    | foreignRemove i =>
      simp only [step]
      split
      · intro hne
        apply ih2
        intro e
        simp [e] at hne
      · exact ih2
    | bg =>
      have hl := h1 rfl
      simp only [step]
      split
      · cases hs : s.sched with
        | nil => simp [hs]
        | cons x q =>
          have hq : q = [] := by
            rw [hs, List.length_cons] at hl
            exact List.length_eq_zero_iff.mp (by omega)
          cases x <;> simp [hq]
      · exact ih2
    | start =>
      simp only [step]
      split
      · exact ih2
      · split <;> exact ih2
    | notify i =>
      simp only [step]
      split
      · exact ih2
      · split <;> exact ih2
    | finish i =>
      simp only [step]
      split
      · exact ih2
      · split
        · next r _ _ =>
          simp only [finish]
          have := mDrop_ev (p := (chain t r.ctx.obj).tail) (src := r.ctx.src) (n := r.ctx.count)
            (s := { s with srcC := delZero s.srcC r.ctx.obj, tot := delZero s.tot r.ctx.obj }) ih2
          split <;> exact this
        · exact ih2

/-! ## The flag of the root -/

theorem mDrop_tad (src : Nat) : ∀ (p : List Nat) (n : Int) (s : State), (mDrop p src n s).1.topAllDropped = s.topAllDropped := by
  intro p
  induction p with
  | nil => intro n s; rfl
  | cons o up ih =>
    intro n s
    unfold mDrop
    split
    · rfl
    · split
      · split <;> rfl
      · split
        · split <;> rfl
        · split
          · exact (ih _ _).trans rfl
          · rfl

theorem takeCtx_tad (s : State) (o : Nat) : (takeCtx s o).2.topAllDropped = s.topAllDropped ∧ (takeCtx s o).2.cleared = s.cleared := by
  unfold takeCtx
  (repeat' split) <;> exact ⟨rfl, rfl⟩

theorem mRaise_tad (src : Nat) : ∀ (p : List Nat) (n : Int) (s : State),
    (mRaise p src n s).1.topAllDropped = s.topAllDropped ∧ (mRaise p src n s).1.cleared = s.cleared := by
  intro p
  induction p with
  | nil => intro n s; exact ⟨rfl, rfl⟩
  | cons o up ih =>
    intro n s
    unfold mRaise
    split
    · exact ⟨rfl, rfl⟩
    · have h0 : (addCounts s o src n).topAllDropped = s.topAllDropped ∧ (addCounts s o src n).cleared = s.cleared := ⟨rfl, rfl⟩
      generalize addCounts s o src n = s2 at *
      have h1 := takeCtx_tad s2 o
      simp only
      cases (takeCtx s2 o).1 with
      | none => exact ⟨((ih n _).1.trans h1.1).trans h0.1, ((ih n _).2.trans h1.2).trans h0.2⟩
      | some c =>
        simp only
        split
        · exact ⟨((ih _ _).1.trans h1.1).trans h0.1, ((ih _ _).2.trans h1.2).trans h0.2⟩
        · split
          · exact ⟨((mDrop_tad src _ _ _).trans h1.1).trans h0.1, ((mDrop_sched src _ _ _).2.cleared.trans h1.2).trans h0.2⟩
          · exact ⟨h1.1.trans h0.1, h1.2.trans h0.2⟩

theorem tad_step {t N s} (h : Inv t N s) (hr : s.topAllDropped = true → s.total 0 = 0) (op : Op) (ha : Allowed t N s op) :
    (step t s op).1.topAllDropped = true → (step t s op).1.total 0 = 0 := by
  cases op with
  | raise o n =>
    intro h2
    simp only [step] at h2
    rw [(mRaise_tad o _ n _).1] at h2
    simp at h2
  | drop o n =>
    intro h2
    simp only [step] at h2
    rw [mDrop_tad] at h2
    have h0 := hr h2
    by_cases hn : n = 0
    · simp only [step]
      rw [chain_cons t o]
      simp only [mDrop, hn, if_true]
      exact h0
    · have hlt : s.count o < n := by
        have h3 := h.acc.tot 0
        have h4 := le_sumBelow (t := t) h.cnt ha.1 (top_mem_chain t o)
        have h5 := heldBelow_nonneg (t := t) h.acc.pos 0
        have := ha.2
        simp at h3; omega
      rw [step_drop_reject t s o n hn hlt]
      split <;> exact h0
  | clear => intro h2; simp [step, clear, ha.1, ha.2] at h2
  | foreign => exact hr
  | foreignRemove i => simp only [step]; split <;> exact hr
  | bg => simp only [step]; (repeat' split) <;> exact hr
  | start => simp only [step]; (repeat' split) <;> exact hr
  | notify i =>
    simp only [step]
    cases hq : s.running[i]? with
    | none => exact hr
    | some r =>
      simp only
      split
      · exact hr
      · intro h2
        simp only [Bool.or_eq_true, decide_eq_true_eq] at h2
        rcases h2 with h2 | h2
        · exact hr h2
        · have hm : r.ctx ∈ pending s := by
            simp only [pending, List.mem_append]
            right; rw [← h.run]; exact List.mem_map.mpr ⟨r, List.mem_of_getElem? hq, rfl⟩
          have := h.acc.zero _ hm
          rw [h2] at this; exact this
  | finish i =>
    cases hq : s.running[i]? with
    | none => simp only [step, hq]; exact hr
    | some r =>
      by_cases hn : r.notified = true
      · simp only [step, hq, hn, if_true, finish, h.alive r (List.mem_of_getElem? hq)]
        rw [mDrop_tad]
        intro h2
        have h0 := hr h2
        have hm : r.ctx ∈ pending s := by
          simp only [pending, List.mem_append]
          right; rw [← h.run]; exact List.mem_map.mpr ⟨r, List.mem_of_getElem? hq, rfl⟩
        by_cases ho : r.ctx.obj = 0
        · rw [ho, chain_zero]
          simp only [List.tail_cons, mDrop]
          rw [← h0]
          exact delZero_getD _ _ _
        · exfalso
          have h3 := h.acc.tot 0
          have h4 := sumBelow_nonneg (t := t) (N := N) h.cnt 0
          have h5 := le_heldBelow (t := t) (a := 0) h.acc.pos hm (by rw [chain_succ t ho]; exact top_mem_chain t _)
          have h6 := h.acc.pos _ hm
          simp at h3; omega
      · simp only [step, hq, hn]; exact hr

end Verif.Objection
