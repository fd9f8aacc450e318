import Verif.Spec.Objection
import Verif.Util.Machine
/-! # Lemmas about objections -/
namespace Verif.Objection

/-! ## Chains -/

theorem chainF_eq (t : Tree) : ∀ (f o : Nat), o < f → chainF t f o = chain t o := by
  intro f
  induction f using Nat.strongRecOn with
  | ind f ih =>
    intro o ho
    cases f with
    | zero => omega
    | succ f =>
      unfold chain
      simp only [chainF]
      split
      · rfl
      · next h =>
        have hlt := t.lt o h
        by_cases hf : f = o
        · rw [hf]
        · rw [ih f (by omega) (t.parent o) (by omega)]
          rw [ih o ho (t.parent o) hlt]

@[simp] theorem chain_zero (t : Tree) : chain t 0 = [0] := by simp [chain, chainF]

theorem chain_succ (t : Tree) {o : Nat} (h : o ≠ 0) : chain t o = o :: chain t (t.parent o) := by
  conv => lhs; unfold chain
  simp only [chainF, h, if_false]
  rw [chainF_eq t o _ (t.lt o h)]

theorem chain_cons (t : Tree) (o : Nat) : chain t o = o :: (chain t o).tail := by
  by_cases h : o = 0
  · subst h; simp
  · rw [chain_succ t h]; rfl

theorem mem_chain_self (t : Tree) (o : Nat) : o ∈ chain t o := by rw [chain_cons]; simp

/-- A list of objects to visit: nothing, or everything from some object up. -/
def IsPath (t : Tree) (p : List Nat) : Prop := p = [] ∨ ∃ o, p = chain t o

theorem isPath_chain (t : Tree) (o : Nat) : IsPath t (chain t o) := Or.inr ⟨o, rfl⟩

theorem isPath_tail (t : Tree) (o : Nat) : IsPath t (chain t o).tail := by
  by_cases h : o = 0
  · subst h; left; simp
  · right; exact ⟨t.parent o, by rw [chain_succ t h]; rfl⟩

theorem isPath_cons {t : Tree} {o : Nat} {up : List Nat} (h : IsPath t (o :: up)) : up = (chain t o).tail := by
  rcases h with h | ⟨x, h⟩
  · simp at h
  · have := h; rw [chain_cons t x] at this
    simp only [List.cons.injEq] at this
    obtain ⟨rfl, h2⟩ := this
    rw [h2]

theorem isPath_up {t : Tree} {o : Nat} {up : List Nat} (h : IsPath t (o :: up)) : IsPath t up := by
  rw [isPath_cons h]; exact isPath_tail t o

theorem chain_le (t : Tree) : ∀ (o a : Nat), a ∈ chain t o → a ≤ o := by
  intro o
  induction o using Nat.strongRecOn with
  | ind o ih =>
    intro a ha
    by_cases h : o = 0
    · subst h; simpa using ha
    · rw [chain_succ t h] at ha
      rcases List.mem_cons.mp ha with rfl | ha
      · exact Nat.le_refl _
      · have := ih _ (t.lt o h) a ha
        have := t.lt o h
        omega

theorem not_mem_tail (t : Tree) (o : Nat) : o ∉ (chain t o).tail := by
  by_cases h : o = 0
  · subst h; simp
  · rw [chain_succ t h]
    intro hm
    have := chain_le t _ _ hm
    have := t.lt o h
    omega

theorem mem_chain_iff (t : Tree) (a : Nat) : ∀ o, a ∈ chain t o ↔ Above t a o := by
  intro o
  induction o using Nat.strongRecOn with
  | ind o ih =>
    by_cases h : o = 0
    · subst h
      constructor
      · intro hm; simp at hm; subst hm; exact .refl 0
      · intro hm
        cases hm with
        | refl => simp
        | up h _ => exact absurd rfl h
    · rw [chain_succ t h, List.mem_cons, ih _ (t.lt o h)]
      constructor
      · rintro (rfl | h')
        · exact .refl _
        · exact .up h h'
      · intro hm
        cases hm with
        | refl => exact Or.inl rfl
        | up _ h' => exact Or.inr h'

theorem top_mem_chain (t : Tree) (o : Nat) : 0 ∈ chain t o := by
  induction o using Nat.strongRecOn with
  | ind o ih =>
    by_cases h : o = 0
    · subst h; simp
    · rw [chain_succ t h]; exact List.mem_cons_of_mem _ (ih _ (t.lt o h))

theorem above_trans {t : Tree} {a b c : Nat} (h1 : Above t a b) (h2 : Above t b c) : Above t a c := by
  induction h2 with
  | refl => exact h1
  | up h _ ih => exact .up h ih

theorem chain_trans {t : Tree} {a b c : Nat} (h1 : a ∈ chain t b) (h2 : b ∈ chain t c) : a ∈ chain t c :=
  (mem_chain_iff t a c).mpr (above_trans ((mem_chain_iff t a b).mp h1) ((mem_chain_iff t b c).mp h2))

/-! ## Sums -/

theorem sum_nonneg {α : Type} (l : List α) (f : α → Int) (h : ∀ x ∈ l, 0 ≤ f x) : 0 ≤ (l.map f).sum := by
  induction l with
  | nil => simp
  | cons x l ih =>
    have h1 := h x (by simp)
    have h2 := ih (fun y hy => h y (by simp [hy]))
    simp only [List.map_cons, List.sum_cons]; omega

theorem le_sum {α : Type} (l : List α) (f : α → Int) (h : ∀ x ∈ l, 0 ≤ f x) {x : α} (hx : x ∈ l) : f x ≤ (l.map f).sum := by
  induction l with
  | nil => simp at hx
  | cons y l ih =>
    simp only [List.map_cons, List.sum_cons]
    have h0 := sum_nonneg l f (fun z hz => h z (by simp [hz]))
    have h1 := h y (by simp)
    rcases List.mem_cons.mp hx with rfl | hx
    · omega
    · have := ih (fun z hz => h z (by simp [hz])) hx; omega

theorem sumBelow_nonneg {t : Tree} {N : Nat} {W : Nat → Int} (hW : ∀ o, 0 ≤ W o) (a : Nat) : 0 ≤ sumBelow t N W a := by
  apply sum_nonneg
  intro o _
  have := hW o
  split <;> omega

theorem le_sumBelow {t : Tree} {N : Nat} {W : Nat → Int} (hW : ∀ o, 0 ≤ W o) {a o : Nat} (ho : o < N) (h : a ∈ chain t o) :
    W o ≤ sumBelow t N W a := by
  have := le_sum (List.range N) (fun o => if a ∈ chain t o then W o else 0)
    (by intro x _; have := hW x; split <;> omega) (x := o) (by simp [ho])
  simpa [h, sumBelow] using this

theorem sum_range_update (f g : Nat → Int) (o : Nat) (d : Int) (h : ∀ x, g x = f x + if x = o then d else 0) (N : Nat) :
    ((List.range N).map g).sum = ((List.range N).map f).sum + if o < N then d else 0 := by
  induction N with
  | zero => simp
  | succ N ih =>
    rw [List.range_succ, List.map_append, List.map_append, List.sum_append, List.sum_append, ih]
    simp only [List.map_cons, List.map_nil, List.sum_cons, List.sum_nil, h N]
    by_cases h1 : N = o
    · subst h1; simp; omega
    · by_cases h2 : o < N
      · simp [h1, h2, show o < N + 1 by omega]; omega
      · simp [h1, h2, show ¬ o < N + 1 by omega]

theorem sumBelow_update {t : Tree} {N : Nat} {W W' : Nat → Int} {o : Nat} {d : Int} (ho : o < N)
    (h : ∀ x, W' x = W x + if x = o then d else 0) (a : Nat) :
    sumBelow t N W' a = sumBelow t N W a + if a ∈ chain t o then d else 0 := by
  unfold sumBelow
  rw [sum_range_update (fun x => if a ∈ chain t x then W x else 0) (fun x => if a ∈ chain t x then W' x else 0) o
    (if a ∈ chain t o then d else 0) _ N]
  · simp [ho]
  · intro x
    simp only [h]
    by_cases hx : x = o
    · subst hx; by_cases ha : a ∈ chain t x <;> simp [ha]
    · by_cases ha : a ∈ chain t x <;> simp [ha, hx]

theorem heldBelow_perm {t : Tree} {l l' : List Ctx} (h : l.Perm l') (a : Nat) : heldBelow t l a = heldBelow t l' a := by
  unfold heldBelow
  induction h with
  | nil => rfl
  | cons x _ ih => simp only [List.map_cons, List.sum_cons, ih]
  | swap x y l => simp only [List.map_cons, List.sum_cons]; omega
  | trans _ _ ih1 ih2 => rw [ih1, ih2]

theorem heldBelow_cons (t : Tree) (c : Ctx) (l : List Ctx) (a : Nat) :
    heldBelow t (c :: l) a = (if a ∈ (chain t c.obj).tail then c.count else 0) + heldBelow t l a := by simp [heldBelow]

theorem heldBelow_nonneg {t : Tree} {l : List Ctx} (h : ∀ c ∈ l, 0 < c.count) (a : Nat) : 0 ≤ heldBelow t l a := by
  apply sum_nonneg
  intro c hc
  have := h c hc
  split <;> omega

theorem le_heldBelow {t : Tree} {l : List Ctx} (h : ∀ c ∈ l, 0 < c.count) {a : Nat} {c : Ctx} (hc : c ∈ l) (ha : a ∈ (chain t c.obj).tail) :
    c.count ≤ heldBelow t l a := by
  have := le_sum l (fun c => if a ∈ (chain t c.obj).tail then c.count else 0) (by intro x hx; have := h x hx; split <;> omega) hc
  simpa [ha, heldBelow] using this

/-! ## The invariant, with `d` still to be added along the path `p` -/

structure InvF (t : Tree) (N : Nat) (W : Nat → Int) (s : State) (l : List Ctx) (p : List Nat) (d : Int) : Prop where
  tot : ∀ a, s.total a + (if a ∈ p then d else 0) = sumBelow t N W a + heldBelow t l a
  nodup : (l.map (·.obj)).Nodup
  zero : ∀ c ∈ l, s.total c.obj = 0
  pos : ∀ c ∈ l, 0 < c.count
  anc : ∀ c ∈ l, c.obj ∈ chain t c.src

theorem InvF.perm {t N W s l l' p d} (h : InvF t N W s l p d) (hp : l.Perm l') : InvF t N W s l' p d where
  tot a := by rw [h.tot, heldBelow_perm hp]
  nodup := (hp.map _).nodup_iff.mp h.nodup
  zero c hc := h.zero c (hp.mem_iff.mpr hc)
  pos c hc := h.pos c (hp.mem_iff.mpr hc)
  anc c hc := h.anc c (hp.mem_iff.mpr hc)

theorem InvF.state {t N W s s' l p d} (h : InvF t N W s l p d) (hs : ∀ a, s'.total a = s.total a) : InvF t N W s' l p d where
  tot a := by rw [hs]; exact h.tot a
  nodup := h.nodup
  zero c hc := by rw [hs]; exact h.zero c hc
  pos := h.pos
  anc := h.anc

theorem InvF.done {t N W s l p} (h : InvF t N W s l p 0) : InvF t N W s l [] 0 where
  tot a := by have := h.tot a; simpa using this
  nodup := h.nodup
  zero := h.zero
  pos := h.pos
  anc := h.anc

theorem total_bump (s : State) (o : Nat) (n : Int) (x : Nat) :
    ({ s with tot := bump s.tot o n } : State).total x = s.total x + if x = o then n else 0 := by
  simp only [State.total, bump]
  by_cases h : x = o
  · subst h; simp
  · simp [h]

/-- What does not change in a drop. -/
structure SameRest (s s' : State) : Prop where
  forked : s'.forked = s.forked
  fctx : s'.fctx = s.fctx
  running : s'.running = s.running
  toStart : s'.toStart = s.toStart
  cleared : s'.cleared = s.cleared

theorem SameRest.refl (s : State) : SameRest s s := ⟨rfl, rfl, rfl, rfl, rfl⟩
theorem SameRest.trans {a b c : State} (h1 : SameRest a b) (h2 : SameRest b c) : SameRest a c :=
  ⟨h2.1.trans h1.1, h2.2.trans h1.2, h2.3.trans h1.3, h2.4.trans h1.4, h2.5.trans h1.5⟩

theorem addCounts_spec (s : State) (o src : Nat) (n : Int) :
    (∀ x, (addCounts s o src n).total x = s.total x + if x = o then n else 0) ∧
    (∀ x, (addCounts s o src n).count x = s.count x + if x = src ∧ o = src then n else 0) ∧
    SameRest s (addCounts s o src n) ∧ (addCounts s o src n).sched = s.sched := by
  refine ⟨?_, ?_, ⟨rfl, rfl, rfl, rfl, rfl⟩, rfl⟩
  · intro x
    simp only [addCounts, State.total, bump]
    by_cases h : x = o
    · subst h; simp
    · simp [h]
  · intro x
    simp only [addCounts, State.count]
    by_cases ho : o = src
    · subst ho
      simp only [if_true, bump]
      by_cases hx : x = o
      · subst hx; simp
      · simp [hx]
    · simp [ho]

/-- The contexts of this objection in the shared list. -/
def own (s : State) : List Ctx := s.sched.filterMap id

theorem isSome_of_total {s : State} {o : Nat} (h : 0 < s.total o) : (s.tot o).isNone = false := by
  unfold State.total at h
  cases hq : s.tot o with
  | none => rw [hq] at h; simp at h
  | some v => rfl

theorem isSome_of_count {s : State} {o : Nat} (h : 0 < s.count o) : (s.srcC o).isNone = false := by
  unfold State.count at h
  cases hq : s.srcC o with
  | none => rw [hq] at h; simp at h
  | some v => rfl

/-- A drop along a path restores the invariant and is never refused. `rest` are the pending contexts outside the shared list. -/
theorem mDrop_inv {t : Tree} {N : Nat} {W : Nat → Int} (hW : ∀ o, 0 ≤ W o) (rest : List Ctx) (src : Nat) :
    ∀ (p : List Nat) (n : Int) (s : State), IsPath t p → 0 ≤ n → InvF t N W s (own s ++ rest) p (-n) → (∀ a ∈ p, a ∈ chain t src) →
      (src ∉ p ∨ (p = chain t src ∧ n ≤ s.count src)) →
      InvF t N W (mDrop p src n s).1 (own (mDrop p src n s).1 ++ rest) [] 0 ∧
      (∀ x, (mDrop p src n s).1.count x = s.count x - if x = src ∧ src ∈ p then n else 0) ∧
      (∀ o ∈ (mDrop p src n s).2, ∃ a m, o = .dropped a src m) ∧ SameRest s (mDrop p src n s).1 := by
  intro p
  induction p with
  | nil =>
    intro n s _ _ h _ _
    refine ⟨?_, by simp [mDrop], by simp [mDrop], SameRest.refl s⟩
    exact ⟨fun a => by have := h.tot a; simpa [mDrop, mRaise] using this, h.nodup, h.zero, h.pos, h.anc⟩
  | cons o up ih =>
    intro n s hp hn h hsrc hq
    unfold mDrop
    by_cases hn0 : n = 0
    · subst hn0
      simp only [if_true]
      exact ⟨h.done, by simp, by simp, SameRest.refl s⟩
    have hup := isPath_cons hp
    have houp : o ∉ up := hup ▸ not_mem_tail t o
    have hto : s.total o = n + sumBelow t N W o + heldBelow t (own s ++ rest) o := by
      have := h.tot o; simp at this; omega
    have h1 := sumBelow_nonneg (t := t) (N := N) hW o
    have h2 := heldBelow_nonneg (t := t) h.pos o
    have hpos : 0 < s.total o := by omega
    have hcond : ((s.tot o).isNone || decide (n > s.total o)) = false := by
      simp [isSome_of_total hpos]; omega
    have hcond2 : (decide (o = src) && ((s.srcC o).isNone || decide (n > s.count o))) = false := by
      by_cases ho : o = src
      · subst ho
        rcases hq with hq | ⟨_, hq⟩
        · simp at hq
        · simp [isSome_of_count (show 0 < s.count o by omega)]; omega
      · simp [ho]
    simp only [hn0, if_false, hcond, hcond2, Bool.false_eq_true]
    obtain ⟨hs2t, hs2c, hs2r, hs2s⟩ := addCounts_spec s o src (-n)
    generalize addCounts s o src (-n) = s2 at *
    have hown : own s2 = own s := by simp [own, hs2s]
    -- no pending context at `o`
    have hno : ∀ c ∈ own s ++ rest, c.obj ≠ o := by
      intro c hc e
      have := h.zero c hc
      rw [e] at this; omega
    have hcnt : ∀ x, (if x = src ∧ src ∈ o :: up then n else 0) = (if x = src ∧ o = src then n else 0) + (if x = src ∧ src ∈ up then n else 0) := by
      intro x
      by_cases hx : x = src
      · subst hx
        by_cases ho : o = x
        · subst ho; simp [houp]
        · simp [ho, Ne.symm ho]
      · simp [hx]
    have hq' : src ∉ up ∨ (up = chain t src ∧ n ≤ s2.count src) := by
      left
      rcases hq with hq | ⟨hq, _⟩
      · simp at hq; exact hq.2
      · have : o = src := by
          have := hq; rw [chain_cons t src] at this; simp at this; exact this.1
        rw [← this]; exact houp
    by_cases hz : s2.total o = 0
    · rw [if_neg (by simp [hz])]
      refine ⟨?_, ?_, ?_, ?_⟩
      · have hperm : (own s ++ rest ++ [(⟨o, src, n⟩ : Ctx)]).Perm (own (schedule s2 ⟨o, src, n⟩) ++ rest) := by
          simp only [own, schedule, List.filterMap_append, hs2s, List.append_assoc]
          apply List.Perm.append_left
          exact List.perm_append_comm
        refine InvF.perm ?_ hperm
        refine ⟨?_, ?_, ?_, ?_, ?_⟩
        · intro a
          rw [show (schedule s2 ⟨o, src, n⟩).total a = s2.total a from rfl, hs2t]
          rw [heldBelow_perm (List.perm_append_comm), List.singleton_append, heldBelow_cons]
          have := h.tot a
          simp only [← hup, List.not_mem_nil, if_false]
          by_cases ha : a = o
          · subst ha; simp [houp] at this ⊢; omega
          · by_cases hau : a ∈ up
            · simp [ha, hau] at this ⊢; omega
            · simp [ha, hau] at this ⊢; omega
        · rw [List.map_append, List.nodup_append]
          refine ⟨h.nodup, by simp, ?_⟩
          intro x hx y hy
          simp at hy
          obtain ⟨c, hc, rfl⟩ := List.mem_map.mp hx
          rw [hy]; exact hno c hc
        · intro c hc
          rw [show (schedule s2 ⟨o, src, n⟩).total c.obj = s2.total c.obj from rfl]
          rcases List.mem_append.mp hc with hc | hc
          · rw [hs2t, if_neg (hno c hc), h.zero c hc]; rfl
          · simp at hc; subst hc; exact hz
        · intro c hc
          rcases List.mem_append.mp hc with hc | hc
          · exact h.pos c hc
          · simp at hc; subst hc; show 0 < n; omega
        · intro c hc
          rcases List.mem_append.mp hc with hc | hc
          · exact h.anc c hc
          · simp at hc; subst hc; exact hsrc o (by simp)
      · intro x
        rw [show (schedule s2 ⟨o, src, n⟩).count x = s2.count x from rfl, hs2c, hcnt]
        have : src ∉ up := by rcases hq' with h | ⟨h, _⟩; exact h; exact absurd (h ▸ hsrc o (by simp)) houp
        by_cases hx : x = src ∧ o = src
        · simp [hx, this]; omega
        · simp [hx, this]
      · simp
      · exact ⟨hs2r.1, hs2r.2, hs2r.3, hs2r.4, hs2r.5⟩
    · rw [if_pos hz]
      have hinv : InvF t N W s2 (own s2 ++ rest) up (-n) := by
        rw [hown]
        refine ⟨?_, h.nodup, ?_, h.pos, h.anc⟩
        · intro a
          have := h.tot a
          rw [hs2t]
          by_cases ha : a = o
          · subst ha; simp [houp] at this ⊢; omega
          · simp [ha] at this ⊢; omega
        · intro c hc; rw [hs2t, if_neg (hno c hc), h.zero c hc]; rfl
      have := ih n s2 (isPath_up hp) hn hinv (fun a ha => hsrc a (by simp [ha])) hq'
      refine ⟨this.1, ?_, ?_, hs2r.trans this.2.2.2⟩
      · intro x
        rw [this.2.1 x, hs2c, hcnt]; omega
      · intro out hout
        rcases List.mem_cons.mp hout with rfl | hout
        · exact ⟨o, n, rfl⟩
        · exact this.2.2.1 out hout

/-- What `takeCtx` does when the drain of `o` is not running. -/
theorem takeCtx_spec (s : State) (o : Nat) (hd : ∀ c ∈ s.fctx, c.obj ≠ o) :
    (∀ x, (takeCtx s o).2.total x = s.total x) ∧ (∀ x, (takeCtx s o).2.count x = s.count x) ∧
    (takeCtx s o).2.fctx = s.fctx ∧ (takeCtx s o).2.running = s.running ∧ (takeCtx s o).2.toStart = s.toStart ∧
    (takeCtx s o).2.forked.length ≤ s.forked.length ∧ (takeCtx s o).2.cleared = s.cleared ∧
    (match (takeCtx s o).1 with
      | none => (takeCtx s o).2 = s ∧ ∀ c ∈ pending s, c.obj ≠ o
      | some c => c.obj = o ∧ (pending s).Perm (c :: pending (takeCtx s o).2)) := by
  have hf : s.fctx.find? (·.obj == o) = none := by
    rw [List.find?_eq_none]; intro c hc; simpa using hd c hc
  have hshape : ∀ x, s.sched.find? (isAt o) = some x → ∃ c, x = some c ∧ c.obj = o := by
    intro x hx
    have := List.find?_some (p := isAt o) hx
    cases x with
    | none => simp [isAt] at this
    | some c => exact ⟨c, rfl, by simpa [isAt] using this⟩
  cases hs : s.sched.find? (isAt o) with
  | some x =>
    obtain ⟨c, rfl, hc⟩ := hshape x hs
    have e : takeCtx s o = (some c, { s with sched := s.sched.eraseP (isAt o) }) := by simp [takeCtx, hs]
    rw [e]
    refine ⟨fun _ => rfl, fun _ => rfl, rfl, rfl, rfl, Nat.le_refl _, rfl, hc, ?_⟩
    obtain ⟨h1, as, bs, h2, h3⟩ := List.find?_eq_some_iff_append.mp hs
    have herase : s.sched.eraseP (isAt o) = as ++ bs := by
      rw [h2, List.eraseP_append_right _ (by intro b hb; simpa using h3 b hb)]
      simp [List.eraseP_cons, h1]
    simp only [pending, herase]
    rw [h2]
    simp only [List.filterMap_append, List.filterMap_cons, id, List.append_assoc, List.cons_append]
    exact List.perm_middle
  | none =>
    cases hk : s.forked.find? (·.obj == o) with
    | some c =>
      have hc : c.obj = o := by simpa using List.find?_some hk
      have e : takeCtx s o = (some c, { s with forked := s.forked.eraseP (·.obj == o) }) := by simp [takeCtx, hs, hk]
      rw [e]
      obtain ⟨h1, as, bs, h2, h3⟩ := List.find?_eq_some_iff_append.mp hk
      have herase : s.forked.eraseP (·.obj == o) = as ++ bs := by
        rw [h2, List.eraseP_append_right _ (by intro b hb; simpa using h3 b hb)]
        simp [List.eraseP_cons, h1]
      refine ⟨fun _ => rfl, fun _ => rfl, rfl, rfl, rfl, ?_, rfl, hc, ?_⟩
      · show (s.forked.eraseP (·.obj == o)).length ≤ s.forked.length
        rw [herase, h2]; simp
      · simp only [pending, herase]
        rw [h2]
        simp only [List.append_assoc, List.cons_append]
        rw [← List.append_assoc, ← List.append_assoc (s.sched.filterMap id)]
        exact List.perm_middle
    | none =>
      have e : takeCtx s o = (none, s) := by simp [takeCtx, hs, hk, hf]
      rw [e]
      refine ⟨fun _ => rfl, fun _ => rfl, rfl, rfl, rfl, Nat.le_refl _, rfl, rfl, ?_⟩
      intro c hc
      simp only [pending, List.mem_append] at hc
      rcases hc with (hc | hc) | hc
      · obtain ⟨x, hx, hx2⟩ := List.mem_filterMap.mp hc
        simp at hx2; subst hx2
        have := (List.find?_eq_none.mp hs) _ hx
        simpa [isAt] using this
      · have := (List.find?_eq_none.mp hk) _ hc
        simpa using this
      · exact hd c hc

theorem pending_own (s : State) : pending s = own s ++ (s.forked ++ s.fctx) := by simp [pending, own]

/-- A raise along a path restores the invariant. -/
theorem mRaise_inv {t : Tree} {N : Nat} {W : Nat → Int} (hW : ∀ o, 0 ≤ W o) (src : Nat) :
    ∀ (p : List Nat) (n : Int) (s : State), IsPath t p → 0 ≤ n → InvF t N W s (pending s) p n → (∀ a ∈ p, a ∈ chain t src) →
      (∀ a ∈ p, ¬ Draining s a) → (src ∉ p ∨ p = chain t src) →
      InvF t N W (mRaise p src n s).1 (pending (mRaise p src n s).1) [] 0 ∧
      (∀ x, (mRaise p src n s).1.count x = s.count x + if x = src ∧ src ∈ p then n else 0) ∧
      (∀ o ∈ (mRaise p src n s).2, ∃ a m, o = .raised a src m ∨ o = .dropped a src m) ∧
      (mRaise p src n s).1.fctx = s.fctx ∧ (mRaise p src n s).1.running = s.running ∧ (mRaise p src n s).1.toStart = s.toStart ∧
      (mRaise p src n s).1.forked.length ≤ s.forked.length ∧ (mRaise p src n s).1.cleared = s.cleared := by
  intro p
  induction p with
  | nil =>
    intro n s _ _ h _ _ _
    refine ⟨?_, by simp [mRaise], by simp [mRaise], rfl, rfl, rfl, Nat.le_refl _, rfl⟩
    exact ⟨fun a => by have := h.tot a; simpa [mDrop, mRaise] using this, h.nodup, h.zero, h.pos, h.anc⟩
  | cons o up ih =>
    intro n s hp hn h hsrc hdr hq
    unfold mRaise
    by_cases hn0 : n = 0
    · subst hn0
      rw [if_pos rfl]
      exact ⟨h.done, by simp, by simp, rfl, rfl, rfl, Nat.le_refl _, rfl⟩
    have hup := isPath_cons hp
    have houp : o ∉ up := hup ▸ not_mem_tail t o
    simp only [hn0, if_false]
    obtain ⟨hs2t, hs2c, hs2r', hs2s⟩ := addCounts_spec s o src n
    generalize addCounts s o src n = s2 at *
    have hs2r : s2.fctx = s.fctx ∧ s2.running = s.running ∧ s2.toStart = s.toStart ∧ s2.forked = s.forked ∧ s2.sched = s.sched ∧ s2.cleared = s.cleared :=
      ⟨hs2r'.fctx, hs2r'.running, hs2r'.toStart, hs2r'.forked, hs2s, hs2r'.cleared⟩
    have hpend : pending s2 = pending s := by simp [pending, hs2r]
    have hcnt : ∀ x, (if x = src ∧ src ∈ o :: up then n else 0) = (if x = src ∧ o = src then n else 0) + (if x = src ∧ src ∈ up then n else 0) := by
      intro x
      by_cases hx : x = src
      · subst hx
        by_cases ho : o = x
        · subst ho; simp [houp]
        · simp [ho, Ne.symm ho]
      · simp [hx]
    have hsu : src ∉ up := by
      rcases hq with hq | hq
      · simp at hq; exact hq.2
      · have : o = src := by
          have := hq; rw [chain_cons t src] at this; simp at this; exact this.1
        rw [← this]; exact houp
    obtain ⟨ht, hc, hfc, hrun, hts, hfl, hcl, hcase⟩ := takeCtx_spec s2 o (by
      intro c hc e
      exact hdr o (by simp) ⟨c, hs2r.1 ▸ hc, e⟩)
    generalize hs3 : (takeCtx s2 o).2 = s3 at *
    have hdr3 : ∀ a ∈ up, ¬ Draining s3 a := by
      intro a ha ⟨c, hc, e⟩
      exact hdr a (by simp [ha]) ⟨c, by rw [← hs2r.1, ← hfc]; exact hc, e⟩
    have hsu' : src ∉ up ∨ up = chain t src := Or.inl hsu
    cases hctx : (takeCtx s2 o).1 with
    | none =>
      rw [hctx] at hcase
      obtain ⟨hss, hno⟩ := hcase
      have hinv : InvF t N W s3 (pending s3) up n := by
        rw [hss, hpend]
        rw [hpend] at hno
        refine ⟨?_, h.nodup, ?_, h.pos, h.anc⟩
        · intro a
          have := h.tot a
          rw [hs2t]
          by_cases ha : a = o
          · subst ha; simp [houp] at this ⊢; omega
          · simp [ha] at this ⊢; omega
        · intro c hc'; rw [hs2t, if_neg (hno c hc'), h.zero c hc']; rfl
      have := ih n s3 (isPath_up hp) hn hinv (fun a ha => hsrc a (by simp [ha])) hdr3 hsu'
      simp only
      refine ⟨this.1, ?_, ?_, ?_, ?_, ?_, ?_, ?_⟩
      · intro x; rw [this.2.1 x, hc, hs2c, hcnt]; omega
      · intro out hout
        rcases List.mem_cons.mp hout with rfl | hout
        · exact ⟨o, n, Or.inl rfl⟩
        · exact this.2.2.1 out hout
      · rw [this.2.2.2.1, hfc, hs2r.1]
      · rw [this.2.2.2.2.1, hrun, hs2r.2.1]
      · rw [this.2.2.2.2.2.1, hts, hs2r.2.2.1]
      · have := this.2.2.2.2.2.2.1
        rw [hs2r.2.2.2.1] at hfl; omega
      · rw [this.2.2.2.2.2.2.2, hcl, hs2r.2.2.2.2.2]
    | some c =>
      rw [hctx] at hcase
      obtain ⟨hco, hperm⟩ := hcase
      rw [hpend] at hperm
      have h' := h.perm hperm
      have hnd := h'.nodup
      simp only [List.map_cons, List.nodup_cons] at hnd
      have hno : ∀ c' ∈ pending s3, c'.obj ≠ o := by
        intro c' hc' e
        exact hnd.1 (List.mem_map.mpr ⟨c', hc', by rw [e, hco]⟩)
      have hinv : InvF t N W s3 (pending s3) up (n - c.count) := by
        refine ⟨?_, hnd.2, ?_, fun c' hc' => h'.pos c' (by simp [hc']), fun c' hc' => h'.anc c' (by simp [hc'])⟩
        · intro a
          have := h'.tot a
          rw [heldBelow_cons, hco, ← hup] at this
          rw [ht, hs2t]
          by_cases ha : a = o
          · subst ha; simp [houp] at this ⊢; omega
          · by_cases hau : a ∈ up
            · simp [ha, hau] at this ⊢; omega
            · simp [ha, hau] at this ⊢; omega
        · intro c' hc'
          rw [ht, hs2t, if_neg (hno c' hc'), h'.zero c' (by simp [hc'])]; rfl
      simp only
      by_cases hd1 : n - c.count > 0
      · rw [if_pos hd1]
        have := ih (n - c.count) s3 (isPath_up hp) (by omega) hinv (fun a ha => hsrc a (by simp [ha])) hdr3 hsu'
        refine ⟨this.1, ?_, ?_, ?_, ?_, ?_, ?_, ?_⟩
        · intro x; rw [this.2.1 x, hc, hs2c, hcnt]; simp [hsu]
        · intro out hout
          rcases List.mem_cons.mp hout with rfl | hout
          · exact ⟨o, n, Or.inl rfl⟩
          · exact this.2.2.1 out hout
        · rw [this.2.2.2.1, hfc, hs2r.1]
        · rw [this.2.2.2.2.1, hrun, hs2r.2.1]
        · rw [this.2.2.2.2.2.1, hts, hs2r.2.2.1]
        · have := this.2.2.2.2.2.2.1
          rw [hs2r.2.2.2.1] at hfl; omega
        · rw [this.2.2.2.2.2.2.2, hcl, hs2r.2.2.2.2.2]
      · rw [if_neg hd1]
        by_cases hd2 : n - c.count < 0
        · rw [if_pos hd2]
          have hinv' : InvF t N W s3 (own s3 ++ (s3.forked ++ s3.fctx)) up (-(-(n - c.count))) := by
            rw [← pending_own, Int.neg_neg]; exact hinv
          have := mDrop_inv hW (s3.forked ++ s3.fctx) src up (-(n - c.count)) s3 (isPath_up hp) (by omega) hinv' (fun a ha => hsrc a (by simp [ha])) (Or.inl hsu)
          obtain ⟨i1, i2, i3, i4⟩ := this
          refine ⟨?_, ?_, ?_, ?_, ?_, ?_, ?_, ?_⟩
          · rw [pending_own, i4.forked, i4.fctx]; exact i1
          · intro x; rw [i2, hc, hs2c, hcnt]; simp [hsu]
          · intro out hout
            rcases List.mem_cons.mp hout with rfl | hout
            · exact ⟨o, n, Or.inl rfl⟩
            · obtain ⟨a, m, h⟩ := i3 out hout; exact ⟨a, m, Or.inr h⟩
          · rw [i4.fctx, hfc, hs2r.1]
          · rw [i4.running, hrun, hs2r.2.1]
          · rw [i4.toStart, hts, hs2r.2.2.1]
          · rw [i4.forked]; rw [hs2r.2.2.2.1] at hfl; exact hfl
          · rw [i4.cleared, hcl, hs2r.2.2.2.2.2]
        · rw [if_neg hd2]
          have hd0 : n - c.count = 0 := by omega
          rw [hd0] at hinv
          refine ⟨hinv.done, ?_, ?_, ?_, ?_, ?_, ?_, ?_⟩
          · intro x; rw [hc, hs2c, hcnt]; simp [hsu]
          · intro out hout
            simp at hout
            exact ⟨o, n, Or.inl hout⟩
          · rw [hfc, hs2r.1]
          · rw [hrun, hs2r.2.1]
          · rw [hts, hs2r.2.2.1]
          · rw [hs2r.2.2.2.1] at hfl; exact hfl
          · rw [hcl, hs2r.2.2.2.2.2]

end Verif.Objection
