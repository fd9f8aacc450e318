import Verif.Lemmas.ObjectionNonneg
/-! # Properties C27-C30, C64, C65: objections -/
namespace Verif.Objection

instance (s : State) (a : Nat) : Decidable (Draining s a) := inferInstanceAs (Decidable (∃ c ∈ s.fctx, c.obj = a))

instance (t : Tree) (N : Nat) (s : State) (op : Op) : Decidable (Allowed t N s op) := by
  cases op <;> unfold Allowed <;> infer_instance

/-- For the examples: the whole history is allowed. -/
def allowedRun (t : Tree) (N : Nat) : State → List Op → Bool
  | _, [] => true
  | s, op :: ops => decide (Allowed t N s op) && allowedRun t N (step t s op).1 ops

theorem reach_run {t N pre s} (h : Reach t N pre s) (ops : List Op) (ha : allowedRun t N s ops = true) :
    Reach t N (pre ++ ops) (runS (step t) s ops) := by
  induction ops generalizing pre s with
  | nil => simpa using h
  | cons op ops ih =>
    simp only [allowedRun, Bool.and_eq_true, decide_eq_true_eq] at ha
    have := ih (.snoc h ha.1) ha.2
    simpa using this

/-- For the examples: 1 and 2 are children of the root 0, and 3 is a child of 1. -/
def exTree : Tree where
  parent o := if o = 3 then 1 else 0
  lt o h := by split <;> omega

/-- 3 raises twice, 2 once; 3 drops once; everybody who has nothing left has drained. -/
def exOps : List Op := [.raise 3 2, .raise 2 1, .raise 1 4, .drop 3 1, .drop 2 1, .bg, .start, .notify 0, .finish 0]

theorem exReach : Reach exTree 4 exOps (runS (step exTree) {} exOps) := by
  have := reach_run (.nil (t := exTree) (N := 4)) exOps (by decide)
  simpa using this

/-! ## C27 -/

/-- The objects "at or above" another are those reached by following parents. -/
theorem C27_chain_is_ancestors (t : Tree) (a o : Nat) : a ∈ chain t o ↔ Above t a o := mem_chain_iff t a o

/-- C27: after every allowed history, in every tree, the source counts are those of the specification (raises minus accepted drops since
the last `clear`), and the total of every object is the sum of the source counts at or below it plus what the pending drains
strictly below it still hold. -/
theorem C27_totals (t : Tree) (N : Nat) (ops : List Op) (s : State) (h : Reach t N ops s) (a : Nat) :
    s.count = ops.foldl specCount (fun _ => 0) ∧ s.total a = sumBelow t N s.count a + heldBelow t (pending s) a := by
  obtain ⟨h1, h2⟩ := inv_reach h
  refine ⟨h2, ?_⟩
  have := h1.acc.tot a
  simpa using this

/-- C27: without pending drains the total of every object is the sum of the source counts at or below it; the total of the root is the sum of
all source counts; and a total is zero exactly if every source at or below has dropped everything. -/
theorem C27_totals_without_drains (t : Tree) (N : Nat) (ops : List Op) (s : State) (h : Reach t N ops s) (hp : pending s = []) :
    (∀ a, s.total a = sumBelow t N s.count a) ∧
    s.total 0 = ((List.range N).map s.count).sum ∧
    (∀ a, s.total a = 0 ↔ ∀ o < N, Above t a o → s.count o = 0) := by
  obtain ⟨h1, h2⟩ := inv_reach h
  have ht : ∀ a, s.total a = sumBelow t N s.count a := by
    intro a
    have := h1.acc.tot a
    rw [hp] at this
    simpa [heldBelow] using this
  refine ⟨ht, ?_, ?_⟩
  · rw [ht]
    unfold sumBelow
    congr 1
    apply List.map_congr_left
    intro o _
    rw [if_pos (top_mem_chain t o)]
  · intro a
    rw [ht]
    constructor
    · intro h0 o ho ha
      have h3 := le_sumBelow (t := t) h1.cnt ho ((mem_chain_iff t a o).mpr ha)
      have h4 := h1.cnt o
      omega
    · intro hz
      unfold sumBelow
      have : (List.range N).map (fun o => if a ∈ chain t o then s.count o else 0) = (List.range N).map fun _ => 0 := by
        apply List.map_congr_left
        intro o ho
        split
        · next ha => exact hz o (List.mem_range.mp ho) ((mem_chain_iff t a o).mp ha)
        · rfl
      rw [this]
      clear this
      induction (List.range N) with
      | nil => rfl
      | cons x l ih => simp only [List.map_cons, List.sum_cons, ih]; rfl

example : let s := runS (step exTree) {} exOps
    pending s = [] ∧ s.total 0 = 5 ∧ s.total 1 = 5 ∧ s.total 2 = 0 ∧ s.count 3 = 1 ∧ s.count 1 = 4 := by decide

/-- With a pending drain: 2 has dropped but its drain is not yet passed on. -/
example : let s := runS (step exTree) {} [.raise 3 2, .raise 2 1, .drop 2 1]
    pending s = [⟨2, 2, 1⟩] ∧ s.total 0 = 3 ∧ sumBelow exTree 4 s.count 0 = 2 ∧ heldBelow exTree (pending s) 0 = 1 := by decide

/-! ## C28 -/

/-- C28: in every state, dropping more than the object's own count changes nothing, and is reported as fatal unless the objection was
cleared. -/
theorem C28_over_drop_rejected (t : Tree) (s : State) (o : Nat) (n : Int) (hn : n ≠ 0) (h : s.count o < n) :
    (step t s (.drop o n)).1 = s ∧ (s.cleared = false → (step t s (.drop o n)).2 = [.fatal o]) ∧
    (s.cleared = true → (step t s (.drop o n)).2 = []) := by
  rw [step_drop_reject t s o n hn h]
  cases hc : s.cleared <;> simp

example : (step exTree (runS (step exTree) {} exOps) (.drop 3 2)).2 = [.fatal 3] ∧ (runS (step exTree) {} exOps).count 3 < 2 := by decide

/-- C28: after every allowed history no count and no total is negative, and a drop within the own count is never refused: it reports no
error and takes exactly that count from the object. -/
theorem C28_counts_and_accepted_drops (t : Tree) (N : Nat) (ops : List Op) (s : State) (h : Reach t N ops s) :
    (∀ o, 0 ≤ s.count o ∧ 0 ≤ s.total o) ∧
    ∀ o n, o < N → 0 ≤ n → n ≤ s.count o →
      (∀ out ∈ (step t s (.drop o n)).2, ∃ a m, out = .dropped a o m) ∧
      ∀ x, (step t s (.drop o n)).1.count x = s.count x - if x = o then n else 0 := by
  obtain ⟨h1, _⟩ := inv_reach h
  refine ⟨?_, ?_⟩
  · intro o
    refine ⟨h1.cnt o, ?_⟩
    have h2 := h1.acc.tot o
    have h3 := sumBelow_nonneg (t := t) (N := N) h1.cnt o
    have h4 := heldBelow_nonneg (t := t) h1.acc.pos o
    simp at h2; omega
  · intro o n ho hn hle
    obtain ⟨_, h2, h3⟩ := inv_drop h1 o n ho hn hle
    exact ⟨h3, h2⟩

example : (step exTree (runS (step exTree) {} exOps) (.drop 1 4)).2 = [.dropped 1 1 4, .dropped 0 1 4] := by decide

/-- C28: after every history whatsoever of raises and drops with counts that are not negative (also raises that meet a running drain, clears at
any time, any interleaving of the coroutines), no count and no total is negative. -/
theorem C28_never_negative (t : Tree) (ops : List Op) (h : ∀ o n, .raise o n ∈ ops → 0 ≤ n) (o : Nat) :
    0 ≤ (runS (step t) {} ops).count o ∧ 0 ≤ (runS (step t) {} ops).total o :=
  nonneg_run t ops h o

example : (runS (step exTree) {} [.raise 1 2, .drop 1 2, .bg, .start, .raise 1 3, .notify 0, .finish 0]).total 0 = 1 := by decide

/-- C28: an objection counts as cleared only until the next raise; no drop changes that. -/
theorem C28_cleared_until_raise (t : Tree) (s : State) (o : Nat) (n : Int) :
    (step t s (.raise o n)).1.cleared = false ∧ (step t s (.drop o n)).1.cleared = s.cleared :=
  ⟨(mRaise_tad o _ n _).2, (mDrop_sched o _ n s).2.cleared⟩

/-- C96 fails for negative counts: nothing checks them, so a raise can make counts negative. -/
theorem C96_negative_raise_fails : ∃ ops, (runS (step exTree) {} ops).count 1 < 0 ∧ (runS (step exTree) {} ops).total 0 < 0 :=
  ⟨[.raise 1 (-2)], by decide⟩

theorem takeCtx_count (s : State) (o x : Nat) : (takeCtx s o).2.count x = s.count x := by
  unfold takeCtx
  split
  · rfl
  · split
    · rfl
    · split <;> rfl

theorem mDrop_count_above (src : Nat) (p : List Nat) (h : src ∉ p) (n : Int) (s : State) (x : Nat) : (mDrop p src n s).1.count x = s.count x := by
  induction p generalizing n s with
  | nil => rfl
  | cons o up ih =>
    have hne : ¬ o = src := fun e => h (by simp [e])
    have ha := (addCounts_spec s o src (-n)).2.1 x
    rw [if_neg (fun hh => hne hh.2)] at ha
    unfold mDrop
    split
    · rfl
    · split
      · split <;> rfl
      · split
        · split <;> rfl
        · split
          · exact (ih (fun hh => h (by simp [hh])) _ _).trans (by simpa using ha)
          · show (addCounts s o src (-n)).count x = _
            simpa using ha

theorem mRaise_count_above (src : Nat) (p : List Nat) (h : src ∉ p) (n : Int) (s : State) (x : Nat) : (mRaise p src n s).1.count x = s.count x := by
  induction p generalizing n s with
  | nil => rfl
  | cons o up ih =>
    have hne : ¬ o = src := fun e => h (by simp [e])
    have hup : src ∉ up := fun hh => h (by simp [hh])
    have ha := (addCounts_spec s o src n).2.1 x
    rw [if_neg (fun hh => hne hh.2)] at ha
    have hk := takeCtx_count (addCounts s o src n) o x
    unfold mRaise
    split
    · rfl
    · dsimp only
      split
      · exact (ih hup _ _).trans (by rw [hk, ha]; simp)
      · split
        · exact (ih hup _ _).trans (by rw [hk, ha]; simp)
        · split
          · exact (mDrop_count_above src up hup _ _ x).trans (by rw [hk, ha]; simp)
          · rw [hk, ha]; simp

/-- C96 fails in general: in every tree and every state, raising any number, negative or not, changes the count by that number; nothing is
reported, so raising a negative number makes every smaller count negative. -/
theorem C96_any_raise_counts_fails (t : Tree) (s : State) (o : Nat) (n : Int) :
    (step t s (.raise o n)).1.count o = s.count o + n ∧ (s.count o < -n → (step t s (.raise o n)).1.count o < 0) := by
  have key : (step t s (.raise o n)).1.count o = s.count o + n := by
    show (mRaise (chain t o) o n { s with cleared := false, topAllDropped := false }).1.count o = _
    rw [chain_cons]
    unfold mRaise
    split
    · rename_i h; subst h; exact (Int.add_zero _).symm
    · have ha := (addCounts_spec { s with cleared := false, topAllDropped := false } o o n).2.1 o
      rw [if_pos ⟨rfl, rfl⟩] at ha
      have hk := takeCtx_count (addCounts { s with cleared := false, topAllDropped := false } o o n) o o
      have hup := not_mem_tail t o
      dsimp only
      split
      · exact (mRaise_count_above o _ hup _ _ o).trans (hk.trans ha)
      · split
        · exact (mRaise_count_above o _ hup _ _ o).trans (hk.trans ha)
        · split
          · exact (mDrop_count_above o _ hup _ _ o).trans (hk.trans ha)
          · exact hk.trans ha
  exact ⟨key, fun h => by omega⟩

example : (runS (step exTree) {} [.raise 1 2, .drop 1 1]).count 1 < -(-3) := by decide

/-! ## C29 -/

/-- C29 (partial): when an object raises `n` while its drain is scheduled or forked but not yet running, every object above changes by
exactly the difference between `n` and the count of the drain, no other total changes, the drain is cancelled and every other
pending drain is kept; the hooks above see exactly that difference.  Missing: the drain is already running, where the code is wrong
(`C29_reraise_during_drain_fails`). -/
theorem C29_reraise_before_drain_partial (t : Tree) (N : Nat) (ops : List Op) (s : State) (h : Reach t N ops s) (o : Nat) (n : Int) (hn : 0 < n)
    (c : Ctx) (hc : c ∈ s.sched.filterMap id ++ s.forked) (hco : c.obj = o) :
    (step t s (.raise o n)).1.total o = n ∧
    (∀ a, Above t a o → a ≠ o → (step t s (.raise o n)).1.total a = s.total a + (n - c.count)) ∧
    (∀ a, ¬ Above t a o → (step t s (.raise o n)).1.total a = s.total a) ∧
    (pending s).Perm (c :: pending (step t s (.raise o n)).1) ∧
    (step t s (.raise o n)).2 = .raised o o n :: (if n = c.count then [] else (chain t o).tail.map fun a =>
      if n > c.count then .raised a o (n - c.count) else .dropped a o (c.count - n)) := by
  obtain ⟨h1, _⟩ := inv_reach h
  obtain ⟨r1, r2, r3⟩ := reraise h1 o n hn c hc hco
  have hcp : c ∈ pending s := by simp only [pending, List.append_assoc]; rw [← List.append_assoc]; exact List.mem_append_left _ hc
  have hz := h1.acc.zero c hcp
  refine ⟨?_, ?_, ?_, r2, ?_⟩
  · rw [r1, ← hco, hz]; simp [not_mem_tail]
  · intro a ha hne
    have hm := (mem_chain_iff t a o).mpr ha
    rw [chain_cons t o] at hm
    have : a ∈ (chain t o).tail := by simpa [hne] using hm
    rw [r1]; simp [hne, this]
  · intro a ha
    have hne : a ≠ o := by rintro rfl; exact ha (.refl _)
    have : a ∉ (chain t o).tail := fun hm => ha ((mem_chain_iff t a o).mp (List.mem_of_mem_tail hm))
    rw [r1]; simp [hne, this]
  · rw [r3]
    congr 1
    split
    · rfl
    · apply List.map_congr_left
      intro a _
      unfold diffOut
      by_cases h2 : n > c.count
      · rw [if_pos (by omega), if_pos h2]
      · rw [if_neg (by omega), if_neg h2]
        congr 1; omega

/-- 3 dropped 2 and raises 5 before its drain started: the objects above get 3 more. -/
example : let s := runS (step exTree) {} [.raise 3 2, .raise 2 1, .drop 3 2, .bg]
    s.forked = [⟨3, 3, 2⟩] ∧ (step exTree s (.raise 3 5)).2 = [.raised 3 3 5, .raised 1 3 3, .raised 0 3 3] ∧
    (step exTree s (.raise 3 5)).1.total 0 = 6 := by decide

/-- C29 fails in the code once the drain runs: it is not stopped, so its drop still goes up, and the root's total is 0 (all dropped) although the
object holds an objection; the coroutine ends with an exception. -/
theorem C29_reraise_during_drain_fails : ∃ ops, ∃ s, s = runS (step exTree) {} ops ∧ s.count 1 = 1 ∧ s.total 1 = 1 ∧ s.total 0 = 0 ∧
    .crash ∈ (run (step exTree) {} ops).2.flatten :=
  ⟨[.raise 1 1, .drop 1 1, .bg, .start, .notify 0, .raise 1 1, .finish 0], _, rfl, by decide⟩

/-! ## C30 -/

/-- C30: the coroutines never run for ever on their own: from every state the number of steps they can take without a call by the user
is bounded. -/
theorem C30_coroutines_come_to_rest (t : Tree) (s : State) : ∃ k, ∀ ops, EnabledRun t s ops → ops.length ≤ k := by
  refine ⟨work s, ?_⟩
  intro ops
  induction ops generalizing s with
  | nil => intro _; simp
  | cons op ops ih =>
    intro h
    have h1 := work_step t s op h.1
    have h2 := ih _ h.2
    simp only [List.length_cons]; omega

/-- C30 (partial): if the background process never finds more than one waiting drain when it wakes up, then whenever the coroutines have
come to rest no drain is pending, and every total is the sum of the source counts.  Missing: several drains waiting
(`C30_second_drain_lost_fails`). -/
theorem C30_rest_means_drained_partial (t : Tree) (N : Nat) (s : State) (h : ReachOne t N s) (hr : ∀ op, ¬ Enabled s op) :
    pending s = [] ∧ ∀ a, s.total a = sumBelow t N s.count a := by
  obtain ⟨h1, h2⟩ := reachOne_ev h
  have hev : s.ev ≠ true := hr .bg
  have hst : ¬ 0 < s.toStart := hr .start
  have hs : s.sched = [] := Classical.byContradiction fun e => hev (h2 e)
  have hf : s.forked = [] := List.length_eq_zero_iff.mp (by have := h1.fk; omega)
  have hrun : s.running = [] := by
    cases hq : s.running with
    | nil => rfl
    | cons r q =>
      exfalso
      by_cases hn : r.notified = true
      · exact hr (.finish 0) ⟨r, by simp [hq], hn⟩
      · exact hr (.notify 0) ⟨r, by simp [hq], by simpa using hn⟩
  have hfc : s.fctx = [] := by rw [← h1.run, hrun]; rfl
  have hp : pending s = [] := by simp [pending, hs, hf, hfc]
  refine ⟨hp, ?_⟩
  intro a
  have := h1.acc.tot a
  rw [hp] at this
  simpa [heldBelow] using this

/-- One drop, drained up to the root: the coroutines rest and nothing is pending. -/
example : let ops := [.raise 3 1, .drop 3 1, .bg, .start, .notify 0, .finish 0, .bg, .start, .notify 0, .finish 0, .bg, .start, .notify 0, .finish 0]
    let s := runS (step exTree) {} ops
    s.ev = false ∧ s.toStart = 0 ∧ s.running = [] ∧ s.total 0 = 0 ∧ s.topAllDropped = true := by decide

theorem exOne : ReachOne exTree 4 (runS (step exTree) {} [.raise 3 1, .drop 3 1, .bg]) :=
  .snoc (.snoc (.snoc .nil (op := .raise 3 1) (by decide) (by simp)) (op := .drop 3 1) (by decide) (by simp)) (op := .bg) (by decide)
    (fun _ => by decide)

/-- C30 fails in the code: the background process takes one drain per wake-up; of two objects that drop in the same time step, the second
is never drained, and the root keeps a total of 1 although nobody holds an objection. -/
theorem C30_second_drain_lost_fails : ∃ ops s, Reach exTree 4 ops s ∧ (∀ op, ¬ Enabled s op) ∧ (∀ o, s.count o = 0) ∧ s.total 0 = 1 ∧
    pending s = [⟨2, 2, 1⟩] := by
  let ops : List Op := [.raise 1 1, .raise 2 1, .drop 1 1, .drop 2 1, .bg, .start, .notify 0, .finish 0]
  refine ⟨ops, runS (step exTree) {} ops, ?_, ?_, ?_, by decide, by decide⟩
  · have := reach_run (.nil (t := exTree) (N := 4)) ops (by decide)
    simpa using this
  · have h1 : (runS (step exTree) {} ops).ev = false := by decide
    have h2 : (runS (step exTree) {} ops).toStart = 0 := by decide
    have h3 : (runS (step exTree) {} ops).running = [] := by decide
    intro op
    cases op <;> simp [Enabled, h1, h2, h3]
  · intro o
    have hreach := reach_run (.nil (t := exTree) (N := 4)) ops (by decide)
    rw [(inv_reach hreach).2]
    show (if o = 2 ∧ _ then _ else _) = _
    by_cases h2 : o = 2
    · subst h2; decide
    · by_cases h1 : o = 1
      · subst h1; decide
      · simp [ops, specCount, h1, h2]

/-- C30: "all dropped" is announced only when it is true: at that moment the object's total is 0, and so is every source count at or below
it. -/
theorem C30_all_dropped_is_true (t : Tree) (N : Nat) (ops : List Op) (s : State) (h : Reach t N ops s) (i o src : Nat) (n : Int)
    (hn : .allDropped o src n ∈ (step t s (.notify i)).2) : s.total o = 0 ∧ ∀ x < N, Above t o x → s.count x = 0 := by
  obtain ⟨h1, _⟩ := inv_reach h
  simp only [step] at hn
  cases hr : s.running[i]? with
  | none => rw [hr] at hn; simp at hn
  | some r =>
    rw [hr] at hn
    simp only at hn
    split at hn
    · simp at hn
    · simp only [List.mem_singleton, Out.allDropped.injEq] at hn
      have hm : r.ctx ∈ pending s := by
        simp only [pending, List.mem_append]
        right; rw [← h1.run]; exact List.mem_map.mpr ⟨r, List.mem_of_getElem? hr, rfl⟩
      have hz := h1.acc.zero _ hm
      rw [← hn.1] at hz
      refine ⟨hz, ?_⟩
      intro x hx ha
      have h2 := h1.acc.tot o
      have h3 := le_sumBelow (t := t) h1.cnt hx ((mem_chain_iff t o x).mpr ha)
      have h4 := heldBelow_nonneg (t := t) h1.acc.pos o
      have h5 := h1.cnt x
      simp at h2; omega

example : (step exTree (runS (step exTree) {} [.raise 1 1, .drop 1 1, .bg, .start]) (.notify 0)).2 = [.allDropped 1 1 1] := by decide

/-- C30: while the objection says that the root has drained, the root's total is 0 and nobody holds an objection; any raise ends that. -/
theorem C30_top_all_dropped (t : Tree) (N : Nat) (ops : List Op) (s : State) (h : Reach t N ops s) :
    (s.topAllDropped = true → s.total 0 = 0 ∧ ∀ o < N, s.count o = 0) ∧
    ∀ o n, (step t s (.raise o n)).1.topAllDropped = false := by
  have key : s.topAllDropped = true → s.total 0 = 0 := by
    induction h with
    | nil => simp
    | snoc hr ha ih => exact tad_step (inv_reach hr).1 ih _ ha
  refine ⟨?_, ?_⟩
  · intro ht
    refine ⟨key ht, ?_⟩
    intro o ho
    obtain ⟨h1, _⟩ := inv_reach h
    have h2 := h1.acc.tot 0
    have h3 := le_sumBelow (t := t) h1.cnt ho (top_mem_chain t o)
    have h4 := heldBelow_nonneg (t := t) h1.acc.pos 0
    have h5 := h1.cnt o
    have := key ht
    simp at h2; omega
  · intro o n
    exact (mRaise_tad o _ n _).1

example : (runS (step exTree) {} [.raise 0 1, .drop 0 1, .bg, .start, .notify 0]).topAllDropped = true := by decide

/-! ## C64: drain times -/

/-- C64 (partial): a drain time set without naming an object is that of the root, and no other drain time changes. -/
theorem C64_drain_time_of_root_partial (d : Nat → Option Nat) (v : Nat) :
    setDrainTime d none v 0 = some v ∧ ∀ x, x ≠ 0 → setDrainTime d none v x = d x := by
  refine ⟨by simp [setDrainTime], ?_⟩
  intro x hx; simp [setDrainTime, hx]

example : setDrainTime (fun _ => none) none 10 0 = some 10 := by decide

/-- C64 fails in the code: a drain time set for a given object is not stored at all. -/
theorem C64_drain_time_of_object_fails (d : Nat → Option Nat) (o v : Nat) : setDrainTime d (some o) v = d := rfl

/-! ## C65: clear -/

/-- C65 (partial): in every state without a forked or running drain, `clear` sets every count and total to 0 and cancels every waiting
drain of this objection, leaving those of other objections in place.  Missing: forked or running drains
(`C65_clear_during_drain_fails`). -/
theorem C65_clear_partial (t : Tree) (s : State) (h1 : s.forked = []) (h2 : s.fctx = []) :
    (∀ o, (step t s .clear).1.count o = 0 ∧ (step t s .clear).1.total o = 0) ∧ pending (step t s .clear).1 = [] ∧
    (step t s .clear).2 = [] ∧ (step t s .clear).1.cleared = true ∧
    (step t s .clear).1.sched.filter (·.isNone) = s.sched.filter (·.isNone) := by
  have hown : (s.sched.filter (·.isNone)).filterMap id = [] := by
    rw [List.filterMap_eq_nil_iff]
    intro x hx
    have := (List.mem_filter.mp hx).2
    cases x with
    | none => rfl
    | some c => simp at this
  simp only [step, clear, h1, h2, ne_eq, not_true_eq_false, or_self, if_false]
  refine ⟨fun o => ⟨rfl, rfl⟩, ?_, trivial, trivial, ?_⟩
  · simp [pending, h1, h2, hown]
  · simp

example : let s := runS (step exTree) {} [.raise 3 2, .foreign, .drop 3 2]
    s.sched = [none, some ⟨3, 3, 2⟩] ∧ (step exTree s .clear).1.sched = [none] := by decide

/-- C65 fails in the code: during a drain `clear` ends with an exception. -/
theorem C65_clear_during_drain_fails (t : Tree) (s : State) (h : s.forked ≠ [] ∨ s.fctx ≠ []) :
    (step t s .clear).2 = [.crash] ∧ (step t s .clear).1.cleared = s.cleared := by
  simp only [step, clear, h, if_true]
  exact ⟨trivial, trivial⟩

example : (runS (step exTree) {} [.raise 1 1, .drop 1 1, .bg]).forked ≠ [] := by decide

end Verif.Objection
