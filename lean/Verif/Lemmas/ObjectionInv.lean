import Verif.Lemmas.Objection
/-! # The accounting invariant of objections over all allowed histories -/
namespace Verif.Objection

structure Inv (t : Tree) (N : Nat) (s : State) : Prop where
  acc : InvF t N s.count s (pending s) [] 0
  cnt : ∀ o, 0 ≤ s.count o
  run : s.running.map (·.ctx) = s.fctx
  alive : ∀ r ∈ s.running, r.alive = true
  fk : s.forked.length ≤ s.toStart

theorem inv_init (t : Tree) (N : Nat) : Inv t N {} where
  acc := by
    have : sumBelow t N (fun _ => 0) = fun _ => 0 := by
      funext a
      unfold sumBelow
      have : (fun o => if a ∈ chain t o then (0 : Int) else 0) = fun _ => 0 := by funext o; split <;> rfl
      rw [this]
      induction N with
      | zero => rfl
      | succ N ih => rw [List.range_succ, List.map_append, List.sum_append, ih]; rfl
    refine ⟨?_, ?_, ?_, ?_, ?_⟩
    · intro a
      have h : (State.count {}) = fun _ => (0 : Int) := by funext o; rfl
      rw [h, this]
      simp [State.total, heldBelow, pending]
    all_goals simp [pending]
  cnt o := by simp [State.count]
  run := rfl
  alive := by simp
  fk := by simp

/-- A drop of more than the object's own count is refused, in every state. -/
theorem mDrop_reject (s : State) (o : Nat) (up : List Nat) (n : Int) (hn : n ≠ 0) (h : s.count o < n) :
    mDrop (o :: up) o n s = if s.cleared then (s, []) else (s, [.fatal o]) := by
  unfold mDrop
  rw [if_neg hn]
  split
  · rfl
  · rw [if_pos]
    simp only [decide_true, Bool.true_and, Bool.or_eq_true, decide_eq_true_eq]
    right; exact h

theorem eraseP_running : ∀ (l : List Run) (i : Nat) (r : Run), l[i]? = some r → ((l.map (·.ctx)).map (·.obj)).Nodup →
    (l.map (·.ctx)).eraseP (·.obj == r.ctx.obj) = (l.eraseIdx i).map (·.ctx) := by
  intro l
  induction l with
  | nil => intro i r h; simp at h
  | cons x l ih =>
    intro i r h hn
    cases i with
    | zero =>
      simp at h; subst h
      simp
    | succ i =>
      simp at h
      simp only [List.map_cons, List.nodup_cons] at hn
      have hne : x.ctx.obj ≠ r.ctx.obj := by
        intro e
        apply hn.1
        rw [e]
        exact List.mem_map.mpr ⟨r.ctx, List.mem_map.mpr ⟨r, List.mem_of_getElem? h, rfl⟩, rfl⟩
      simp only [List.map_cons, List.eraseIdx_cons_succ]
      rw [List.eraseP_cons_of_neg (by simpa using hne), ih i r h hn.2]

theorem perm_eraseP {l : List Ctx} {c : Ctx} (hc : c ∈ l) (hn : (l.map (·.obj)).Nodup) : l.Perm (c :: l.eraseP (·.obj == c.obj)) := by
  induction l with
  | nil => simp at hc
  | cons x l ih =>
    simp only [List.map_cons, List.nodup_cons] at hn
    rcases List.mem_cons.mp hc with rfl | hc
    · rw [List.eraseP_cons_of_pos (by simp)]
    · have hne : x.obj ≠ c.obj := by
        intro e; apply hn.1; rw [e]; exact List.mem_map.mpr ⟨c, hc, rfl⟩
      rw [List.eraseP_cons_of_neg (by simpa using hne)]
      exact ((ih hc hn.2).cons x).trans (.swap _ _ _)

theorem nodup_fctx {t N W s p d} (h : InvF t N W s (pending s) p d) : (s.fctx.map (·.obj)).Nodup := by
  have := h.nodup
  simp only [pending, List.map_append] at this
  exact (List.nodup_append.mp this).2.1

theorem delZero_getD (d : Nat → Option Int) (o x : Nat) : (delZero d o x).getD 0 = (d x).getD 0 := by
  unfold delZero
  split
  · next h => rw [h.1, h.2]; rfl
  · rfl

/-- `mDrop` does not look at the running drains. -/
theorem mDrop_fctx (f : List Ctx) (src : Nat) : ∀ (p : List Nat) (n : Int) (s : State),
    mDrop p src n { s with fctx := f } = ({ (mDrop p src n s).1 with fctx := f }, (mDrop p src n s).2) := by
  intro p
  induction p with
  | nil => intro n s; rfl
  | cons o up ih =>
    intro n s
    unfold mDrop
    by_cases hn : n = 0
    · simp [hn]
    · simp only [hn, if_false]
      rw [show (State.total { s with fctx := f }) = s.total from rfl, show (State.count { s with fctx := f }) = s.count from rfl]
      split
      · split <;> rfl
      · split
        · split <;> rfl
        · rw [show addCounts { s with fctx := f } o src (-n) = { addCounts s o src (-n) with fctx := f } from rfl, ih]
          rw [show (State.total { addCounts s o src (-n) with fctx := f }) = (addCounts s o src (-n)).total from rfl]
          split <;> rfl

theorem inv_raise {t N s} (h : Inv t N s) (o : Nat) (n : Int) (ho : o < N) (hn : 0 ≤ n) (hd : ∀ a ∈ chain t o, ¬ Draining s a) :
    Inv t N (step t s (.raise o n)).1 ∧ (∀ x, (step t s (.raise o n)).1.count x = s.count x + if x = o then n else 0) ∧
    (∀ out ∈ (step t s (.raise o n)).2, ∃ a m, out = .raised a o m ∨ out = .dropped a o m) := by
  have hW : ∀ x, 0 ≤ s.count x + if x = o then n else 0 := by
    intro x; have := h.cnt x; split <;> omega
  have key := mRaise_inv (t := t) (N := N) (W := fun x => s.count x + if x = o then n else 0) hW o (chain t o) n
    { s with cleared := false, topAllDropped := false } (isPath_chain t o) hn ⟨by
      intro a
      rw [sumBelow_update ho (fun x => rfl)]
      have := h.acc.tot a
      simp only [List.not_mem_nil, if_false] at this
      have e : State.total { s with cleared := false, topAllDropped := false } a = s.total a := rfl
      have e2 : pending { s with cleared := false, topAllDropped := false } = pending s := rfl
      rw [e, e2]; omega, h.acc.nodup, h.acc.zero, h.acc.pos, h.acc.anc⟩ (fun a ha => ha) hd (Or.inr rfl)
  obtain ⟨k1, k2, k3, k4, k5, k6, k7, k8⟩ := key
  have hc : ∀ x, (step t s (.raise o n)).1.count x = s.count x + if x = o then n else 0 := by
    intro x
    simp only [step]
    rw [k2 x]
    simp only [mem_chain_self, and_true]
    rfl
  refine ⟨⟨?_, ?_, ?_, ?_, ?_⟩, hc, k3⟩
  · have : (step t s (.raise o n)).1.count = fun x => s.count x + if x = o then n else 0 := funext hc
    rw [this]; exact k1
  · intro x; rw [hc]; exact hW x
  · simp only [step]; rw [k4, k5]; exact h.run
  · simp only [step]; rw [k5]; exact h.alive
  · simp only [step]; rw [k6]; exact Nat.le_trans k7 h.fk

theorem inv_drop {t N s} (h : Inv t N s) (o : Nat) (n : Int) (ho : o < N) (hn : 0 ≤ n) (hle : n ≤ s.count o) :
    Inv t N (step t s (.drop o n)).1 ∧ (∀ x, (step t s (.drop o n)).1.count x = s.count x - if x = o then n else 0) ∧
    (∀ out ∈ (step t s (.drop o n)).2, ∃ a m, out = .dropped a o m) := by
  have hW : ∀ x, 0 ≤ s.count x - if x = o then n else 0 := by
    intro x; have := h.cnt x
    split
    · next e => subst e; omega
    · omega
  have key := mDrop_inv (t := t) (N := N) (W := fun x => s.count x - if x = o then n else 0) hW (s.forked ++ s.fctx) o (chain t o) n
    s (isPath_chain t o) hn (by
      rw [← pending_own]
      refine ⟨?_, h.acc.nodup, h.acc.zero, h.acc.pos, h.acc.anc⟩
      intro a
      rw [sumBelow_update (W := s.count) (d := -n) ho (fun x => by split <;> omega)]
      have := h.acc.tot a
      simp only [List.not_mem_nil, if_false] at this
      omega) (fun a ha => ha) (Or.inr ⟨rfl, hle⟩)
  obtain ⟨k1, k2, k3, k4⟩ := key
  have hc : ∀ x, (step t s (.drop o n)).1.count x = s.count x - if x = o then n else 0 := by
    intro x
    simp only [step]
    rw [k2 x]
    simp only [mem_chain_self, and_true]
  refine ⟨⟨?_, ?_, ?_, ?_, ?_⟩, hc, k3⟩
  · have : (step t s (.drop o n)).1.count = fun x => s.count x - if x = o then n else 0 := funext hc
    rw [this, pending_own]
    simp only [step]
    rw [k4.forked, k4.fctx]; exact k1
  · intro x; rw [hc]; exact hW x
  · simp only [step]; rw [k4.running, k4.fctx]; exact h.run
  · simp only [step]; rw [k4.running]; exact h.alive
  · simp only [step]; rw [k4.forked, k4.toStart]; exact h.fk

theorem step_drop_reject (t : Tree) (s : State) (o : Nat) (n : Int) (hn : n ≠ 0) (hlt : s.count o < n) :
    step t s (.drop o n) = if s.cleared then (s, []) else (s, [.fatal o]) := by
  simp only [step]
  rw [chain_cons t o]
  exact mDrop_reject s o _ n hn hlt

theorem inv_finish {t N s} (h : Inv t N s) (i : Nat) (r : Run) (hr : s.running[i]? = some r) (hnt : r.notified = true) :
    Inv t N (step t s (.finish i)).1 ∧ (∀ x, (step t s (.finish i)).1.count x = s.count x) ∧
    (∀ out ∈ (step t s (.finish i)).2, ∃ a m, out = .dropped a r.ctx.src m) := by
  have hmem := List.mem_of_getElem? hr
  have hal := h.alive r hmem
  have hcf : r.ctx ∈ s.fctx := by rw [← h.run]; exact List.mem_map.mpr ⟨r, hmem, rfl⟩
  have hcp : r.ctx ∈ pending s := by simp [pending, hcf]
  have hnd := nodup_fctx h.acc
  have hperm := perm_eraseP hcf hnd
  -- the state without the finished drain
  let s1 : State := { s with srcC := delZero s.srcC r.ctx.obj, tot := delZero s.tot r.ctx.obj }
  let s0 : State := { s1 with fctx := s.fctx.eraseP (·.obj == r.ctx.obj) }
  have ht : ∀ a, s0.total a = s.total a := by intro a; exact delZero_getD _ _ _
  have hcn : ∀ a, s0.count a = s.count a := by intro a; exact delZero_getD _ _ _
  have hpp : (pending s).Perm (r.ctx :: pending s0) := by
    simp only [pending, s0, s1]
    exact (List.Perm.append_left _ hperm).trans List.perm_middle
  have h' := h.acc.perm hpp
  have hinv : InvF t N s.count s0 (own s0 ++ (s0.forked ++ s0.fctx)) (chain t r.ctx.obj).tail (-r.ctx.count) := by
    rw [← pending_own]
    refine ⟨?_, ?_, ?_, fun c hc => h'.pos c (by simp [hc]), fun c hc => h'.anc c (by simp [hc])⟩
    · intro a
      have := h'.tot a
      rw [heldBelow_cons] at this
      rw [ht]
      simp only [List.not_mem_nil, if_false] at this
      by_cases ha : a ∈ (chain t r.ctx.obj).tail
      · simp only [ha, if_true] at this ⊢; omega
      · simp only [ha, if_false] at this ⊢; omega
    · have := h'.nodup; simp only [List.map_cons, List.nodup_cons] at this; exact this.2
    · intro c hc; rw [ht]; exact h'.zero c (by simp [hc])
  have hanc := h.acc.anc r.ctx hcp
  have hpos := h.acc.pos r.ctx hcp
  have hsrc : ∀ a ∈ (chain t r.ctx.obj).tail, a ∈ chain t r.ctx.src := by
    intro a ha; exact chain_trans (List.mem_of_mem_tail ha) hanc
  have hnot : r.ctx.src ∉ (chain t r.ctx.obj).tail := by
    intro hm
    have h1 := chain_le t _ _ (List.mem_of_mem_tail hm)
    have h2 := chain_le t _ _ hanc
    have : r.ctx.src = r.ctx.obj := by omega
    rw [this] at hm
    exact not_mem_tail t _ hm
  obtain ⟨k1, k2, k3, k4⟩ := mDrop_inv h.cnt (s0.forked ++ s0.fctx) r.ctx.src _ r.ctx.count s0 (isPath_tail t r.ctx.obj) (by omega) hinv hsrc (Or.inl hnot)
  -- the model's state
  have hmod : mDrop (chain t r.ctx.obj).tail r.ctx.src r.ctx.count s1 =
      ({ (mDrop (chain t r.ctx.obj).tail r.ctx.src r.ctx.count s0).1 with fctx := s.fctx }, (mDrop (chain t r.ctx.obj).tail r.ctx.src r.ctx.count s0).2) := by
    rw [← mDrop_fctx s.fctx]
  have e : step t s (.finish i) = ({ (mDrop (chain t r.ctx.obj).tail r.ctx.src r.ctx.count s0).1 with running := s.running.eraseIdx i },
      (mDrop (chain t r.ctx.obj).tail r.ctx.src r.ctx.count s0).2) := by
    simp only [step, hr, hnt, if_true, finish, hal]
    rw [show ({ s with srcC := delZero s.srcC r.ctx.obj, tot := delZero s.tot r.ctx.obj } : State) = s1 from rfl, hmod]
    simp only
    rw [show s.fctx.eraseP (·.obj == r.ctx.obj) = s0.fctx from rfl, ← k4.fctx, k4.running]
  generalize hs2 : mDrop (chain t r.ctx.obj).tail r.ctx.src r.ctx.count s0 = d at *
  have hcount : ∀ x, (step t s (.finish i)).1.count x = s.count x := by
    intro x
    rw [e]
    show d.1.count x = _
    rw [k2, hcn]
    simp [hnot]
  refine ⟨⟨?_, ?_, ?_, ?_, ?_⟩, hcount, ?_⟩
  · have : (step t s (.finish i)).1.count = s.count := funext hcount
    rw [this, e]
    have e3 : pending ({ d.1 with running := s.running.eraseIdx i } : State) = own d.1 ++ (s0.forked ++ s0.fctx) := by
      rw [← k4.forked, ← k4.fctx, ← pending_own]; rfl
    simp only
    rw [e3]
    exact InvF.state k1 (fun a => rfl)
  · intro x; rw [hcount]; exact h.cnt x
  · rw [e]
    simp only
    rw [k4.fctx]
    show _ = s.fctx.eraseP (·.obj == r.ctx.obj)
    rw [← h.run] at hnd ⊢
    exact (eraseP_running _ i r hr hnd).symm
  · rw [e]
    intro q hq
    exact h.alive q (List.mem_of_mem_eraseIdx hq)
  · rw [e]
    simp only
    rw [k4.forked, k4.toStart]; exact h.fk
  · rw [e]; exact k3

theorem Inv.congr {t N s s'} (h : Inv t N s) (h1 : s'.srcC = s.srcC) (h2 : s'.tot = s.tot) (h3 : (pending s).Perm (pending s'))
    (h4 : s'.running.map (·.ctx) = s'.fctx) (h5 : ∀ r ∈ s'.running, r.alive = true) (h6 : s'.forked.length ≤ s'.toStart) : Inv t N s' := by
  have hc : s'.count = s.count := by funext x; simp [State.count, h1]
  refine ⟨?_, ?_, h4, h5, h6⟩
  · rw [hc]
    exact InvF.state (h.acc.perm h3) (fun a => by simp [State.total, h2])
  · intro o; rw [hc]; exact h.cnt o

/-- Every allowed call and step keeps the invariant and changes the source counts as specified. -/
theorem inv_step {t N s} (h : Inv t N s) (op : Op) (ha : Allowed t N s op) :
    Inv t N (step t s op).1 ∧ (step t s op).1.count = specCount s.count op := by
  cases op with
  | raise o n =>
    obtain ⟨h1, h2, _⟩ := inv_raise h o n ha.1 ha.2.1 ha.2.2
    refine ⟨h1, funext fun x => ?_⟩
    rw [h2]
    simp only [specCount]
    split
    · next e => rw [e]
    · omega
  | drop o n =>
    by_cases hle : n ≤ s.count o
    · obtain ⟨h1, h2, _⟩ := inv_drop h o n ha.1 ha.2 hle
      refine ⟨h1, funext fun x => ?_⟩
      rw [h2]
      simp only [specCount, hle, and_true]
      split
      · next e => rw [e]
      · omega
    · have hn : n ≠ 0 := by have := h.cnt o; omega
      rw [step_drop_reject t s o n hn (by omega)]
      have hs : (if s.cleared = true then (s, []) else (s, [Out.fatal o])).1 = s := by split <;> rfl
      rw [hs]
      exact ⟨h, by funext x; simp [specCount, hle]⟩
  | clear =>
    obtain ⟨h1, h2⟩ := ha
    have hr : s.running = [] := by
      have := h.run; rw [h2] at this; simpa using this
    have hown : (s.sched.filter (·.isNone)).filterMap id = [] := by
      rw [List.filterMap_eq_nil_iff]
      intro x hx
      have := (List.mem_filter.mp hx).2
      cases x with
      | none => rfl
      | some c => simp at this
    have e : (step t s .clear).1 = { s with srcC := fun _ => none, tot := fun _ => none, sched := s.sched.filter (·.isNone), topAllDropped := false, cleared := true } := by
      simp [step, clear, h1, h2]
    have hc : (step t s .clear).1.count = fun _ => 0 := by rw [e]; funext x; rfl
    refine ⟨?_, hc⟩
    have hp : pending (step t s .clear).1 = pending {} := by
      rw [e]; simp [pending, h1, h2, hown]
    have h0 := inv_init t N
    refine ⟨?_, ?_, ?_, ?_, ?_⟩
    · rw [hc, hp]
      exact InvF.state h0.acc (fun a => by rw [e]; rfl)
    · intro o; rw [hc]; exact Int.le_refl 0
    · rw [e]; simp [hr, h2]
    · rw [e]; simp [hr]
    · rw [e]; simp [h1]
  | foreign =>
    refine ⟨?_, rfl⟩
    refine h.congr rfl rfl ?_ h.run h.alive h.fk
    simp [step, pending, List.filterMap_append]
  | foreignRemove i =>
    clear ha
    simp only [step]
    split
    · next hi =>
      refine ⟨?_, rfl⟩
      refine h.congr rfl rfl ?_ h.run h.alive h.fk
      have : (s.sched.eraseIdx i).filterMap id = s.sched.filterMap id := by
        generalize s.sched = l at hi
        induction l generalizing i with
        | nil => simp at hi
        | cons x l ih =>
          cases i with
          | zero => simp at hi; subst hi; simp
          | succ i => simp at hi; simp only [List.eraseIdx_cons_succ, List.filterMap_cons, ih i hi]
      simp [pending, this]
    · exact ⟨h, rfl⟩
  | bg =>
    simp only [step]
    split
    · cases hs : s.sched with
      | nil =>
        refine ⟨?_, rfl⟩
        exact h.congr rfl rfl (by simp [pending, hs]) h.run h.alive h.fk
      | cons x q =>
        cases x with
        | none =>
          refine ⟨?_, rfl⟩
          exact h.congr rfl rfl (by simp [pending, hs]) h.run h.alive h.fk
        | some c =>
          refine ⟨?_, rfl⟩
          refine h.congr rfl rfl ?_ h.run h.alive (by have := h.fk; simp; omega)
          simp only [pending, hs, List.filterMap_cons, id, List.append_assoc, List.cons_append, List.nil_append]
          refine List.Perm.trans ?_ (List.Perm.append_left _ List.perm_middle.symm)
          exact List.perm_middle.symm
    · exact ⟨h, rfl⟩
  | start =>
    simp only [step]
    split
    · exact ⟨h, rfl⟩
    · next hts =>
      cases hf : s.forked with
      | nil =>
        refine ⟨?_, rfl⟩
        exact h.congr rfl rfl (by simp [pending, hf]) h.run h.alive (by simp [hf])
      | cons c q =>
        refine ⟨?_, rfl⟩
        have hnd := h.acc.nodup
        have hfil : s.fctx.filter (fun d => d.obj != c.obj) = s.fctx := by
          rw [List.filter_eq_self]
          intro d hd
          simp only [pending, hf, List.map_append, List.map_cons] at hnd
          have := (List.nodup_append.mp hnd).2.2 c.obj (by simp) d.obj (List.mem_map.mpr ⟨d, hd, rfl⟩)
          simpa using Ne.symm this
        refine h.congr rfl rfl ?_ ?_ ?_ ?_
        · simp only [pending, hf, hfil, List.append_assoc, List.cons_append]
          apply List.Perm.append_left
          rw [← List.append_assoc q]
          exact (List.perm_append_singleton c (q ++ s.fctx)).symm
        · simp only [List.map_append, List.map_cons, List.map_nil, hfil, h.run]
        · intro r hr
          rcases List.mem_append.mp hr with hr | hr
          · exact h.alive r hr
          · simp at hr; rw [hr]
        · have := h.fk; rw [hf] at this; simp at this ⊢; omega
  | notify i =>
    simp only [step]
    cases hr : s.running[i]? with
    | none => exact ⟨h, rfl⟩
    | some r =>
      simp only
      split
      · exact ⟨h, rfl⟩
      · refine ⟨?_, rfl⟩
        refine h.congr rfl rfl (List.Perm.refl _) ?_ ?_ h.fk
        · show (s.running.set i { r with notified := true }).map (·.ctx) = s.fctx
          rw [List.map_set, ← h.run]
          apply List.ext_getElem?
          intro j
          rw [List.getElem?_set]
          split
          · next e =>
            subst e
            rw [List.getElem?_map, hr]
            simp
            have := (List.getElem?_eq_some_iff.mp hr).1
            exact this
          · rfl
        · intro q hq
          rcases List.mem_or_eq_of_mem_set hq with hq | hq
          · exact h.alive q hq
          · rw [hq]; exact h.alive r (List.mem_of_getElem? hr)
  | finish i =>
    cases hr : s.running[i]? with
    | none =>
      have : step t s (.finish i) = (s, []) := by simp [step, hr]
      rw [this]; exact ⟨h, rfl⟩
    | some r =>
      by_cases hn : r.notified = true
      · obtain ⟨h1, h2, _⟩ := inv_finish h i r hr hn
        exact ⟨h1, funext h2⟩
      · have : step t s (.finish i) = (s, []) := by simp [step, hr, hn]
        rw [this]; exact ⟨h, rfl⟩

theorem inv_reach {t N ops s} (h : Reach t N ops s) : Inv t N s ∧ s.count = ops.foldl specCount (fun _ => 0) := by
  induction h with
  | nil => exact ⟨inv_init t N, by funext x; rfl⟩
  | snoc _ ha ih =>
    obtain ⟨h1, h2⟩ := inv_step ih.1 _ ha
    refine ⟨h1, ?_⟩
    rw [h2, ih.2, List.foldl_append]; rfl

end Verif.Objection
