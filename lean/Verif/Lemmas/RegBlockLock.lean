import Verif.Lemmas.RegBlock
namespace Verif.RegBlock

/-- The same tree, apart from what is locked. -/
structure SameTree (s t : State) : Prop where
  blk : ∀ x, (t.blk x).regs = (s.blk x).regs ∧ (t.blk x).mems = (s.blk x).mems ∧ (t.blk x).blks = (s.blk x).blks ∧
    (t.blk x).parent = (s.blk x).parent ∧ (t.blk x).name = (s.blk x).name
  next : t.next = s.next
  roots : t.roots = s.roots
  regName : t.regName = s.regName

theorem SameTree.refl (s : State) : SameTree s s := ⟨fun _ => ⟨rfl, rfl, rfl, rfl, rfl⟩, rfl, rfl, rfl⟩

theorem SameTree.trans {s t u : State} (h : SameTree s t) (g : SameTree t u) : SameTree s u :=
  ⟨fun x => ⟨(g.blk x).1.trans (h.blk x).1, (g.blk x).2.1.trans (h.blk x).2.1, (g.blk x).2.2.1.trans (h.blk x).2.2.1,
    (g.blk x).2.2.2.1.trans (h.blk x).2.2.2.1, (g.blk x).2.2.2.2.trans (h.blk x).2.2.2.2⟩,
   g.next.trans h.next, g.roots.trans h.roots, g.regName.trans h.regName⟩

theorem below_of {s t : State} {b x : Nat} (h : ∀ y, Below s b y → ∀ z ∈ (s.blk y).blks, z ∈ (t.blk y).blks) (hb : Below s b x) : Below t b x := by
  induction hb with
  | refl => exact .refl
  | sub hy hx ih => exact ih.sub (h _ hy _ hx)

theorem SameTree.below {s t : State} (h : SameTree s t) {b x : Nat} : Below t b x ↔ Below s b x :=
  ⟨below_of fun y _ z hz => by rw [← (h.blk y).2.2.1]; exact hz, below_of fun y _ z hz => by rw [(h.blk y).2.2.1]; exact hz⟩

/-- `t` is `s` with exactly the blocks of `X` and their contents locked in addition. -/
structure Locks (s t : State) (X : Nat → Prop) : Prop where
  same : SameTree s t
  blk : ∀ x, (t.blk x).locked = true ↔ (s.blk x).locked = true ∨ X x
  reg : ∀ r, t.regLocked r = true ↔ s.regLocked r = true ∨ ∃ x, X x ∧ r ∈ (s.blk x).regs
  mem : ∀ r, t.memLocked r = true ↔ s.memLocked r = true ∨ ∃ x, X x ∧ r ∈ (s.blk x).mems

theorem Locks.congr {s t : State} {X Y : Nat → Prop} (h : Locks s t X) (hxy : ∀ x, X x ↔ Y x) : Locks s t Y := by
  have : X = Y := funext fun x => propext (hxy x)
  rw [← this]; exact h

theorem Locks.nil (s : State) : Locks s s (fun _ => False) :=
  ⟨SameTree.refl s, fun x => by simp, fun r => by simp, fun r => by simp⟩

theorem Locks.trans {s t u : State} {X Y : Nat → Prop} (h : Locks s t X) (g : Locks t u Y) : Locks s u (fun x => X x ∨ Y x) := by
  refine ⟨h.same.trans g.same, fun x => ?_, fun r => ?_, fun r => ?_⟩
  · rw [g.blk, h.blk]; exact or_assoc
  · rw [g.reg, h.reg, or_assoc]
    refine or_congr Iff.rfl ⟨?_, ?_⟩
    · rintro (⟨x, hx, hr⟩ | ⟨x, hx, hr⟩)
      · exact ⟨x, .inl hx, hr⟩
      · exact ⟨x, .inr hx, by rw [← (h.same.blk x).1]; exact hr⟩
    · rintro ⟨x, hx | hx, hr⟩
      · exact .inl ⟨x, hx, hr⟩
      · exact .inr ⟨x, hx, by rw [(h.same.blk x).1]; exact hr⟩
  · rw [g.mem, h.mem, or_assoc]
    refine or_congr Iff.rfl ⟨?_, ?_⟩
    · rintro (⟨x, hx, hr⟩ | ⟨x, hx, hr⟩)
      · exact ⟨x, .inl hx, hr⟩
      · exact ⟨x, .inr hx, by rw [← (h.same.blk x).2.1]; exact hr⟩
    · rintro ⟨x, hx | hx, hr⟩
      · exact .inl ⟨x, hx, hr⟩
      · exact .inr ⟨x, hx, by rw [(h.same.blk x).2.1]; exact hr⟩

/-- Locking a set of blocks that is closed downwards keeps closed blocks closed. -/
theorem Locks.closed {s t : State} {X : Nat → Prop} (h : Locks s t X) (hX : ∀ x, X x → ∀ c ∈ (s.blk x).blks, X c) {x : Nat}
    (hc : ClosedAt s x) : ClosedAt t x := by
  intro hl
  rw [h.blk] at hl
  obtain ⟨e1, e2, e3, _⟩ := h.same.blk x
  rw [e1, e2, e3]
  rcases hl with hl | hl
  · obtain ⟨g1, g2, g3⟩ := hc hl
    exact ⟨fun c hc => (h.blk c).mpr (.inl (g1 c hc)), fun r hr => (h.reg r).mpr (.inl (g2 r hr)), fun r hr => (h.mem r).mpr (.inl (g3 r hr))⟩
  · exact ⟨fun c hc => (h.blk c).mpr (.inr (hX x hl c hc)), fun r hr => (h.reg r).mpr (.inr ⟨x, hl, hr⟩),
      fun r hr => (h.mem r).mpr (.inr ⟨x, hl, hr⟩)⟩

theorem closed_below {s : State} {b : Nat} (hc : ∀ x, Below s b x → ClosedAt s x) (hl : (s.blk b).locked = true) :
    ∀ x, Below s b x → (s.blk x).locked = true := by
  intro x hx
  induction hx with
  | refl => exact hl
  | sub hy hz ih => exact (hc _ hy ih).1 _ hz

theorem lock_spec (rank : Nat → Nat) : ∀ m (s : State), (∀ b, ∀ c ∈ (s.blk b).blks, rank c < rank b) → ∀ b, rank b < m →
    (∀ x, Below s b x → ClosedAt s x) → ∃ t, lock m s b = some t ∧ Locks s t (Below s b) := by
  intro m
  induction m with
  | zero => intro s _ b hb; omega
  | succ m ih =>
    intro s hr b hb hcl
    by_cases hl : (s.blk b).locked = true
    · refine ⟨s, by simp [lock, hl], SameTree.refl s, fun x => ⟨.inl, ?_⟩, fun r => ⟨.inl, ?_⟩, fun r => ⟨.inl, ?_⟩⟩
      · rintro (h | h)
        · exact h
        · exact closed_below hcl hl x h
      · rintro (h | ⟨x, hx, hr⟩)
        · exact h
        · exact (hcl x hx (closed_below hcl hl x hx)).2.1 r hr
      · rintro (h | ⟨x, hx, hr⟩)
        · exact h
        · exact (hcl x hx (closed_below hcl hl x hx)).2.2 r hr
    · -- the state in which the loop over the sub-blocks starts
      let s0 : State := lockItems { s with blk := upd s.blk b { s.blk b with locked := true } } b
      have h0 : Locks s s0 (fun x => x = b) := by
        refine ⟨⟨fun x => ?_, rfl, rfl, rfl⟩, fun x => ?_, fun r => ?_, fun r => ?_⟩
        · show ((upd s.blk b { s.blk b with locked := true } x).regs = _ ∧ (upd s.blk b { s.blk b with locked := true } x).mems = _ ∧
            (upd s.blk b { s.blk b with locked := true } x).blks = _ ∧ (upd s.blk b { s.blk b with locked := true } x).parent = _ ∧
            (upd s.blk b { s.blk b with locked := true } x).name = _)
          by_cases hx : x = b
          · subst hx; simp
          · rw [upd_ne _ _ hx]; exact ⟨rfl, rfl, rfl, rfl, rfl⟩
        · show (upd s.blk b { s.blk b with locked := true } x).locked = true ↔ _
          by_cases hx : x = b
          · subst hx; simp
          · rw [upd_ne _ _ hx]; simp [hx]
        · simp [s0, lockItems]
        · simp [s0, lockItems]
      have hloop : ∀ cs : List Nat, (∀ c ∈ cs, c ∈ (s.blk b).blks) → ∀ t0, SameTree s t0 →
          (∀ x, (∃ c ∈ cs, Below s c x) → ClosedAt t0 x) →
          ∃ t, cs.foldlM (fun s c => lock m s c) t0 = some t ∧ Locks t0 t (fun x => ∃ c ∈ cs, Below s c x) := by
        intro cs
        induction cs with
        | nil =>
          intro _ t0 _ _
          exact ⟨t0, rfl, (Locks.nil t0).congr fun x => by simp⟩
        | cons c cs ih2 =>
          intro hcs t0 hst hcl0
          have hrc := hr b c (hcs c List.mem_cons_self)
          have hrt : ∀ b, ∀ c ∈ (t0.blk b).blks, rank c < rank b := by
            intro b c hc; rw [(hst.blk b).2.2.1] at hc; exact hr b c hc
          obtain ⟨t1, e1, l1⟩ := ih t0 hrt c (by omega) fun x hx => hcl0 x ⟨c, List.mem_cons_self, hst.below.mp hx⟩
          have hdown : ∀ x, Below t0 c x → ∀ d ∈ (t0.blk x).blks, Below t0 c d := fun x hx d hd => hx.sub hd
          obtain ⟨t2, e2, l2⟩ := ih2 (fun x hx => hcs x (List.mem_cons_of_mem _ hx)) t1 (hst.trans l1.same)
            (fun x hx => l1.closed hdown (hcl0 x (by obtain ⟨d, hd, h⟩ := hx; exact ⟨d, List.mem_cons_of_mem _ hd, h⟩)))
          refine ⟨t2, ?_, (l1.trans l2).congr fun x => ?_⟩
          · rw [List.foldlM_cons, e1]; exact e2
          · rw [hst.below]; simp
      have hdown0 : ∀ x, (∃ c ∈ (s.blk b).blks, Below s c x) → ClosedAt s0 x := by
        rintro x ⟨c, hc, hx⟩ hl'
        obtain ⟨e1, e2, e3, _⟩ := h0.same.blk x
        have hne : x ≠ b := by
          rintro rfl
          have := rank_below hr hx
          have := hr _ _ hc
          omega
        rw [h0.blk] at hl'
        have hlx := hl'.resolve_right hne
        obtain ⟨g1, g2, g3⟩ := hcl x (below_cons hc hx) hlx
        rw [e1, e2, e3]
        exact ⟨fun c hc => (h0.blk c).mpr (.inl (g1 c hc)), fun r hr => (h0.reg r).mpr (.inl (g2 r hr)), fun r hr => (h0.mem r).mpr (.inl (g3 r hr))⟩
      obtain ⟨t, e, l⟩ := hloop _ (fun _ h => h) s0 h0.same hdown0
      refine ⟨t, ?_, (h0.trans l).congr fun x => below_iff.symm⟩
      simp only [lock, hl, if_false, Bool.false_eq_true]
      exact e

theorem sameTree_tree {s t : State} (h : Tree s) (e : SameTree s t) (hl : ∀ b, s.next ≤ b → (t.blk b).locked = false) : Tree t := by
  have er : ∀ x, (t.blk x).regs = (s.blk x).regs := fun x => (e.blk x).1
  have em : ∀ x, (t.blk x).mems = (s.blk x).mems := fun x => (e.blk x).2.1
  have eb : ∀ x, (t.blk x).blks = (s.blk x).blks := fun x => (e.blk x).2.2.1
  have ep : ∀ x, (t.blk x).parent = (s.blk x).parent := fun x => (e.blk x).2.2.2.1
  refine ⟨?_, ?_, ?_, ?_, ?_, ?_, ?_, ?_, ?_, ?_, ?_, ?_⟩
  · obtain ⟨rank, hr⟩ := h.rank
    exact ⟨rank, fun b c hc => hr b c (by rw [← eb]; exact hc)⟩
  · intro b b' c; rw [eb, eb]; exact h.one b b' c
  · intro b; rw [eb]; exact h.nodup b
  · intro b b' c; rw [er, er]; exact h.regs b b' c
  · intro b; rw [er]; exact h.regsN b
  · intro b b' c; rw [em, em]; exact h.mems b b' c
  · intro b; rw [em]; exact h.memsN b
  · intro b hb
    rw [e.next] at hb
    have := h.fresh b hb
    have h1 : (s.blk b).regs = [] := by rw [this]
    have h2 : (s.blk b).mems = [] := by rw [this]
    have h3 : (s.blk b).blks = [] := by rw [this]
    have h4 := hl b hb
    rw [← er] at h1; rw [← em] at h2; rw [← eb] at h3
    cases hx : t.blk b
    rw [hx] at h1 h2 h3 h4
    simp only at h1 h2 h3 h4
    simp only [h1, h2, h3, h4]
  · intro b c; rw [eb, e.next]; exact h.made b c
  · intro b c; rw [eb, ep]; exact h.parent b c
  · intro x; rw [e.roots, e.next, h.roots]; simp only [eb]
  · rw [e.roots]; exact h.rootsN

/-- What is kept along a legal history. -/
structure Good (s : State) : Prop where
  tree : Tree s
  closed : ∀ x, ClosedAt s x

theorem good_init (f : Nat → String) : Good (init f) := by
  refine ⟨⟨⟨fun _ => 0, ?_⟩, ?_, ?_, ?_, ?_, ?_, ?_, ?_, ?_, ?_, ?_, ?_⟩, ?_⟩ <;> simp [init, ClosedAt]

theorem fresh_fields {s : State} (h : Tree s) {b : Nat} (hb : s.next ≤ b) :
    (s.blk b).regs = [] ∧ (s.blk b).mems = [] ∧ (s.blk b).blks = [] ∧ (s.blk b).locked = false := by
  rw [h.fresh b hb]; exact ⟨rfl, rfl, rfl, rfl⟩

theorem good_new {s : State} (h : Good s) (name : String) : Good (new s name) := by
  have hf := fresh_fields h.tree (Nat.le_refl s.next)
  have eb : ∀ x, ((new s name).blk x).blks = (s.blk x).blks := by
    intro x
    by_cases hx : x = s.next
    · subst hx; simp [new, hf]
    · simp [new, upd_ne _ _ hx]
  have er : ∀ x, ((new s name).blk x).regs = (s.blk x).regs := by
    intro x
    by_cases hx : x = s.next
    · subst hx; simp [new, hf]
    · simp [new, upd_ne _ _ hx]
  have em : ∀ x, ((new s name).blk x).mems = (s.blk x).mems := by
    intro x
    by_cases hx : x = s.next
    · subst hx; simp [new, hf]
    · simp [new, upd_ne _ _ hx]
  have el : ∀ x, ((new s name).blk x).locked = (s.blk x).locked := by
    intro x
    by_cases hx : x = s.next
    · subst hx; simp [new, hf]
    · simp [new, upd_ne _ _ hx]
  have h' := h.tree
  refine ⟨⟨?_, ?_, ?_, ?_, ?_, ?_, ?_, ?_, ?_, ?_, ?_, ?_⟩, ?_⟩
  · obtain ⟨rank, hr⟩ := h'.rank
    exact ⟨rank, fun b c hc => hr b c (by rw [← eb]; exact hc)⟩
  · intro b b' c; rw [eb, eb]; exact h'.one b b' c
  · intro b; rw [eb]; exact h'.nodup b
  · intro b b' c; rw [er, er]; exact h'.regs b b' c
  · intro b; rw [er]; exact h'.regsN b
  · intro b b' c; rw [em, em]; exact h'.mems b b' c
  · intro b; rw [em]; exact h'.memsN b
  · intro b hb
    have hb : s.next + 1 ≤ b := hb
    have hne : b ≠ s.next := by omega
    have := h'.fresh b (by omega)
    simp only [new, upd_ne _ _ hne]; exact this
  · intro b c hc; rw [eb] at hc
    have := h'.made b c hc
    show c < s.next + 1
    omega
  · intro b c hc; rw [eb] at hc
    have := h'.made b c hc
    have hne : c ≠ s.next := by omega
    simp only [new, upd_ne _ _ hne]; exact h'.parent b c hc
  · intro x
    simp only [eb]
    show x ∈ s.roots ++ [s.next] ↔ x < s.next + 1 ∧ _
    rw [List.mem_append, h'.roots, List.mem_singleton]
    constructor
    · rintro (⟨h1, h2⟩ | rfl)
      · exact ⟨by omega, h2⟩
      · exact ⟨by omega, fun b hb => by have := h'.made b _ hb; omega⟩
    · rintro ⟨h1, h2⟩
      by_cases hx : x = s.next
      · exact .inr hx
      · exact .inl ⟨by omega, h2⟩
  · show (s.roots ++ [s.next]).Nodup
    rw [List.nodup_append]
    refine ⟨h'.rootsN, by simp, ?_⟩
    intro a ha b hb hab
    rw [List.mem_singleton] at hb
    have := ((h'.roots a).mp ha).1
    omega
  · intro x hl
    rw [el] at hl
    rw [eb, er, em]
    obtain ⟨g1, g2, g3⟩ := h.closed x hl
    exact ⟨fun c hc => by rw [el]; exact g1 c hc, g2, g3⟩

/-- Setting the parent of a block that has no place yet. -/
theorem good_parent {s : State} (h : Good s) (c : Nat) (p : Option Nat) (hc : ∀ b, c ∉ (s.blk b).blks) :
    Good { s with blk := upd s.blk c { s.blk c with parent := p } } := by
  have h' := h.tree
  generalize hs : ({ s with blk := upd s.blk c { s.blk c with parent := p } } : State) = t
  have eb : ∀ x, (t.blk x).blks = (s.blk x).blks := by
    intro x; subst hs
    by_cases hx : x = c
    · subst hx; simp
    · simp [upd_ne _ _ hx]
  have er : ∀ x, (t.blk x).regs = (s.blk x).regs := by
    intro x; subst hs
    by_cases hx : x = c
    · subst hx; simp
    · simp [upd_ne _ _ hx]
  have em : ∀ x, (t.blk x).mems = (s.blk x).mems := by
    intro x; subst hs
    by_cases hx : x = c
    · subst hx; simp
    · simp [upd_ne _ _ hx]
  have el : ∀ x, (t.blk x).locked = (s.blk x).locked := by
    intro x; subst hs
    by_cases hx : x = c
    · subst hx; simp
    · simp [upd_ne _ _ hx]
  have en : t.next = s.next := by subst hs; rfl
  have eo : t.roots = s.roots := by subst hs; rfl
  have e1 : t.regLocked = s.regLocked := by subst hs; rfl
  have e2 : t.memLocked = s.memLocked := by subst hs; rfl
  refine ⟨⟨?_, ?_, ?_, ?_, ?_, ?_, ?_, ?_, ?_, ?_, ?_, ?_⟩, ?_⟩
  · obtain ⟨rank, hr⟩ := h'.rank
    exact ⟨rank, fun b c hc => hr b c (by rw [← eb]; exact hc)⟩
  · intro b b' c; rw [eb, eb]; exact h'.one b b' c
  · intro b; rw [eb]; exact h'.nodup b
  · intro b b' c; rw [er, er]; exact h'.regs b b' c
  · intro b; rw [er]; exact h'.regsN b
  · intro b b' c; rw [em, em]; exact h'.mems b b' c
  · intro b; rw [em]; exact h'.memsN b
  · intro b hb
    rw [en] at hb
    obtain ⟨f1, f2, f3, f4⟩ := fresh_fields h' hb
    rw [← er] at f1; rw [← em] at f2; rw [← eb] at f3; rw [← el] at f4
    cases hx : t.blk b
    rw [hx] at f1 f2 f3 f4
    simp only at f1 f2 f3 f4
    simp only [f1, f2, f3, f4]
  · intro b x hx; rw [eb] at hx; rw [en]; exact h'.made b x hx
  · intro b x hx; rw [eb] at hx
    have hne : x ≠ c := by rintro rfl; exact hc b hx
    subst hs
    simp only [upd_ne _ _ hne]; exact h'.parent b x hx
  · intro x; rw [eo, en, h'.roots]; simp only [eb]
  · rw [eo]; exact h'.rootsN
  · intro x hl
    rw [el] at hl
    rw [eb, er, em, e1, e2]
    obtain ⟨g1, g2, g3⟩ := h.closed x hl
    exact ⟨fun c hc => by rw [el]; exact g1 c hc, g2, g3⟩

theorem good_addBlock {s : State} (h : Good s) (p c : Nat) (hp : p < s.next) (hcn : c < s.next) (hc : ∀ b, c ∉ (s.blk b).blks)
    (hpar : (s.blk c).parent = some p) (hnb : ¬ Below s c p) : Good (addBlock s p c).1 := by
  have h' := h.tree
  unfold addBlock
  by_cases hl : (s.blk p).locked = true
  · rw [if_pos hl]; exact h
  rw [if_neg hl, if_neg (hc p)]
  simp only
  generalize hs : ({ s with blk := upd s.blk p { s.blk p with blks := (s.blk p).blks ++ [c] }, roots := s.roots.filter (· ≠ c) } : State) = t
  have eb : ∀ x, (t.blk x).blks = (s.blk x).blks ++ if x = p then [c] else [] := by
    intro x; subst hs
    by_cases hx : x = p
    · subst hx; simp
    · simp [upd_ne _ _ hx, hx]
  have er : ∀ x, (t.blk x).regs = (s.blk x).regs := by
    intro x; subst hs
    by_cases hx : x = p
    · subst hx; simp
    · simp [upd_ne _ _ hx]
  have em : ∀ x, (t.blk x).mems = (s.blk x).mems := by
    intro x; subst hs
    by_cases hx : x = p
    · subst hx; simp
    · simp [upd_ne _ _ hx]
  have el : ∀ x, (t.blk x).locked = (s.blk x).locked := by
    intro x; subst hs
    by_cases hx : x = p
    · subst hx; simp
    · simp [upd_ne _ _ hx]
  have ep : ∀ x, (t.blk x).parent = (s.blk x).parent := by
    intro x; subst hs
    by_cases hx : x = p
    · subst hx; simp
    · simp [upd_ne _ _ hx]
  have hmem : ∀ b x, x ∈ (t.blk b).blks ↔ x ∈ (s.blk b).blks ∨ (b = p ∧ x = c) := by
    intro b x; rw [eb, List.mem_append]
    by_cases hb : b = p <;> simp [hb]
  have en : t.next = s.next := by subst hs; rfl
  have e1 : t.regLocked = s.regLocked := by subst hs; rfl
  have e2 : t.memLocked = s.memLocked := by subst hs; rfl
  refine ⟨⟨?_, ?_, ?_, ?_, ?_, ?_, ?_, ?_, ?_, ?_, ?_, ?_⟩, ?_⟩
  · obtain ⟨rank, hr⟩ := h'.rank
    refine ⟨fun x => by classical exact if Below s x p then rank x + rank c + 1 else rank x, ?_⟩
    intro b x hx
    rcases (hmem b x).mp hx with hx | ⟨rfl, rfl⟩
    · have := hr b x hx
      by_cases h1 : Below s x p
      · have h2 : Below s b p := below_cons hx h1
        simp only [h1, h2, if_true]; omega
      · by_cases h2 : Below s b p
        · simp only [h1, h2, if_true, if_false]; omega
        · simp only [h1, h2, if_false]; exact this
    · have h2 : Below s b b := .refl
      simp only [hnb, h2, if_true, if_false]; omega
  · intro b b' x hx hx'
    rcases (hmem b x).mp hx with hx | ⟨hb, hxc⟩ <;> rcases (hmem b' x).mp hx' with hx' | ⟨hb', hxc'⟩
    · exact h'.one _ _ _ hx hx'
    · rw [hxc'] at hx; exact absurd hx (hc b)
    · rw [hxc] at hx'; exact absurd hx' (hc b')
    · rw [hb, hb']
  · intro b; rw [eb]
    by_cases hb : b = p
    · simp only [hb, if_true]
      rw [List.nodup_append]
      refine ⟨h'.nodup p, by simp, ?_⟩
      intro a ha y hy hay
      rw [List.mem_singleton] at hy
      subst hay; subst hy
      exact hc p ha
    · simp [hb, h'.nodup b]
  · intro b b' c; rw [er, er]; exact h'.regs b b' c
  · intro b; rw [er]; exact h'.regsN b
  · intro b b' c; rw [em, em]; exact h'.mems b b' c
  · intro b; rw [em]; exact h'.memsN b
  · intro b hb
    rw [en] at hb
    have hne : b ≠ p := by omega
    obtain ⟨f1, f2, f3, f4⟩ := fresh_fields h' hb
    have f3' : (t.blk b).blks = [] := by rw [eb, f3]; simp [hne]
    rw [← er] at f1; rw [← em] at f2; rw [← el] at f4
    cases hx : t.blk b
    rw [hx] at f1 f2 f3' f4
    simp only at f1 f2 f3' f4
    simp only [f1, f2, f3', f4]
  · intro b x hx; rw [en]
    rcases (hmem b x).mp hx with hx | ⟨rfl, rfl⟩
    · exact h'.made b x hx
    · exact hcn
  · intro b x hx; rw [ep]
    rcases (hmem b x).mp hx with hx | ⟨rfl, rfl⟩
    · exact h'.parent b x hx
    · exact hpar
  · intro x
    have : t.roots = s.roots.filter (· ≠ c) := by subst hs; rfl
    rw [this, List.mem_filter, h'.roots, en]
    simp only [hmem, decide_eq_true_eq, ne_eq]
    constructor
    · rintro ⟨⟨h1, h2⟩, h3⟩
      exact ⟨h1, fun b hb => hb.elim (h2 b) (fun h => h3 h.2)⟩
    · rintro ⟨h1, h2⟩
      exact ⟨⟨h1, fun b hb => h2 b (.inl hb)⟩, fun hx => h2 p (.inr ⟨rfl, hx⟩)⟩
  · have : t.roots = s.roots.filter (· ≠ c) := by subst hs; rfl
    rw [this]; exact h'.rootsN.filter _
  · intro x hl'
    rw [el] at hl'
    have hne : x ≠ p := by rintro rfl; exact hl hl'
    rw [eb, er, em, e1, e2, if_neg hne, List.append_nil]
    obtain ⟨g1, g2, g3⟩ := h.closed x hl'
    exact ⟨fun c hc => by rw [el]; exact g1 c hc, g2, g3⟩

theorem good_addReg {s : State} (h : Good s) (p r : Nat) (hp : p < s.next) (hr : ∀ b, r ∉ (s.blk b).regs) : Good (addReg s p r).1 := by
  have h' := h.tree
  unfold addReg
  by_cases hl : (s.blk p).locked = true
  · rw [if_pos hl]; exact h
  rw [if_neg hl, if_neg (hr p)]
  simp only
  generalize hs : ({ s with blk := upd s.blk p { s.blk p with regs := (s.blk p).regs ++ [r] } } : State) = t
  have er : ∀ x, (t.blk x).regs = (s.blk x).regs ++ if x = p then [r] else [] := by
    intro x; subst hs
    by_cases hx : x = p
    · subst hx; simp
    · simp [upd_ne _ _ hx, hx]
  have eb : ∀ x, (t.blk x).blks = (s.blk x).blks := by
    intro x; subst hs
    by_cases hx : x = p
    · subst hx; simp
    · simp [upd_ne _ _ hx]
  have em : ∀ x, (t.blk x).mems = (s.blk x).mems := by
    intro x; subst hs
    by_cases hx : x = p
    · subst hx; simp
    · simp [upd_ne _ _ hx]
  have el : ∀ x, (t.blk x).locked = (s.blk x).locked := by
    intro x; subst hs
    by_cases hx : x = p
    · subst hx; simp
    · simp [upd_ne _ _ hx]
  have ep : ∀ x, (t.blk x).parent = (s.blk x).parent := by
    intro x; subst hs
    by_cases hx : x = p
    · subst hx; simp
    · simp [upd_ne _ _ hx]
  have hmem : ∀ b x, x ∈ (t.blk b).regs ↔ x ∈ (s.blk b).regs ∨ (b = p ∧ x = r) := by
    intro b x; rw [er, List.mem_append]
    by_cases hb : b = p <;> simp [hb]
  have en : t.next = s.next := by subst hs; rfl
  have eo : t.roots = s.roots := by subst hs; rfl
  have e1 : t.regLocked = s.regLocked := by subst hs; rfl
  have e2 : t.memLocked = s.memLocked := by subst hs; rfl
  refine ⟨⟨?_, ?_, ?_, ?_, ?_, ?_, ?_, ?_, ?_, ?_, ?_, ?_⟩, ?_⟩
  · obtain ⟨rank, hr⟩ := h'.rank
    exact ⟨rank, fun b c hc => hr b c (by rw [← eb]; exact hc)⟩
  · intro b b' c; rw [eb, eb]; exact h'.one b b' c
  · intro b; rw [eb]; exact h'.nodup b
  · intro b b' x hx hx'
    rcases (hmem b x).mp hx with hx | ⟨hb, hxc⟩ <;> rcases (hmem b' x).mp hx' with hx' | ⟨hb', hxc'⟩
    · exact h'.regs _ _ _ hx hx'
    · rw [hxc'] at hx; exact absurd hx (hr b)
    · rw [hxc] at hx'; exact absurd hx' (hr b')
    · rw [hb, hb']
  · intro b; rw [er]
    by_cases hb : b = p
    · simp only [hb, if_true]
      rw [List.nodup_append]
      refine ⟨h'.regsN p, by simp, ?_⟩
      intro a ha y hy hay
      rw [List.mem_singleton] at hy
      subst hay; subst hy
      exact hr p ha
    · simp [hb, h'.regsN b]
  · intro b b' c; rw [em, em]; exact h'.mems b b' c
  · intro b; rw [em]; exact h'.memsN b
  · intro b hb
    rw [en] at hb
    have hne : b ≠ p := by omega
    obtain ⟨f1, f2, f3, f4⟩ := fresh_fields h' hb
    have f1' : (t.blk b).regs = [] := by rw [er, f1]; simp [hne]
    rw [← eb] at f3; rw [← em] at f2; rw [← el] at f4
    cases hx : t.blk b
    rw [hx] at f1' f2 f3 f4
    simp only at f1' f2 f3 f4
    simp only [f1', f2, f3, f4]
  · intro b x hx; rw [eb] at hx; rw [en]; exact h'.made b x hx
  · intro b x hx; rw [eb] at hx; rw [ep]; exact h'.parent b x hx
  · intro x; rw [eo, en, h'.roots]; simp only [eb]
  · rw [eo]; exact h'.rootsN
  · intro x hl'
    rw [el] at hl'
    have hne : x ≠ p := by rintro rfl; exact hl hl'
    rw [eb, er, em, e1, e2, if_neg hne, List.append_nil]
    obtain ⟨g1, g2, g3⟩ := h.closed x hl'
    exact ⟨fun c hc => by rw [el]; exact g1 c hc, g2, g3⟩

theorem good_addMem {s : State} (h : Good s) (p r : Nat) (hp : p < s.next) (hr : ∀ b, r ∉ (s.blk b).mems) : Good (addMem s p r).1 := by
  have h' := h.tree
  unfold addMem
  by_cases hl : (s.blk p).locked = true
  · rw [if_pos hl]; exact h
  rw [if_neg hl, if_neg (hr p)]
  simp only
  generalize hs : ({ s with blk := upd s.blk p { s.blk p with mems := (s.blk p).mems ++ [r] } } : State) = t
  have em : ∀ x, (t.blk x).mems = (s.blk x).mems ++ if x = p then [r] else [] := by
    intro x; subst hs
    by_cases hx : x = p
    · subst hx; simp
    · simp [upd_ne _ _ hx, hx]
  have eb : ∀ x, (t.blk x).blks = (s.blk x).blks := by
    intro x; subst hs
    by_cases hx : x = p
    · subst hx; simp
    · simp [upd_ne _ _ hx]
  have er : ∀ x, (t.blk x).regs = (s.blk x).regs := by
    intro x; subst hs
    by_cases hx : x = p
    · subst hx; simp
    · simp [upd_ne _ _ hx]
  have el : ∀ x, (t.blk x).locked = (s.blk x).locked := by
    intro x; subst hs
    by_cases hx : x = p
    · subst hx; simp
    · simp [upd_ne _ _ hx]
  have ep : ∀ x, (t.blk x).parent = (s.blk x).parent := by
    intro x; subst hs
    by_cases hx : x = p
    · subst hx; simp
    · simp [upd_ne _ _ hx]
  have hmem : ∀ b x, x ∈ (t.blk b).mems ↔ x ∈ (s.blk b).mems ∨ (b = p ∧ x = r) := by
    intro b x; rw [em, List.mem_append]
    by_cases hb : b = p <;> simp [hb]
  have en : t.next = s.next := by subst hs; rfl
  have eo : t.roots = s.roots := by subst hs; rfl
  have e1 : t.regLocked = s.regLocked := by subst hs; rfl
  have e2 : t.memLocked = s.memLocked := by subst hs; rfl
  refine ⟨⟨?_, ?_, ?_, ?_, ?_, ?_, ?_, ?_, ?_, ?_, ?_, ?_⟩, ?_⟩
  · obtain ⟨rank, hr⟩ := h'.rank
    exact ⟨rank, fun b c hc => hr b c (by rw [← eb]; exact hc)⟩
  · intro b b' c; rw [eb, eb]; exact h'.one b b' c
  · intro b; rw [eb]; exact h'.nodup b
  · intro b b' c; rw [er, er]; exact h'.regs b b' c
  · intro b; rw [er]; exact h'.regsN b
  · intro b b' x hx hx'
    rcases (hmem b x).mp hx with hx | ⟨hb, hxc⟩ <;> rcases (hmem b' x).mp hx' with hx' | ⟨hb', hxc'⟩
    · exact h'.mems _ _ _ hx hx'
    · rw [hxc'] at hx; exact absurd hx (hr b)
    · rw [hxc] at hx'; exact absurd hx' (hr b')
    · rw [hb, hb']
  · intro b; rw [em]
    by_cases hb : b = p
    · simp only [hb, if_true]
      rw [List.nodup_append]
      refine ⟨h'.memsN p, by simp, ?_⟩
      intro a ha y hy hay
      rw [List.mem_singleton] at hy
      subst hay; subst hy
      exact hr p ha
    · simp [hb, h'.memsN b]
  · intro b hb
    rw [en] at hb
    have hne : b ≠ p := by omega
    obtain ⟨f1, f2, f3, f4⟩ := fresh_fields h' hb
    have f2' : (t.blk b).mems = [] := by rw [em, f2]; simp [hne]
    rw [← eb] at f3; rw [← er] at f1; rw [← el] at f4
    cases hx : t.blk b
    rw [hx] at f1 f2' f3 f4
    simp only at f1 f2' f3 f4
    simp only [f1, f2', f3, f4]
  · intro b x hx; rw [eb] at hx; rw [en]; exact h'.made b x hx
  · intro b x hx; rw [eb] at hx; rw [ep]; exact h'.parent b x hx
  · intro x; rw [eo, en, h'.roots]; simp only [eb]
  · rw [eo]; exact h'.rootsN
  · intro x hl'
    rw [el] at hl'
    have hne : x ≠ p := by rintro rfl; exact hl hl'
    rw [eb, er, em, e1, e2, if_neg hne, List.append_nil]
    obtain ⟨g1, g2, g3⟩ := h.closed x hl'
    exact ⟨fun c hc => by rw [el]; exact g1 c hc, g2, g3⟩

theorem foldlM_mono (f g : State → Nat → Option State) (h : ∀ s c t, f s c = some t → g s c = some t) (cs : List Nat) :
    ∀ s t, cs.foldlM f s = some t → cs.foldlM g s = some t := by
  induction cs with
  | nil => intro s t h; exact h
  | cons c cs ih =>
    intro s t hf
    rw [List.foldlM_cons] at hf ⊢
    cases hc : f s c with
    | none => rw [hc] at hf; cases hf
    | some u =>
      rw [hc] at hf
      rw [h s c u hc]
      exact ih u t hf

theorem lock_mono : ∀ n s b t, lock n s b = some t → lock (n + 1) s b = some t := by
  intro n
  induction n with
  | zero => intro s b t h; cases h
  | succ n ih =>
    intro s b t h
    rw [lock] at h ⊢
    by_cases hl : (s.blk b).locked = true
    · rw [if_pos hl] at h ⊢; exact h
    · rw [if_neg hl] at h ⊢
      exact foldlM_mono _ _ (fun s c t => ih s c t) _ _ _ h

theorem lock_mono_le {n m : Nat} (hnm : n ≤ m) {s : State} {b : Nat} {t : State} (h : lock n s b = some t) : lock m s b = some t := by
  induction hnm with
  | refl => exact h
  | step _ ih => exact lock_mono _ _ _ _ ih

/-- Whatever the recursion depth, a lock that ends locks exactly what is below. -/
theorem lock_locks {s : State} (h : Good s) {n b : Nat} {t : State} (e : lock n s b = some t) : Locks s t (Below s b) := by
  obtain ⟨rank, hr⟩ := h.tree.rank
  obtain ⟨t', e', l⟩ := lock_spec rank (n + rank b + 1) s hr b (by omega) fun x _ => h.closed x
  have := lock_mono_le (show n ≤ n + rank b + 1 by omega) e
  rw [e'] at this
  cases this
  exact l

theorem below_made {s : State} (h : Tree s) {b x : Nat} (hb : b < s.next) (hx : Below s b x) : x < s.next := by
  cases hx with
  | refl => exact hb
  | sub _ hx => exact h.made _ _ hx

theorem good_locks {s t : State} (h : Good s) {b : Nat} (hb : b < s.next) (l : Locks s t (Below s b)) : Good t := by
  refine ⟨sameTree_tree h.tree l.same ?_, fun x => l.closed (fun x hx c hc => hx.sub hc) (h.closed x)⟩
  intro x hx
  have h1 := (fresh_fields h.tree hx).2.2.2
  have h2 := l.blk x
  rw [h1] at h2
  cases hl : (t.blk x).locked with
  | false => rfl
  | true =>
    rcases h2.mp hl with h3 | h3
    · cases h3
    · have := below_made h.tree hb h3
      omega

theorem good_step {s : State} (h : Good s) (op : Op) (hl : Legal s op) : Good (step s op) := by
  cases op with
  | new name => exact good_new h name
  | configure c p =>
    obtain ⟨h1, h2, h3⟩ := hl
    have hg := good_parent h c p h2
    cases p with
    | none => exact hg
    | some q =>
      obtain ⟨hq, hnb⟩ := h3 q rfl
      have hblks : ∀ x, (upd s.blk c { s.blk c with parent := some q } x).blks = (s.blk x).blks := by
        intro x
        by_cases hx : x = c
        · subst hx; simp
        · rw [upd_ne _ _ hx]
      refine good_addBlock hg q c hq h1 (fun b => by rw [show (upd s.blk c { s.blk c with parent := some q } b).blks = _ from hblks b]; exact h2 b) (by simp) ?_
      intro hb
      exact hnb (below_of (s := { s with blk := upd s.blk c { s.blk c with parent := some q } }) (t := s)
        (fun y _ z hz => by rw [← hblks]; exact hz) hb)
  | reg r p =>
    have hg : Good { s with regParent := upd s.regParent r (some p) } := ⟨⟨h.tree.rank, h.tree.one, h.tree.nodup, h.tree.regs, h.tree.regsN,
      h.tree.mems, h.tree.memsN, h.tree.fresh, h.tree.made, h.tree.parent, h.tree.roots, h.tree.rootsN⟩, h.closed⟩
    exact good_addReg hg p r hl.1 hl.2
  | mem m p =>
    have hg : Good { s with memParent := upd s.memParent m (some p) } := ⟨⟨h.tree.rank, h.tree.one, h.tree.nodup, h.tree.regs, h.tree.regsN,
      h.tree.mems, h.tree.memsN, h.tree.fresh, h.tree.made, h.tree.parent, h.tree.roots, h.tree.rootsN⟩, h.closed⟩
    exact good_addMem hg p m hl.1 hl.2
  | lock n b =>
    simp only [step]
    cases he : lock n s b with
    | none => exact h
    | some t => exact good_locks h hl (lock_locks h he)

theorem good_run (ops : List Op) : ∀ {s : State}, Good s → LegalRun s ops → Good (run s ops) := by
  induction ops with
  | nil => intro s h _; exact h
  | cons op ops ih => intro s h hl; exact ih (good_step h op hl.1) hl.2

/-- A set of locked blocks, closed downwards, keeps its contents whatever is called afterwards. -/
structure Frozen (s : State) (X : Nat → Prop) : Prop where
  made : ∀ x, X x → x < s.next
  locked : ∀ x, X x → (s.blk x).locked = true

theorem addBlock_blk (s : State) (p c x : Nat) (hx : (s.blk x).locked = true) : (addBlock s p c).1.blk x = s.blk x := by
  unfold addBlock
  by_cases hl : (s.blk p).locked = true
  · rw [if_pos hl]
  rw [if_neg hl]
  split
  · rfl
  · have : x ≠ p := by rintro rfl; exact hl hx
    exact upd_ne _ _ this

theorem addReg_blk (s : State) (p c x : Nat) (hx : (s.blk x).locked = true) : (addReg s p c).1.blk x = s.blk x := by
  unfold addReg
  by_cases hl : (s.blk p).locked = true
  · rw [if_pos hl]
  rw [if_neg hl]
  split
  · rfl
  · have : x ≠ p := by rintro rfl; exact hl hx
    exact upd_ne _ _ this

theorem addMem_blk (s : State) (p c x : Nat) (hx : (s.blk x).locked = true) : (addMem s p c).1.blk x = s.blk x := by
  unfold addMem
  by_cases hl : (s.blk p).locked = true
  · rw [if_pos hl]
  rw [if_neg hl]
  split
  · rfl
  · have : x ≠ p := by rintro rfl; exact hl hx
    exact upd_ne _ _ this

theorem lock_keeps : ∀ n s b t, lock n s b = some t → ∀ x, (t.blk x).regs = (s.blk x).regs ∧ (t.blk x).mems = (s.blk x).mems ∧
    (t.blk x).blks = (s.blk x).blks ∧ ((s.blk x).locked = true → (t.blk x).locked = true) ∧ t.next = s.next := by
  intro n
  induction n with
  | zero => intro s b t h; cases h
  | succ n ih =>
    intro s b t h x
    rw [lock] at h
    by_cases hl : (s.blk b).locked = true
    · rw [if_pos hl] at h; cases h; exact ⟨rfl, rfl, rfl, id, rfl⟩
    · rw [if_neg hl] at h
      have hfold : ∀ cs : List Nat, ∀ t0, cs.foldlM (fun s c => lock n s c) t0 = some t → (t.blk x).regs = (t0.blk x).regs ∧
          (t.blk x).mems = (t0.blk x).mems ∧ (t.blk x).blks = (t0.blk x).blks ∧ ((t0.blk x).locked = true → (t.blk x).locked = true) ∧ t.next = t0.next := by
        intro cs
        induction cs with
        | nil => intro t0 h; cases h; exact ⟨rfl, rfl, rfl, id, rfl⟩
        | cons c cs ih2 =>
          intro t0 h
          rw [List.foldlM_cons] at h
          cases hc : lock n t0 c with
          | none => rw [hc] at h; cases h
          | some u =>
            rw [hc] at h
            obtain ⟨a1, a2, a3, a4, a5⟩ := ih2 u h
            obtain ⟨b1, b2, b3, b4, b5⟩ := ih t0 c u hc x
            exact ⟨a1.trans b1, a2.trans b2, a3.trans b3, a4 ∘ b4, a5.trans b5⟩
      obtain ⟨a1, a2, a3, a4, a5⟩ := hfold _ _ h
      have hb : ∀ y, (lockItems { s with blk := upd s.blk b { s.blk b with locked := true } } b).blk y = upd s.blk b { s.blk b with locked := true } y := fun _ => rfl
      rw [hb] at a1 a2 a3 a4
      by_cases hx : x = b
      · subst hx
        simp only [upd_self] at a1 a2 a3 a4
        exact ⟨a1, a2, a3, fun _ => a4 trivial, a5⟩
      · rw [upd_ne _ _ hx] at a1 a2 a3 a4
        exact ⟨a1, a2, a3, a4, a5⟩

theorem frozen_step {s : State} {X : Nat → Prop} (h : Frozen s X) (op : Op) :
    Frozen (step s op) X ∧ ∀ x, X x → ((step s op).blk x).regs = (s.blk x).regs ∧ ((step s op).blk x).mems = (s.blk x).mems ∧
      ((step s op).blk x).blks = (s.blk x).blks := by
  have same : ∀ t : State, s.next ≤ t.next → (∀ x, X x → (t.blk x).regs = (s.blk x).regs ∧ (t.blk x).mems = (s.blk x).mems ∧
      (t.blk x).blks = (s.blk x).blks ∧ (t.blk x).locked = true) → Frozen t X ∧ ∀ x, X x → (t.blk x).regs = (s.blk x).regs ∧
      (t.blk x).mems = (s.blk x).mems ∧ (t.blk x).blks = (s.blk x).blks := by
    intro t hn ht
    exact ⟨⟨fun x hx => Nat.lt_of_lt_of_le (h.made x hx) hn, fun x hx => (ht x hx).2.2.2⟩, fun x hx => ⟨(ht x hx).1, (ht x hx).2.1, (ht x hx).2.2.1⟩⟩
  cases op with
  | new name =>
    apply same _ (Nat.le_succ _)
    intro x hx
    have := h.made x hx
    have hne : x ≠ s.next := by omega
    simp only [step, new, upd_ne _ _ hne]
    exact ⟨trivial, trivial, trivial, h.locked x hx⟩
  | configure c p =>
    have h0 : ∀ x, X x → (upd s.blk c { s.blk c with parent := p } x).regs = (s.blk x).regs ∧ (upd s.blk c { s.blk c with parent := p } x).mems = (s.blk x).mems ∧
        (upd s.blk c { s.blk c with parent := p } x).blks = (s.blk x).blks ∧ (upd s.blk c { s.blk c with parent := p } x).locked = true := by
      intro x hx
      have := h.locked x hx
      by_cases hc : x = c
      · subst hc; simp [this]
      · rw [upd_ne _ _ hc]; exact ⟨rfl, rfl, rfl, this⟩
    cases p with
    | none => exact same _ (Nat.le_refl _) h0
    | some q =>
      refine same (configure s c (some q)).1 ?_ ?_
      · show s.next ≤ (addBlock _ q c).1.next
        unfold addBlock
        split
        · exact Nat.le_refl _
        · split <;> exact Nat.le_refl _
      · intro x hx
        have := addBlock_blk { s with blk := upd s.blk c { s.blk c with parent := some q } } q c x (h0 x hx).2.2.2
        simp only [configure, this]
        exact h0 x hx
  | reg r p =>
    refine same (configureReg s r p).1 ?_ ?_
    · show s.next ≤ (addReg _ p r).1.next
      unfold addReg
      split
      · exact Nat.le_refl _
      · split <;> exact Nat.le_refl _
    · intro x hx
      have := addReg_blk { s with regParent := upd s.regParent r (some p) } p r x (h.locked x hx)
      simp only [configureReg, this]
      exact ⟨trivial, trivial, trivial, h.locked x hx⟩
  | mem m p =>
    refine same (configureMem s m p).1 ?_ ?_
    · show s.next ≤ (addMem _ p m).1.next
      unfold addMem
      split
      · exact Nat.le_refl _
      · split <;> exact Nat.le_refl _
    · intro x hx
      have := addMem_blk { s with memParent := upd s.memParent m (some p) } p m x (h.locked x hx)
      simp only [configureMem, this]
      exact ⟨trivial, trivial, trivial, h.locked x hx⟩
  | lock n b =>
    simp only [step]
    cases he : lock n s b with
    | none => exact same s (Nat.le_refl _) fun x hx => ⟨rfl, rfl, rfl, h.locked x hx⟩
    | some t =>
      have hk := lock_keeps n s b t he
      refine same t (Nat.le_of_eq (hk 0).2.2.2.2.symm) fun x hx => ?_
      exact ⟨(hk x).1, (hk x).2.1, (hk x).2.2.1, (hk x).2.2.2.1 (h.locked x hx)⟩

theorem frozen_run (ops : List Op) : ∀ {s : State} {X : Nat → Prop}, Frozen s X →
    Frozen (run s ops) X ∧ ∀ x, X x → ((run s ops).blk x).regs = (s.blk x).regs ∧ ((run s ops).blk x).mems = (s.blk x).mems ∧
      ((run s ops).blk x).blks = (s.blk x).blks := by
  induction ops with
  | nil => intro s X h; exact ⟨h, fun x _ => ⟨rfl, rfl, rfl⟩⟩
  | cons op ops ih =>
    intro s X h
    obtain ⟨h1, h2⟩ := frozen_step h op
    obtain ⟨g1, g2⟩ := ih h1
    refine ⟨g1, fun x hx => ?_⟩
    obtain ⟨a, b, c⟩ := h2 x hx
    obtain ⟨a', b', c'⟩ := g2 x hx
    exact ⟨a'.trans a, b'.trans b, c'.trans c⟩

theorem walk_congr {α} {s t : State} {own own' : Nat → List α} : ∀ n b, (∀ x, Below s b x → (t.blk x).blks = (s.blk x).blks ∧ own' x = own x) →
    walk t own' n b = walk s own n b := by
  intro n
  induction n with
  | zero => intro b _; rfl
  | succ n ih =>
    intro b h
    have hm : ∀ cs : List Nat, (∀ c ∈ cs, c ∈ (s.blk b).blks) → cs.mapM (walk t own' n) = cs.mapM (walk s own n) := by
      intro cs
      induction cs with
      | nil => intro _; rfl
      | cons c cs ih2 =>
        intro hcs
        rw [List.mapM_cons, List.mapM_cons, ih2 fun x hx => hcs x (List.mem_cons_of_mem _ hx),
          ih c fun x hx => h x (below_cons (hcs c List.mem_cons_self) hx)]
    simp only [walk, (h b .refl).1, (h b .refl).2, hm _ fun _ h => h]

end Verif.RegBlock
