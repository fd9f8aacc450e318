import Verif.Lemmas.RegBlockLock
/-!
# C51: register blocks
-/
namespace Verif.RegBlock

/-- A legal history from nothing. -/
def History (nm : Nat → String) (ops : List Op) : Prop := LegalRun (init nm) ops

/-- C51.  After every legal history and for every block, `get_registers` ends and gives exactly the registers placed in
the block or in a block below it, each once. -/
theorem C51_registers (nm : Nat → String) (ops : List Op) (h : History nm ops) (b : Nat) :
    ∃ n l, (∀ m, n ≤ m → getRegisters (run (init nm) ops) m b = some l) ∧ l.Nodup ∧
      ∀ r, r ∈ l ↔ ∃ x, Below (run (init nm) ops) b x ∧ r ∈ ((run (init nm) ops).blk x).regs := by
  have g := good_run ops (good_init nm) h
  generalize run (init nm) ops = s at *
  obtain ⟨L, rank, hr, hw, hL⟩ := walk_total g.tree (fun b => (s.blk b).regs)
  exact ⟨rank b + 1, L b, fun m hm => hw b m (by omega), walk_nodup g.tree hr hL g.tree.regsN g.tree.regs b, fun r => walk_mem hr hL r b⟩

/-- C51.  The same for `get_memories`. -/
theorem C51_memories (nm : Nat → String) (ops : List Op) (h : History nm ops) (b : Nat) :
    ∃ n l, (∀ m, n ≤ m → getMemories (run (init nm) ops) m b = some l) ∧ l.Nodup ∧
      ∀ r, r ∈ l ↔ ∃ x, Below (run (init nm) ops) b x ∧ r ∈ ((run (init nm) ops).blk x).mems := by
  have g := good_run ops (good_init nm) h
  generalize run (init nm) ops = s at *
  obtain ⟨L, rank, hr, hw, hL⟩ := walk_total g.tree (fun b => (s.blk b).mems)
  exact ⟨rank b + 1, L b, fun m hm => hw b m (by omega), walk_nodup g.tree hr hL g.tree.memsN g.tree.mems b, fun r => walk_mem hr hL r b⟩

/-- C51.  `get_blocks` gives exactly the blocks strictly below, each once, and each of them names a block of the same
subtree as its parent. -/
theorem C51_blocks (nm : Nat → String) (ops : List Op) (h : History nm ops) (b : Nat) :
    ∃ n l, (∀ m, n ≤ m → getBlocks (run (init nm) ops) m b = some l) ∧ l.Nodup ∧
      (∀ x, x ∈ l ↔ Below (run (init nm) ops) b x ∧ x ≠ b) ∧
      ∀ x ∈ l, ∃ p, ((run (init nm) ops).blk x).parent = some p ∧ Below (run (init nm) ops) b p ∧ x ∈ ((run (init nm) ops).blk p).blks := by
  have g := good_run ops (good_init nm) h
  generalize run (init nm) ops = s at *
  obtain ⟨L, rank, hr, hw, hL⟩ := walk_total g.tree (fun b => [b])
  have hnd := walk_nodup g.tree hr hL (by simp) (by intro x y a hx hy; simp at hx hy; rw [← hx, ← hy]) b
  have hmem := fun x => walk_mem hr hL x b
  have hcons : L b = b :: ((s.blk b).blks.map L).flatten := by rw [hL b]; rfl
  have hget : ∀ m, rank b + 1 ≤ m → getBlocks s m b = some ((s.blk b).blks.map L).flatten := by
    intro m hm
    have h1 := hw b m (by omega)
    rw [getBlocks_walk, hcons] at h1
    cases hg : getBlocks s m b with
    | none => rw [hg] at h1; cases h1
    | some l => rw [hg] at h1; simp at h1; rw [h1]
  rw [hcons, List.nodup_cons] at hnd
  have hiff : ∀ x, x ∈ ((s.blk b).blks.map L).flatten ↔ Below s b x ∧ x ≠ b := by
    intro x
    have h1 := hmem x
    rw [hcons, List.mem_cons] at h1
    constructor
    · intro hx
      obtain ⟨y, hy, hxy⟩ := h1.mp (.inr hx)
      simp at hxy
      subst hxy
      exact ⟨hy, by rintro rfl; exact hnd.1 hx⟩
    · rintro ⟨hx, hne⟩
      exact (h1.mpr ⟨x, hx, by simp⟩).resolve_left hne
  refine ⟨rank b + 1, _, hget, hnd.2, hiff, ?_⟩
  intro x hx
  obtain ⟨hb, hne⟩ := (hiff x).mp hx
  cases hb with
  | refl => exact absurd rfl hne
  | sub hy hz => exact ⟨_, g.tree.parent _ _ hz, hy, hz⟩

/-- C51.  The root blocks are exactly the blocks that were never placed in another one, each once. -/
theorem C51_roots (nm : Nat → String) (ops : List Op) (h : History nm ops) :
    (run (init nm) ops).roots.Nodup ∧
    ∀ x, x ∈ (run (init nm) ops).roots ↔ x < (run (init nm) ops).next ∧ ∀ b, x ∉ ((run (init nm) ops).blk b).blks := by
  have g := good_run ops (good_init nm) h
  exact ⟨g.tree.rootsN, g.tree.roots⟩

/-- A model of three blocks: 0 holds register 10 and blocks 1 and 2; 1 holds register 11 and memory 5; 2 holds register 12. -/
def demo : List Op := [.new "top", .new "a", .new "b", .configure 0 none, .reg 10 0, .configure 1 (some 0), .configure 2 (some 0),
  .reg 11 1, .mem 5 1, .reg 12 2]

/-- Nothing is below a block without sub-blocks. -/
theorem below_leaf {s : State} {b x : Nat} (hl : (s.blk b).blks = []) (h : Below s b x) : x = b := by
  rcases below_head h with h | ⟨c, hc, _⟩
  · exact h
  · rw [hl] at hc; cases hc

def demoState (k : Nat) : State := run (init toString) (demo.take k)

theorem mem_upd_none {f : Nat → Blk} {g : Blk → List Nat} {x : Nat} (h : ∀ b, x ∉ g (f b)) (k : Nat) (v : Blk) (hv : x ∉ g v) :
    ∀ b, x ∉ g (upd f k v b) := by
  intro b
  by_cases hb : b = k
  · subst hb; simpa using hv
  · rw [upd_ne _ _ hb]; exact h b

theorem demo_legal : History toString demo := by
  have h0 : ∀ (x : Nat) (g : Blk → List Nat), (g ⟨"", none, [], [], [], false⟩ = []) → ∀ b, x ∉ g ((init toString).blk b) := by
    intro x g hg b hx
    rw [show (init toString).blk b = ⟨"", none, [], [], [], false⟩ from rfl, hg] at hx
    cases hx
  have nb : ∀ {s : State} {b x : Nat}, (s.blk b).blks = [] → x ≠ b → ¬ Below s b x := fun hl hne h => hne (below_leaf hl h)
  refine ⟨trivial, trivial, trivial, ⟨by decide, ?_, by simp⟩, ⟨by decide, ?_⟩, ⟨by decide, ?_, ?_⟩, ⟨by decide, ?_, ?_⟩, ⟨by decide, ?_⟩,
    ⟨by decide, ?_⟩, ⟨by decide, ?_⟩, trivial⟩
  · repeat' apply mem_upd_none (g := Blk.blks)
    all_goals first | exact h0 _ Blk.blks rfl | decide
  · repeat' apply mem_upd_none (g := Blk.regs)
    all_goals first | exact h0 _ Blk.regs rfl | decide
  · repeat' apply mem_upd_none (g := Blk.blks)
    all_goals first | exact h0 _ Blk.blks rfl | decide
  · intro q hq; cases hq; exact ⟨by decide, nb (by decide) (by decide)⟩
  · repeat' apply mem_upd_none (g := Blk.blks)
    all_goals first | exact h0 _ Blk.blks rfl | decide
  · intro q hq; cases hq; exact ⟨by decide, nb (by decide) (by decide)⟩
  · repeat' apply mem_upd_none (g := Blk.regs)
    all_goals first | exact h0 _ Blk.regs rfl | decide
  · repeat' apply mem_upd_none (g := Blk.mems)
    all_goals first | exact h0 _ Blk.mems rfl | decide
  · repeat' apply mem_upd_none (g := Blk.regs)
    all_goals first | exact h0 _ Blk.regs rfl | decide

example : getRegisters (run (init toString) demo) 5 0 = some [10, 11, 12] ∧ getBlocks (run (init toString) demo) 5 0 = some [1, 2] ∧
    getMemories (run (init toString) demo) 5 0 = some [5] ∧ (run (init toString) demo).roots = [0] := by decide

/-- C51.  `reset` of a block resets exactly the registers `get_registers` gives; `needs_update` answers whether one of
them needs an update; `get_reg_by_name` finds the first of them with that name, and nothing only if none has it. -/
theorem C51_block_wide (nm : Nat → String) (ops : List Op) (h : History nm ops) (b : Nat) :
    ∃ n l, (∀ m, n ≤ m → getRegisters (run (init nm) ops) m b = some l) ∧
      (∀ m, n ≤ m → reset (run (init nm) ops) m b = some l) ∧
      (∀ nu m, n ≤ m → needsUpdate (run (init nm) ops) nu m b = some (l.any nu)) ∧
      (∀ name m, n ≤ m → getRegByName (run (init nm) ops) m b name = some (l.find? fun r => (run (init nm) ops).regName r == name)) := by
  have g := good_run ops (good_init nm) h
  generalize run (init nm) ops = s at *
  obtain ⟨L, rank, hr, hw, hL⟩ := walk_total g.tree (fun b => (s.blk b).regs)
  exact ⟨rank b + 1, L b, fun m hm => hw b m (by omega), fun m hm => hw b m (by omega), fun nu m hm => needsUpdate_eq nu hr hL m b (by omega),
    fun name m hm => getRegByName_eq name hr hL hw b m (by omega)⟩

theorem lastBad_spec (st : Nat → Status) (l : List Nat) : ∀ i, bad i = false →
    ((bad (lastBad st l i) = false ↔ ∀ r ∈ l, bad (st r) = false) ∧ (bad (lastBad st l i) = true → ∃ r ∈ l, st r = lastBad st l i)) := by
  have bad_iff : ∀ l i, bad (lastBad st l i) = false ↔ (∀ r ∈ l, bad (st r) = false) ∧ bad i = false ∨ False := by
    intro l
    induction l with
    | nil => intro i; simp [lastBad]
    | cons r l ih =>
      intro i
      show bad (lastBad st l (if bad (st r) then st r else i)) = false ↔ _
      rw [ih]
      cases hb : bad (st r) <;> simp [hb]
  have wit : ∀ l i, bad (lastBad st l i) = true → bad i = true ∧ lastBad st l i = i ∨ ∃ r ∈ l, st r = lastBad st l i := by
    intro l
    induction l with
    | nil => intro i h; exact .inl ⟨h, rfl⟩
    | cons r l ih =>
      intro i h
      have h' : bad (lastBad st l (if bad (st r) then st r else i)) = true := h
      show _ ∨ ∃ x ∈ r :: l, st x = lastBad st l (if bad (st r) then st r else i)
      rcases ih _ h' with ⟨h1, h2⟩ | ⟨x, hx, e⟩
      · cases hb : bad (st r) with
        | true => rw [hb] at h2; simp only [if_true] at h2 ⊢; exact .inr ⟨r, List.mem_cons_self, h2.symm⟩
        | false => rw [hb] at h1 h2; exact .inl ⟨h1, by show lastBad st l (if bad (st r) then st r else i) = i; rw [hb]; exact h2⟩
      · exact .inr ⟨x, List.mem_cons_of_mem _ hx, e⟩
  intro i hi
  refine ⟨by rw [bad_iff]; simp [hi], fun h => ?_⟩
  rcases wit l i h with ⟨h1, _⟩ | h
  · rw [hi] at h1; cases h1
  · exact h

/-- C51.  `mirror` of a block mirrors exactly the registers `get_registers` gives, each once and even after one of
them failed; its status is a failure if and only if one of them failed, and then the status of one of those. -/
theorem C51_mirror (nm : Nat → String) (ops : List Op) (h : History nm ops) (b : Nat) (st : Nat → Status) :
    ∃ n l fin, (∀ m, n ≤ m → getRegisters (run (init nm) ops) m b = some l) ∧
      (∀ m, n ≤ m → mirror (run (init nm) ops) st m b = some (l, fin)) ∧
      (fin = .notOk ↔ ∃ r ∈ l, st r = .notOk) ∧ (fin ≠ .notOk → fin = .ok) := by
  have g := good_run ops (good_init nm) h
  generalize run (init nm) ops = s at *
  obtain ⟨L, rank, hr, hw, hL⟩ := walk_total g.tree (fun b => (s.blk b).regs)
  obtain ⟨s1, s2⟩ := lastBad_spec st (L b) .ok rfl
  have bad_iff : ∀ x : Status, bad x = true ↔ x = .notOk := by intro x; cases x <;> simp [bad]
  refine ⟨rank b + 1, L b, lastBad st (L b) .ok, fun m hm => hw b m (by omega), fun m hm => mirror_eq st hr hL m b (by omega), ⟨?_, ?_⟩, ?_⟩
  · intro hf
    obtain ⟨r, hr, e⟩ := s2 ((bad_iff _).mpr hf)
    exact ⟨r, hr, e.trans hf⟩
  · rintro ⟨r, hr, e⟩
    refine (bad_iff _).mp ?_
    cases hb : bad (lastBad st (L b) .ok) with
    | true => rfl
    | false =>
      have := s1.mp hb r hr
      rw [e] at this; cases this
  · intro hne
    rw [lastBad_init]
    rw [if_neg (fun hb => hne ((bad_iff _).mp hb))]

example : mirror (run (init toString) demo) (fun r => if r = 11 then .notOk else .ok) 5 0 = some ([10, 11, 12], .notOk) := by decide

/-- C51.  `lock_model` of a block ends, locks exactly the block, the blocks below and the registers and memories in
them (in addition to what was locked before), and changes nothing else of the tree. -/
theorem C51_lock (nm : Nat → String) (ops : List Op) (h : History nm ops) (b : Nat) :
    let s := run (init nm) ops
    ∃ n t, (∀ m, n ≤ m → lock m s b = some t) ∧
      (∀ x, (t.blk x).locked = true ↔ (s.blk x).locked = true ∨ Below s b x) ∧
      (∀ r, t.regLocked r = true ↔ s.regLocked r = true ∨ ∃ x, Below s b x ∧ r ∈ (s.blk x).regs) ∧
      (∀ r, t.memLocked r = true ↔ s.memLocked r = true ∨ ∃ x, Below s b x ∧ r ∈ (s.blk x).mems) ∧
      ∀ x, (t.blk x).regs = (s.blk x).regs ∧ (t.blk x).mems = (s.blk x).mems ∧ (t.blk x).blks = (s.blk x).blks := by
  intro s
  have g : Good s := good_run ops (good_init nm) h
  obtain ⟨rank, hr⟩ := g.tree.rank
  obtain ⟨t, e, l⟩ := lock_spec rank (rank b + 1) s hr b (by omega) fun x _ => g.closed x
  exact ⟨rank b + 1, t, fun m hm => lock_mono_le hm e, l.blk, l.reg, l.mem, fun x => ⟨(l.same.blk x).1, (l.same.blk x).2.1, (l.same.blk x).2.2.1⟩⟩

/-- C51.  Once a block is locked, nothing that is called later (legal or not) changes what `get_registers`,
`get_memories` and `get_blocks` give for it, and it stays locked. -/
theorem C51_locked_for_good (nm : Nat → String) (ops : List Op) (h : History nm ops) (b : Nat)
    (hb : b < (run (init nm) ops).next) (hl : ((run (init nm) ops).blk b).locked = true) (later : List Op) (m : Nat) :
    let s := run (init nm) ops
    let t := run s later
    (t.blk b).locked = true ∧ getRegisters t m b = getRegisters s m b ∧ getMemories t m b = getMemories s m b ∧ getBlocks t m b = getBlocks s m b := by
  intro s t
  have g : Good s := good_run ops (good_init nm) h
  have hfr : Frozen s (Below s b) := ⟨fun x hx => below_made g.tree hb hx, closed_below (fun x _ => g.closed x) hl⟩
  obtain ⟨f1, f2⟩ := frozen_run later hfr
  have hblk := walk_congr (s := s) (t := t) (own := fun b => [b]) (own' := fun b => [b]) m b fun x hx => ⟨(f2 x hx).2.2, rfl⟩
  rw [getBlocks_walk, getBlocks_walk] at hblk
  refine ⟨f1.locked b .refl, walk_congr m b fun x hx => ⟨(f2 x hx).2.2, (f2 x hx).1⟩, walk_congr m b fun x hx => ⟨(f2 x hx).2.2, (f2 x hx).2.1⟩, ?_⟩
  cases h1 : getBlocks t m b <;> cases h2 : getBlocks s m b <;> rw [h1, h2] at hblk <;> simp at hblk
  rw [hblk]

example : ((run (init toString) (demo ++ [.lock 5 0])).blk 2).locked = true ∧
    getRegisters (run (init toString) (demo ++ [.lock 5 0, .reg 13 2, .new "c", .configure 3 (some 1)])) 5 0 = some [10, 11, 12] := by decide

/-- C51.  Adding to a locked block is reported as an error and leaves it as it is; adding a fresh register to an
unlocked block puts it last. -/
theorem C51_add (s : State) (p r : Nat) :
    ((s.blk p).locked = true → addReg s p r = (s, false) ∧ addMem s p r = (s, false) ∧ addBlock s p r = (s, false)) ∧
    ((s.blk p).locked = false → r ∉ (s.blk p).regs → (addReg s p r).2 = true ∧ ((addReg s p r).1.blk p).regs = (s.blk p).regs ++ [r]) ∧
    (r ∈ (s.blk p).regs → addReg s p r = (s, false)) := by
  refine ⟨fun h => by simp [addReg, addMem, addBlock, h], fun h hr => by simp [addReg, h, hr], fun h => ?_⟩
  simp only [addReg, h, if_true]
  split <;> rfl

/-- C51. As long as no block was locked, nothing is locked: no block, register or memory. -/
theorem C51_unlocked (nm : Nat → String) (ops : List Op) (hl : ∀ n b, Op.lock n b ∉ ops) (x : Nat) :
    ((run (init nm) ops).blk x).locked = false ∧ (run (init nm) ops).regLocked x = false ∧ (run (init nm) ops).memLocked x = false := by
  have hu : ∀ (f : Nat → Blk) (k : Nat) (v : Blk), (∀ x, (f x).locked = false) → v.locked = false → ∀ x, (upd f k v x).locked = false := by
    intro f k v hf hv x
    simp only [upd]
    split
    · exact hv
    · exact hf x
  have key : ∀ (ops : List Op) (s : State), (∀ n b, Op.lock n b ∉ ops) →
      (∀ x, (s.blk x).locked = false ∧ s.regLocked x = false ∧ s.memLocked x = false) →
      ∀ x, ((run s ops).blk x).locked = false ∧ (run s ops).regLocked x = false ∧ (run s ops).memLocked x = false := by
    intro ops
    induction ops with
    | nil => intro s _ h; exact h
    | cons op ops ih =>
      intro s hl h
      refine ih (step s op) (fun n b hm => hl n b (by simp [hm])) ?_
      intro x
      cases op with
      | lock n b => exact absurd (by simp) (hl n b)
      | new name => exact ⟨hu _ _ _ (fun y => (h y).1) rfl x, (h x).2⟩
      | configure c p =>
        have h1 := hu s.blk c { s.blk c with parent := p } (fun y => (h y).1) (h c).1
        cases p with
        | none => exact ⟨h1 x, (h x).2⟩
        | some p =>
          simp only [step, configure, addBlock, h1 p, Bool.false_eq_true, if_false]
          split
          · exact ⟨h1 x, (h x).2⟩
          · exact ⟨hu _ _ _ h1 rfl x, (h x).2⟩
      | reg r p =>
        simp only [step, configureReg, addReg, (h p).1, Bool.false_eq_true, if_false]
        split
        · exact h x
        · exact ⟨hu _ _ _ (fun y => (h y).1) rfl x, (h x).2⟩
      | mem r p =>
        simp only [step, configureMem, addMem, (h p).1, Bool.false_eq_true, if_false]
        split
        · exact h x
        · exact ⟨hu _ _ _ (fun y => (h y).1) rfl x, (h x).2⟩
  exact key ops (init nm) hl (fun _ => ⟨rfl, rfl, rfl⟩) x

example : ∀ n b, Op.lock n b ∉ demo := by simp [demo]

/-- C118 fails for a refused sub-block or register: it names the block as its parent although the block refused it. -/
theorem C118_refused_fails :
    let s := run (init toString) [.new "top", .new "a", .lock 2 0, .configure 1 (some 0), .reg 10 0]
    (s.blk 1).parent = some 0 ∧ s.regParent 10 = some 0 ∧ getBlocks s 5 0 = some [] ∧ getRegisters s 5 0 = some [] ∧ s.roots = [0, 1] := by decide

/-- C118 fails in general: a block, register or memory that is refused for whatever reason names the refusing block as its parent, and the
block does not list it if it did not before. -/
theorem C118_refused_keeps_parent_fails (s : State) (c r m p : Nat) (hcp : c ≠ p) :
    ((configure s c (some p)).2 = false → ((configure s c (some p)).1.blk c).parent = some p ∧ ((configure s c (some p)).1.blk p).blks = (s.blk p).blks) ∧
    ((configureReg s r p).2 = false → (configureReg s r p).1.regParent r = some p ∧ ((configureReg s r p).1.blk p).regs = (s.blk p).regs) ∧
    ((configureMem s m p).2 = false → (configureMem s m p).1.memParent m = some p ∧ ((configureMem s m p).1.blk p).mems = (s.blk p).mems) := by
  have hpc : ¬ p = c := fun h => hcp h.symm
  refine ⟨fun h => ?_, fun h => ?_, fun h => ?_⟩
  · simp only [configure, addBlock] at h ⊢
    split
    · simp [upd, hpc]
    · split
      · simp [upd, hpc]
      · simp_all
  · simp only [configureReg, addReg] at h ⊢
    split
    · simp [upd]
    · split
      · simp [upd]
      · simp_all
  · simp only [configureMem, addMem] at h ⊢
    split
    · simp [upd]
    · split
      · simp [upd]
      · simp_all

example : let s := run (init toString) [.new "top", .new "a", .lock 2 0]
    (configure s 1 (some 0)).2 = false ∧ (configureReg s 10 0).2 = false ∧ (configureMem s 10 0).2 = false := by decide

/-- C118 fails for blocks configured twice: both parents contain the block, so the registers are given twice above. -/
theorem C118_twice_fails :
    let s := run (init toString) [.new "top", .new "a", .new "b", .configure 1 (some 0), .configure 2 (some 0), .configure 2 (some 1), .reg 10 2]
    getRegisters s 5 0 = some [10, 10] := by decide

/-- C118 fails for `update` of a block with a sub-block: it raises an exception, after updating registers of the block
itself and along the first sub-blocks only. -/
theorem C118_update_fails (s : State) (nu : Nat → Bool) (st : Nat → Status) (n b c : Nat) (cs : List Nat) (hb : (s.blk b).blks = c :: cs)
    (hok : ∀ r ∈ (s.blk b).regs, nu r = true → bad (st r) = false) :
    ∀ q, update s nu st (n + 1) b = some q → q.2 = .raised := by
  have : ∀ l : List Nat, (∀ r ∈ l, nu r = true → bad (st r) = false) → (updateRegs nu st l).2 = none := by
    intro l
    induction l with
    | nil => intro _; rfl
    | cons r l ih =>
      intro h
      have ih := ih fun x hx => h x (List.mem_cons_of_mem _ hx)
      rw [updateRegs]
      cases hn : nu r with
      | false => simpa using ih
      | true => simp [h r List.mem_cons_self hn, ih]
  intro q hq
  have h2 := this _ hok
  rw [update] at hq
  cases hu : updateRegs nu st (s.blk b).regs with
  | mk l o =>
    rw [hu] at h2 hq
    simp only at h2
    subst h2
    simp only [hb] at hq
    cases hx : update s nu st n c with
    | none => rw [hx] at hq; cases hq
    | some q' => rw [hx] at hq; cases hq; rfl

example : update (run (init toString) demo) (fun _ => true) (fun _ => .ok) 5 0 = some ([10, 11], .raised) := by decide

/-- C118.  `update` of a block without sub-blocks updates its registers that need it, in order, up to the first failure,
whose status it gives. -/
theorem C118_update_partial (s : State) (nu : Nat → Bool) (st : Nat → Status) (n b : Nat) (hb : (s.blk b).blks = []) :
    (∀ r ∈ (s.blk b).regs, nu r = true → bad (st r) = false) →
    update s nu st (n + 1) b = some ((s.blk b).regs.filter nu, .status .ok) := by
  intro h
  have : ∀ l : List Nat, (∀ r ∈ l, nu r = true → bad (st r) = false) → updateRegs nu st l = (l.filter nu, none) := by
    intro l
    induction l with
    | nil => intro _; rfl
    | cons r l ih =>
      intro h
      have ih := ih fun x hx => h x (List.mem_cons_of_mem _ hx)
      rw [updateRegs]
      cases hn : nu r with
      | false => simp [hn, ih]
      | true => simp [hn, h r List.mem_cons_self hn, ih]
  simp [update, this _ h, hb]

/-- C118.  The first failing register of a block stops its update. -/
theorem C118_update_stops (s : State) (nu : Nat → Bool) (st : Nat → Status) (n b : Nat) (pre post : List Nat) (r : Nat)
    (hr : (s.blk b).regs = pre ++ r :: post) (hpre : ∀ x ∈ pre, nu x = true → bad (st x) = false) (hn : nu r = true) (hbad : bad (st r) = true) :
    update s nu st (n + 1) b = some (pre.filter nu ++ [r], .status (st r)) := by
  have : ∀ l : List Nat, (∀ x ∈ l, nu x = true → bad (st x) = false) → updateRegs nu st (l ++ r :: post) = (l.filter nu ++ [r], some (st r)) := by
    intro l
    induction l with
    | nil => intro _; simp [updateRegs, hn, hbad]
    | cons x l ih =>
      intro h
      have ih := ih fun x hx => h x (List.mem_cons_of_mem _ hx)
      rw [List.cons_append, updateRegs]
      cases hx : nu x with
      | false => simp [hx, ih]
      | true => simp [hx, h x List.mem_cons_self hx, ih]
  simp [update, hr, this _ hpre]

example : update (run (init toString) [.new "t", .reg 1 0, .reg 2 0, .reg 3 0]) (fun _ => true) (fun r => if r = 2 then .notOk else .ok) 5 0
    = some ([1, 2], .status .notOk) := by decide

end Verif.RegBlock
