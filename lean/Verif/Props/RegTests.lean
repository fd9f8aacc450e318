import Verif.Lemmas.RegTests
namespace Verif.RegTests
open Verif.Reg Verif.RegField Verif.RegAccess Verif.SvBits

/-! ## C128: the bit bash test accepts a device that follows the documentation -/

/-- C128. Through any read/write maps, on any device that changes and returns its fields as the documentation of their policies says, the
bit bash test of a register whose mirror agrees with the device reports no error, whatever the layout and policies of the fields; the mirror
agrees afterwards. -/
theorem C128_bit_bash_accepts_correct_device {σ} (dflt : Rights) (view : σ → List DF) (h : Hooks) (hq : Quiet h) (r : Reg) (hr : Reg.Reachable r)
    (hn : Narrow r) (maps : List (Via σ)) (hm : ∀ m ∈ maps, Open m ∧ FollowsDoc m.dev view) (s : σ) (hA : Agrees r (view s)) :
    ∃ t, bashReg dflt h maps r s = some t ∧ t.errs = 0 ∧ Agrees t.reg (view t.dev) := by
  obtain ⟨t, e, o, x⟩ := bashReg_clean dflt hq hn (reachable_apart hr) maps hm (reachable_good hr) hA
  exact ⟨t, e, x, o.agrees⟩

-- Non-vacuity: a register with a plain and a write-clears field, through two maps.
def wcVia : Via { fs : List DF // DevOk fs } := ⟨rwCfg, .RW, okDev⟩

theorem wc_agrees : Agrees wcReg wcDev.1 := .cons ⟨rfl, rfl, rfl, rfl, rfl⟩ (.cons ⟨rfl, rfl, rfl, rfl, rfl⟩ .nil)

example : ∃ t, bashReg .RW {} [wcVia, wcVia] wcReg wcDev = some t ∧ t.errs = 0 ∧ Agrees t.reg t.dev.1 :=
  C128_bit_bash_accepts_correct_device .RW (fun s => s.1) {} quiet_default wcReg wcReg_reachable ⟨by decide, by decide⟩ [wcVia, wcVia]
    (by
      intro m hm
      have : m = wcVia := by simpa using hm
      subst this
      exact ⟨⟨rfl, rfl, rfl, fun _ => rfl⟩, okDev_followsDoc⟩) wcDev wc_agrees

/-! ## C129: the bit bash test finds bits that do not change -/

theorem dcField_wide (rt : Rights) {x : RF} (hx : 64 < x.lsb + x.f.size) : ∀ (l : List RF) (s : Nat × List Bool), x ∈ l → l.foldlM (dcField rt) s = none := by
  have h1 : ∀ s, dcField rt s x = none := by
    intro s
    simp only [dcField, dataWidth]
    split
    · rfl
    · rw [if_pos (by omega)]
  intro l
  induction l with
  | nil => intro s h; simp at h
  | cons y l ih =>
    intro s h
    rw [List.foldlM_cons]
    rcases List.mem_cons.1 h with rfl | h
    · rw [h1]; rfl
    · cases dcField rt s y with
      | none => rfl
      | some s' => exact ih s' h

/-- C128, the limit of 64 bits is needed: with a field that reaches beyond bit 63 the test raises an exception (IndexError) through whatever map. -/
theorem C128_wide_raises {σ} (dflt : Rights) (h : Hooks) (m : Via σ) (maps : List (Via σ)) (r : Reg) (s : σ) (x : RF) (hx : x ∈ r.fields)
    (hw : 64 < x.lsb + x.f.size) : bashReg dflt h (m :: maps) r s = none := by
  simp only [bashReg, List.foldlM_cons, bashMap, dcBits, dcField_wide m.rights hw r.fields _ hx]
  rfl

-- Non-vacuity: a field in bits 60 to 67.
example : 64 < (⟨60, RegField.configure [] 8 .RW false 0 true⟩ : RF).lsb + (RegField.configure [] 8 .RW false 0 true).size := by decide

/-- C129. Whatever else the device does: if a bit of a compared read/write field always reads the same through one of the maps, the bit bash
test reports an error.  In particular, a test without errors has seen both values of every such bit through every map. -/
theorem C129_bit_bash_finds_stuck_bits {σ} (dflt : Rights) (h : Hooks) (hq : Quiet h) (r : Reg) (hr : Reg.Reachable r) (hn : Narrow r)
    (maps : List (Via σ)) (hm : ∀ m ∈ maps, Open m) (k : Nat) (hT : TestedBit r k) (m : Via σ) (hmem : m ∈ maps)
    (b : Bool) (hs : ∀ s, (m.dev.rd s).2.1.testBit k = b) (s : σ) :
    ∃ t, bashReg dflt h maps r s = some t ∧ 0 < t.errs := by
  have hG := reachable_good hr
  have hap := reachable_apart hr
  obtain ⟨l1, l2, rfl⟩ := List.append_of_mem hmem
  obtain ⟨t1, e1, s1⟩ := foldlM_inv (f := bashMap dflt h) (P := fun u : St σ => Shaped r u) l1 (by
    intro u m' hm' hu
    obtain ⟨u', e, o, _⟩ := bashMap_any dflt hq hn hap (hm m' (List.mem_append_left _ hm')) hu
    exact ⟨u', e, o⟩) ⟨r, s, 0⟩ ⟨hG, rfl, rfl⟩
  obtain ⟨t2, e2, s2, g2⟩ := bashMap_stuck dflt hq hn hap hG.disj (hm m hmem) hT s1 b hs
  obtain ⟨t3, e3, s3, g3⟩ := foldlM_inv (f := bashMap dflt h) (P := fun u : St σ => Shaped r u ∧ 0 < u.errs) l2 (by
    intro u m' hm' hu
    obtain ⟨u', e, o, g⟩ := bashMap_any dflt hq hn hap (hm m' (List.mem_append_right _ (List.mem_cons_of_mem _ hm'))) hu.1
    exact ⟨u', e, o, by have := hu.2; omega⟩) t2 ⟨s2, by omega⟩
  exact ⟨t3, by
    rw [bashReg, List.foldlM_append, e1]
    simp only [Option.bind_eq_bind, Option.bind_some, List.foldlM_cons, e2]
    exact e3, g3⟩

/-- A byte of memory whose bit 3 is stuck at one. -/
def stuckDev : Dev Nat where
  wr _ v := (v, true)
  rd s := (s, s ||| 8, true)

example : ∃ t, bashReg .RW {} [⟨rwCfg, .RW, byteDev⟩, ⟨rwCfg, .RW, stuckDev⟩] rwReg 0 = some t ∧ 0 < t.errs :=
  C129_bit_bash_finds_stuck_bits .RW {} quiet_default rwReg rwReg_reachable ⟨by decide, by decide⟩ _
    (by
      intro m hm
      rcases List.mem_cons.1 hm with rfl | hm
      · exact ⟨rfl, rfl, rfl, fun _ => rfl⟩
      · have : m = ⟨rwCfg, .RW, stuckDev⟩ := by simpa using hm
        subst this
        exact ⟨rfl, rfl, rfl, fun _ => rfl⟩) 3 ⟨by decide, _, List.mem_cons_self, by decide, by decide, by decide⟩ ⟨rwCfg, .RW, stuckDev⟩
    (by simp) true (fun s => by simp only [stuckDev, Nat.testBit_or]; simp; right; decide) 0

/-! ## C130: the reset check of one register -/

/-- C130. The reset test of a register, after the reset of the model: no error is reported exactly if the access succeeds and the device returns, at
every position that is not that of a field excluded from comparison, the reset value of the field there (its value before the reset, if it has
none), and 0 where there is no field. -/
theorem C130_reset_check {σ} (c : Cfg) (rt : Rights) (hr : c.route = .front rt) (hb : ∀ i, c.bare i = false) (d : Dev σ) (h : Hooks) (hq : Quiet h)
    (rt' : Rights) (r : Reg) (hreach : Reg.Reachable r) (s : σ) :
    ∃ t, hwResetReg c d h rt' (Reg.reset r "HARD") s = some t ∧
      (t.errs = 0 ↔ (d.rd s).2.2 = true ∧
        ∀ i, (∀ x ∈ r.fields, Covers x i → x.f.check = true) →
          (d.rd s).2.1.testBit i = assembled r.fields (fun x => (x.f.reset "HARD").getD x.f.mirrored) i) := by
  have hG := reachable_good hreach
  generalize hg : Reg.reset r "HARD" = g
  have hG' : Good g := by rw [← hg]; exact (good_step hG (.reset "HARD")).1
  obtain ⟨o, h1, h2, h3, h4, _, h6⟩ := read_quiet hr hb d hq hq g s
  have hread : doRead c d h h g s = some o := h1
  have hsh : shape o.reg = shape g := by
    rw [h6]; split
    · exact shape_predF _ _ _ _ _
    · rfl
  have hmir : ∀ i, (getMirrored g).testBit i = assembled r.fields (fun x => (x.f.reset "HARD").getD x.f.mirrored) i := by
    intro i; rw [← hg]; exact (C15_register_reset r hreach "HARD" i).2.2
  have hshr : shape g = shape r := by
    rw [← hg]
    simp only [shape, Reg.reset, List.map_map]
    refine List.map_congr_left fun x _ => ?_
    simp only [Function.comp, RegField.reset]
    split <;> rfl
  have hcov : ∀ i, (∀ x ∈ o.reg.fields, Covers x i → x.f.check = true) ↔ ∀ x ∈ r.fields, Covers x i → x.f.check = true := by
    have : shape o.reg = shape r := hsh.trans hshr
    intro i
    constructor
    · intro hh x hx hc
      obtain ⟨y, hy, e1, e2, _, e4⟩ := shape_mem this hx
      rw [← e4]; exact hh y hy ⟨e1 ▸ hc.1, by rw [e1, e2]; exact hc.2⟩
    · intro hh x hx hc
      obtain ⟨y, hy, e1, e2, _, e4⟩ := shape_mem this.symm hx
      rw [← e4]; exact hh y hy ⟨e1 ▸ hc.1, by rw [e1, e2]; exact hc.2⟩
  have hck := C58_mirror_check_iff o.reg rt' (getMirrored g) o.value
  refine ⟨⟨o.reg, o.dev, (if (!doCheck o.reg rt' (getMirrored g) o.value) then 1 else 0) + (if o.ok then 0 else 1)⟩, ?_, ?_⟩
  · simp [hwResetReg, mirror, hr, hread]
  · simp only
    rw [h3, h4] at *
    constructor
    · intro he
      have a : doCheck o.reg rt' (getMirrored g) (d.rd s).2.1 = true := by
        cases hh : doCheck o.reg rt' (getMirrored g) (d.rd s).2.1
        · rw [hh] at he; simp at he
        · rfl
      have b : (d.rd s).2.2 = true := by
        cases hh : (d.rd s).2.2
        · rw [hh] at he; simp at he
        · rfl
      refine ⟨b, fun i hi => ?_⟩
      rw [← hmir i]; exact hck.1 a i ((hcov i).2 hi)
    · rintro ⟨a, b⟩
      rw [hck.2 fun i hi => by rw [hmir i]; exact b i ((hcov i).1 hi), a]
      rfl

example : (hwResetReg rwCfg byteDev {} .RW (Reg.reset rwReg "HARD") 0).map (·.errs) = some 0 ∧
    (hwResetReg rwCfg byteDev {} .RW (Reg.reset rwReg "HARD") 4).map (·.errs) = some 1 := by decide

/-! ## C131: which registers the bit bash test covers -/

/-- C131. The walk over a block that is not excluded ends, and the registers tested are exactly those that are not excluded, of the block and of all blocks
below it that are not excluded themselves. -/
theorem C131_bit_bash_covers (n : Nat) (b : Blk) (hn : height b ≤ n) (hb : b.skip = false) :
    ∃ l, bashBlock n b = some l ∧ ∀ r, r ∈ l ↔ ∃ c, In c b ∧ Listed c r := by
  have key : ∀ (n : Nat) (b : Blk), height b ≤ n →
      ∃ l, bashBlock n b = some l ∧ ∀ r, r ∈ l ↔ b.skip = false ∧ ∃ c, In c b ∧ Listed c r := by
    intro n
    induction n with
    | zero => intro b h; have := height_pos b; omega
    | succ n ih =>
      intro b hle
      by_cases hs : b.skip = true
      · exact ⟨[], by rw [bashBlock, if_pos hs], by simp [hs]⟩
      · obtain ⟨m, e, h1, h2⟩ := mapM_exists (f := bashBlock n)
          (R := fun b l => ∀ r, r ∈ l ↔ b.skip = false ∧ ∃ c, In c b ∧ Listed c r) (below b) (fun c hc => by
            obtain ⟨l, e, hl⟩ := ih c (by have := height_below hc; omega)
            exact ⟨l, e, hl⟩)
        have hs' : b.skip = false := by simpa using hs
        refine ⟨wanted b.regs ++ m.flatten, by rw [bashBlock, if_neg hs, e]; rfl, fun r => ?_⟩
        rw [List.mem_append, mem_wanted, List.mem_flatten]
        constructor
        · rintro (h | ⟨l, hl, hr⟩)
          · exact ⟨hs', b, .self, hs', h⟩
          · obtain ⟨c, hc, hR⟩ := h1 l hl
            obtain ⟨_, d, hd, hL⟩ := (hR r).1 hr
            obtain ⟨a, ha, hi⟩ := (mem_below c b).1 hc
            exact ⟨hs', d, .sub ha (hd.trans' hi), hL⟩
        · rintro ⟨_, c, hc, hL⟩
          cases hc with
          | self => exact Or.inl hL.2
          | @sub _ d hd hi =>
            obtain ⟨l, hl, hR⟩ := h2 c ((mem_below c b).2 ⟨d, hd, hi⟩)
            exact Or.inr ⟨l, hl, (hR r).2 ⟨hL.1, c, .self, hL⟩⟩
  obtain ⟨l, e, h⟩ := key n b hn
  exact ⟨l, e, fun r => (h r).trans ⟨fun x => x.2, fun x => ⟨hb, x⟩⟩⟩

/-- C131. Nothing is tested when the block itself is excluded. -/
theorem C131_excluded (n : Nat) (b : Blk) (hb : b.skip = true) : bashBlock (n + 1) b = some [] := by rw [bashBlock, if_pos hb]

/-- A block with an excluded register, an excluded sub-block, and one below that. -/
def exBlk : Blk := .mk false [(1, false), (2, true)] [] [.mk true [(3, false)] [] [.mk false [(4, false)] [] []], .mk false [(5, false)] [] []]

example : bashBlock 3 exBlk = some [1, 4, 5] := by decide +kernel

/-! ## C132: each register once -/

/-- A chain of blocks with one register in the last. -/
def chain : Nat → Blk
  | 0 => .mk false [(0, false)] [] []
  | n + 1 => .mk false [] [] [chain n]

theorem bashBlock_mono {n : Nat} {b : Blk} {l : List Nat} (h : bashBlock n b = some l) : bashBlock (n + 1) b = some l := by
  induction n generalizing b l with
  | zero => simp [bashBlock] at h
  | succ n ih =>
    rw [bashBlock] at h ⊢
    by_cases hs : b.skip = true
    · rw [if_pos hs] at h ⊢; exact h
    · rw [if_neg hs] at h ⊢
      cases hm : (below b).mapM (bashBlock n) with
      | none => rw [hm] at h; simp at h
      | some m =>
        rw [hm] at h
        have : (below b).mapM (bashBlock (n + 1)) = some m := by
          have key : ∀ (l : List Blk) (m : List (List Nat)), l.mapM (bashBlock n) = some m → l.mapM (bashBlock (n + 1)) = some m := by
            intro l
            induction l with
            | nil => intro m h; exact h
            | cons c l ihl =>
              intro m h
              rw [List.mapM_cons] at h ⊢
              cases hc : bashBlock n c with
              | none => rw [hc] at h; simp at h
              | some x =>
                rw [hc] at h
                rw [ih hc]
                cases hl : l.mapM (bashBlock n) with
                | none => rw [hl] at h; simp at h
                | some y => rw [hl] at h; rw [ihl y hl]; exact h
          exact key _ _ hm
        rw [this]; exact h

/-- C132 fails: because the walk over a block goes over all blocks below it and the walk over each of these does so too, a register `d + 1`
levels below the model is tested `2 ^ d` times. -/
theorem C132_once_fails (d : Nat) : bashBlock (d + 2) (chain (d + 1)) = some (List.replicate (2 ^ d) 0) := by
  have key : ∀ d : Nat, ∃ m, (below (chain (d + 1))).mapM (bashBlock (d + 1)) = some m ∧ m.flatten = List.replicate (2 ^ d) 0 := by
    intro d
    induction d with
    | zero => exact ⟨[[0]], by rfl, by decide⟩
    | succ d ih =>
      obtain ⟨m, e, hm⟩ := ih
      have hb : below (chain (d + 1 + 1)) = chain (d + 1) :: below (chain (d + 1)) := by
        simp [chain, below, belowAll]
      have h1 : bashBlock (d + 2) (chain (d + 1)) = some (List.replicate (2 ^ d) 0) := by
        rw [bashBlock, e]; simp [chain, Blk.skip, Blk.regs, wanted, hm]
      have h2 : (below (chain (d + 1))).mapM (bashBlock (d + 2)) = some m := by
        have key : ∀ (l : List Blk) (m : List (List Nat)), l.mapM (bashBlock (d + 1)) = some m → l.mapM (bashBlock (d + 2)) = some m := by
          intro l
          induction l with
          | nil => intro m h; exact h
          | cons c l ihl =>
            intro m h
            rw [List.mapM_cons] at h ⊢
            cases hc : bashBlock (d + 1) c with
            | none => rw [hc] at h; simp at h
            | some x =>
              rw [hc] at h
              rw [bashBlock_mono hc]
              cases hl : l.mapM (bashBlock (d + 1)) with
              | none => rw [hl] at h; simp at h
              | some y => rw [hl] at h; rw [ihl y hl]; exact h
        exact key _ _ e
      refine ⟨List.replicate (2 ^ d) 0 :: m, by rw [hb, List.mapM_cons, h1, h2]; rfl, ?_⟩
      rw [List.flatten_cons, hm, List.replicate_append_replicate, Nat.pow_succ]
      congr 1; omega
  obtain ⟨m, e, hm⟩ := key d
  rw [bashBlock, e]
  simp [chain, Blk.skip, Blk.regs, wanted, hm]

/-- C132 holds when the sub-blocks have no sub-blocks: the registers of the block, then those of each sub-block, each once. -/
theorem C132_once_partial (n : Nat) (b : Blk) (hb : b.skip = false) (hflat : ∀ c ∈ b.blks, c.blks = []) :
    bashBlock (n + 2) b = some (wanted b.regs ++ (b.blks.map fun c => if c.skip then [] else wanted c.regs).flatten) := by
  have h1 : ∀ c : Blk, c.blks = [] → below c = [] := by
    intro c hc; cases c with
    | mk s r m bs => simp only [Blk.blks] at hc; subst hc; simp [below, belowAll]
  have h2 : ∀ bs : List Blk, (∀ c ∈ bs, c.blks = []) → belowAll bs = bs := by
    intro bs
    induction bs with
    | nil => intro _; rfl
    | cons c bs ih =>
      intro h
      rw [belowAll, h1 c (h c List.mem_cons_self), ih fun c hc => h c (List.mem_cons_of_mem _ hc)]; rfl
  have h3 : below b = b.blks := by
    cases b with
    | mk s r m bs => rw [below]; exact h2 bs hflat
  rw [bashBlock, if_neg (by simp [hb]), h3]
  rw [Reg.mapM_eq_map (bashBlock (n + 1)) (fun c => if c.skip then [] else wanted c.regs) b.blks (fun c hc => by
    rw [bashBlock, h1 c (hflat c hc)]
    cases c.skip <;> simp)]
  rfl

example : bashBlock 2 (.mk false [(1, false)] [] [.mk false [(2, false)] [] [], .mk true [(3, false)] [] []]) = some [1, 2] ∧
    bashBlock 4 (chain 3) = some [0, 0, 0, 0] := by decide +kernel

/-! ## C133: which registers the reset test covers -/

/-- C133 fails: if the first map of the model has a sub-map (as in any model put together from blocks with maps), the reset test checks no register at
all and reports nothing. -/
theorem C133_reset_covers_fails (n : Nat) (b : Blk) (m : List (Nat × Bool)) (ms : List (Bool × List (Nat × Bool))) (hm : b.maps = (true, m) :: ms)
    (l : List Nat) (h : hwBlock n b = some l) : l = [] := by
  cases n with
  | zero => simp [hwBlock] at h
  | succ n =>
    rw [hwBlock] at h
    split at h
    · simpa using h.symm
    · cases hs : (below b).mapM (hwBlock n) with
      | none => rw [hs] at h; simp at h
      | some subs =>
        rw [hs] at h
        have key : ∀ (x : List Nat) (ms : List (Bool × List (Nat × Bool))), hwMaps x true ms = [] := by
          intro x ms
          induction ms with
          | nil => rfl
          | cons a ms ih => rw [hwMaps]; simp [ih]
        have : some (hwMaps subs.flatten false b.maps) = some l := h
        rw [hm, hwMaps] at this
        simp [key] at this
        exact this

/-- A model with one register in a sub-block, whose map is a sub-map of the model's map. -/
def subBlk : Blk := .mk false [] [(true, [(0, false)])] [.mk false [(0, false)] [(false, [(0, false)])] []]

example : ∃ l, hwBlock 5 subBlk = some l := ⟨[], by decide +kernel⟩

/-- C133 fails too for a model without a map of its own: its sub-blocks are not visited. -/
theorem C133_no_map_fails (n : Nat) (b : Blk) (hm : b.maps = []) (l : List Nat) (h : hwBlock n b = some l) : l = [] := by
  cases n with
  | zero => simp [hwBlock] at h
  | succ n =>
    rw [hwBlock] at h
    split at h
    · simpa using h.symm
    · cases hs : (below b).mapM (hwBlock n) with
      | none => rw [hs] at h; simp at h
      | some subs =>
        rw [hs] at h
        have : some (hwMaps subs.flatten false b.maps) = some l := h
        rw [hm, hwMaps] at this
        simpa using this.symm

/-- C133 holds when every block has a map and no map has sub-maps: the registers checked are exactly those that are not excluded, in any map of the block
and of the blocks below it that are not excluded. -/
theorem C133_reset_covers_partial (n : Nat) (b : Blk) (hn : height b ≤ n) (hb : b.skip = false)
    (hmaps : ∀ c, In c b → c.maps ≠ [] ∧ ∀ m ∈ c.maps, m.1 = false) :
    ∃ l, hwBlock n b = some l ∧ ∀ r, r ∈ l ↔ ∃ c, In c b ∧ c.skip = false ∧ ∃ m ∈ c.maps, (r, false) ∈ m.2 := by
  have hflat : ∀ (subs : List Nat) (ms : List (Bool × List (Nat × Bool))), (∀ m ∈ ms, m.1 = false) →
      ∀ r, r ∈ hwMaps subs false ms ↔ (ms ≠ [] ∧ r ∈ subs) ∨ ∃ m ∈ ms, (r, false) ∈ m.2 := by
    intro subs ms
    induction ms with
    | nil => intro _ r; simp [hwMaps]
    | cons m ms ih =>
      intro h r
      rw [hwMaps, h m List.mem_cons_self]
      simp only [Bool.or_self, Bool.false_eq_true, if_false, List.mem_append, mem_wanted]
      rw [ih fun m hm => h m (List.mem_cons_of_mem _ hm)]
      simp only [List.mem_cons, ne_eq, reduceCtorEq, not_false_eq_true, true_and, exists_eq_or_imp]
      constructor
      · rintro ((h | h) | (h | h))
        · exact Or.inr (Or.inl h)
        · exact Or.inl h
        · exact Or.inl h.2
        · exact Or.inr (Or.inr h)
      · rintro (h | h | h)
        · exact Or.inl (Or.inr h)
        · exact Or.inl (Or.inl h)
        · exact Or.inr (Or.inr h)
  have key : ∀ (n : Nat) (b : Blk), height b ≤ n → (∀ c, In c b → c.maps ≠ [] ∧ ∀ m ∈ c.maps, m.1 = false) →
      ∃ l, hwBlock n b = some l ∧ ∀ r, r ∈ l ↔ b.skip = false ∧ ∃ c, In c b ∧ c.skip = false ∧ ∃ m ∈ c.maps, (r, false) ∈ m.2 := by
    intro n
    induction n with
    | zero => intro b h; have := height_pos b; omega
    | succ n ih =>
      intro b hle hmp
      by_cases hs : b.skip = true
      · exact ⟨[], by rw [hwBlock, if_pos hs], by simp [hs]⟩
      · obtain ⟨m, e, h1, h2⟩ := mapM_exists (f := hwBlock n)
          (R := fun b l => ∀ r, r ∈ l ↔ b.skip = false ∧ ∃ c, In c b ∧ c.skip = false ∧ ∃ m ∈ c.maps, (r, false) ∈ m.2) (below b) (fun c hc => by
            obtain ⟨a, ha, hi⟩ := (mem_below c b).1 hc
            obtain ⟨l, e, hl⟩ := ih c (by have := height_below hc; omega) (fun x hx => hmp x (.sub ha (hx.trans' hi)))
            exact ⟨l, e, hl⟩)
        have hs' : b.skip = false := by simpa using hs
        refine ⟨hwMaps m.flatten false b.maps, by rw [hwBlock, if_neg hs, e]; rfl, fun r => ?_⟩
        rw [hflat _ _ (hmp b .self).2, List.mem_flatten]
        constructor
        · rintro (⟨_, l, hl, hr⟩ | h)
          · obtain ⟨c, hc, hR⟩ := h1 l hl
            obtain ⟨_, d, hd, hL⟩ := (hR r).1 hr
            obtain ⟨a, ha, hi⟩ := (mem_below c b).1 hc
            exact ⟨hs', d, .sub ha (hd.trans' hi), hL⟩
          · exact ⟨hs', b, .self, hs', h⟩
        · rintro ⟨_, c, hc, hL⟩
          cases hc with
          | self => exact Or.inr hL.2
          | @sub _ d hd hi =>
            obtain ⟨l, hl, hR⟩ := h2 c ((mem_below c b).2 ⟨d, hd, hi⟩)
            exact Or.inl ⟨(hmp b .self).1, l, hl, (hR r).2 ⟨hL.1, c, .self, hL⟩⟩
  obtain ⟨l, e, h⟩ := key n b hn hmaps
  exact ⟨l, e, fun r => (h r).trans ⟨fun x => x.2, fun x => ⟨hb, x⟩⟩⟩

-- Non-vacuity: two levels of blocks, each with a map of its own.
def flatBlk : Blk := .mk false [] [(false, [(1, false), (2, true)])] [.mk false [] [(false, [(3, false)])] []]

example : hwBlock 2 flatBlk = some [1, 3] ∧ hwBlock 2 subBlk = some [] := by decide +kernel

end Verif.RegTests
