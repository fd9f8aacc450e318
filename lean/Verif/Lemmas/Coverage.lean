import Verif.Spec.Coverage
import Verif.Lemmas.RegBlockLock
/-!
# Coverage: bits of integers, what `set_coverage` reaches
-/
namespace Verif.Coverage
open Verif.RegBlock (State Below Legal Tree Good)

theorem int_ext {a b : Int} (h : ∀ k, Int.testBit a k = Int.testBit b k) : a = b := by
  have big : ∀ x y : Nat, ∃ k, Nat.testBit x k = false ∧ Nat.testBit y k = false := by
    intro x y
    refine ⟨x + y, ?_, ?_⟩
    · exact Nat.testBit_lt_two_pow (Nat.lt_of_lt_of_le Nat.lt_two_pow_self (Nat.pow_le_pow_right (by omega) (by omega)))
    · exact Nat.testBit_lt_two_pow (Nat.lt_of_lt_of_le Nat.lt_two_pow_self (Nat.pow_le_pow_right (by omega) (by omega)))
  match a, b with
  | .ofNat a, .ofNat b => exact congrArg Int.ofNat (Nat.eq_of_testBit_eq fun k => h k)
  | .negSucc a, .negSucc b =>
    refine congrArg Int.negSucc (Nat.eq_of_testBit_eq fun k => ?_)
    have := h k
    simpa [Int.testBit] using this
  | .ofNat a, .negSucc b =>
    obtain ⟨k, h1, h2⟩ := big a b
    have := h k
    simp only [Int.testBit] at this
    rw [h1, h2] at this; cases this
  | .negSucc a, .ofNat b =>
    obtain ⟨k, h1, h2⟩ := big a b
    have := h k
    simp only [Int.testBit] at this
    rw [h1, h2] at this; cases this

theorem land_eq_iff (a m : Int) : (Int.land a m == m) = true ↔ AllNamed m (Names a) := by
  rw [beq_iff_eq]
  constructor
  · intro h k hk
    have := congrArg (fun x => Int.testBit x k) h
    simp only [Int.testBit_land] at this
    unfold Names at *
    rw [hk] at this
    simpa using this
  · intro h
    apply int_ext
    intro k
    rw [Int.testBit_land]
    by_cases hk : Int.testBit m k = true
    · rw [hk, h k hk]; rfl
    · simp [Bool.eq_false_iff.mpr hk]

theorem names_zero (k : Nat) : ¬ Names 0 k := by
  show ¬ Int.testBit (Int.ofNat 0) k = true
  simp [Int.testBit]

theorem setItem_on (c : Cov) (x : Node) (m : Int) (y : Node) (k : Nat) :
    Names ((setItem c x m).1.on y) k ↔ (y = x ∧ Names (c.has y) k ∧ Names m k) ∨ (y ≠ x ∧ Names (c.on y) k) := by
  unfold setItem
  by_cases hm : m = 0
  · subst hm
    rw [if_pos rfl]
    by_cases hy : y = x <;> simp [upd, hy, names_zero]
  · rw [if_neg hm]
    by_cases hy : y = x
    · subst hy; simp [upd, Names, Int.testBit_land]
    · simp [upd, hy]

theorem setItem_has (c : Cov) (x : Node) (m : Int) : (setItem c x m).1.has = c.has := by
  unfold setItem; split <;> rfl

/-- What one call does: exactly the nodes in `P` are decided. -/
structure Sets (m : Int) (P : Node → Prop) (c c' : Cov) : Prop where
  has : c'.has = c.has
  on : ∀ y k, Names (c'.on y) k ↔ (P y ∧ Names (c.has y) k ∧ Names m k) ∨ (¬ P y ∧ Names (c.on y) k)

theorem Sets.trans {m : Int} {P Q : Node → Prop} {a b c : Cov} (h1 : Sets m P a b) (h2 : Sets m Q b c) : Sets m (fun y => P y ∨ Q y) a c := by
  refine ⟨h2.has.trans h1.has, fun y k => ?_⟩
  rw [h2.on, h1.on, h1.has]
  by_cases hp : P y <;> by_cases hq : Q y <;> simp [hp, hq]

theorem Sets.congr {m : Int} {P Q : Node → Prop} {a b : Cov} (h : Sets m P a b) (hq : ∀ y, P y ↔ Q y) : Sets m Q a b := by
  have : P = Q := funext fun y => propext (hq y)
  exact this ▸ h

theorem sets_fold (m : Int) (f : Nat → Node) (l : List Nat) : ∀ c, Sets m (fun y => ∃ r ∈ l, y = f r) c (l.foldl (fun c r => (setItem c (f r) m).1) c) := by
  induction l with
  | nil => intro c; exact ⟨rfl, fun y k => by simp⟩
  | cons r l ih =>
    intro c
    have h1 : Sets m (fun y => y = f r) c (setItem c (f r) m).1 := ⟨setItem_has _ _ _, setItem_on _ _ _⟩
    exact (h1.trans (ih _)).congr fun y => by simp

theorem within_step {s : State} {b : Nat} (y : Node) : Within s (.blk b) y ↔
    (((y = .blk b ∨ ∃ r ∈ (s.blk b).regs, y = .reg r) ∨ ∃ k ∈ (s.blk b).mems, y = .mem k) ∨ ∃ d ∈ (s.blk b).blks, Within s (.blk d) y) := by
  cases y with
  | blk d => simp [Within, RegBlock.below_iff (s := s) (b := b)]
  | reg r =>
    simp only [Within, Node.reg.injEq, reduceCtorEq, false_or, and_false, exists_false, or_false]
    constructor
    · rintro ⟨d, hd, hr⟩
      rcases RegBlock.below_head hd with rfl | ⟨e, he, hd⟩
      · exact .inl ⟨r, hr, rfl⟩
      · exact .inr ⟨e, he, d, hd, hr⟩
    · rintro (⟨r', hr, rfl⟩ | ⟨e, he, d, hd, hr⟩)
      · exact ⟨b, .refl, hr⟩
      · exact ⟨d, RegBlock.below_cons he hd, hr⟩
  | mem r =>
    simp only [Within, Node.mem.injEq, reduceCtorEq, false_or, and_false, exists_false, or_false]
    constructor
    · rintro ⟨d, hd, hr⟩
      rcases RegBlock.below_head hd with rfl | ⟨e, he, hd⟩
      · exact .inl ⟨r, hr, rfl⟩
      · exact .inr ⟨e, he, d, hd, hr⟩
    · rintro (⟨r', hr, rfl⟩ | ⟨e, he, d, hd, hr⟩)
      · exact ⟨b, .refl, hr⟩
      · exact ⟨d, RegBlock.below_cons he hd, hr⟩

theorem sets_foldM {m : Int} {s : State} {n : Nat} (l : List Nat)
    (ih : ∀ d ∈ l, ∀ c, ∃ c', setBlock s m n c d = some c' ∧ Sets m (Within s (.blk d)) c c') :
    ∀ c, ∃ c', l.foldlM (fun c d => setBlock s m n c d) c = some c' ∧ Sets m (fun y => ∃ d ∈ l, Within s (.blk d) y) c c' := by
  induction l with
  | nil => intro c; exact ⟨c, rfl, ⟨rfl, fun y k => by simp⟩⟩
  | cons d l ih' =>
    intro c
    obtain ⟨c1, e1, h1⟩ := ih d List.mem_cons_self c
    obtain ⟨c2, e2, h2⟩ := ih' (fun x hx => ih x (List.mem_cons_of_mem _ hx)) c1
    refine ⟨c2, ?_, (h1.trans h2).congr fun y => by simp⟩
    rw [List.foldlM_cons, e1]; exact e2

theorem setBlock_sets {s : State} {rank : Nat → Nat} (hr : ∀ b, ∀ c ∈ (s.blk b).blks, rank c < rank b) (m : Int) :
    ∀ n b, rank b < n → ∀ c, ∃ c', setBlock s m n c b = some c' ∧ Sets m (Within s (.blk b)) c c' := by
  intro n
  induction n with
  | zero => intro b hb; omega
  | succ n ih =>
    intro b hb c
    have h0 : Sets m (fun y => y = .blk b) c { c with on := upd c.on (.blk b) (Int.land (c.has (.blk b)) m) } := by
      refine ⟨rfl, fun y k => ?_⟩
      by_cases hy : y = .blk b
      · subst hy; simp [upd, Names, Int.testBit_land]
      · simp [upd, hy]
    have h1 := sets_fold m Node.reg (s.blk b).regs { c with on := upd c.on (.blk b) (Int.land (c.has (.blk b)) m) }
    have h2 := sets_fold m Node.mem (s.blk b).mems ((s.blk b).regs.foldl (fun c r => (setItem c (.reg r) m).1)
      { c with on := upd c.on (.blk b) (Int.land (c.has (.blk b)) m) })
    obtain ⟨c', e, h3⟩ := sets_foldM (s := s) (m := m) (n := n) (s.blk b).blks (fun d hd => ih d (by have := hr b d hd; omega)) _
    exact ⟨c', e, (((h0.trans h1).trans h2).trans h3).congr fun y => (within_step y).symm⟩

theorem set_sets {s : State} (h : Tree s) : ∃ N, ∀ n, N ≤ n → ∀ x m c, (∀ b, x = .blk b → ∃ N, ∀ n, N ≤ n → ∃ c', set s n c x m = some c' ∧ Sets m (Within s x) c c'.1) ∧
    ((∀ b, x ≠ .blk b) → ∃ c', set s n c x m = some c' ∧ Sets m (Within s x) c c'.1) := by
  obtain ⟨rank, hr⟩ := h.rank
  refine ⟨0, fun n _ x m c => ⟨?_, ?_⟩⟩
  · rintro b rfl
    refine ⟨rank b + 1, fun n hn => ?_⟩
    obtain ⟨c', e, hs⟩ := setBlock_sets hr m n b (by omega) c
    exact ⟨(c', c'.on (.blk b)), by simp [set, e], hs⟩
  · intro hx
    cases x with
    | blk b => exact absurd rfl (hx b)
    | reg r =>
      refine ⟨setItem c (.reg r) m, rfl, setItem_has _ _ _, fun y k => ?_⟩
      rw [setItem_on]; simp [Within, eq_comm]
    | mem r =>
      refine ⟨setItem c (.mem r) m, rfl, setItem_has _ _ _, fun y k => ?_⟩
      rw [setItem_on]; simp [Within, eq_comm]

theorem set_ok {s : State} (h : Tree s) (x : Node) (m : Int) (c : Cov) :
    ∃ N, ∀ n, N ≤ n → ∃ c', set s n c x m = some c' ∧ Sets m (Within s x) c c'.1 := by
  obtain ⟨N, hN⟩ := set_sets h
  have := hN N (Nat.le_refl _) x m c
  by_cases hb : ∃ b, x = .blk b
  · obtain ⟨b, hb⟩ := hb; exact this.1 b hb
  · refine ⟨N, fun n hn => (hN n hn x m c).2 fun b e => hb ⟨b, e⟩⟩

/-- The two agree. -/
structure Agree (c : Cov) (w : Want) : Prop where
  has : ∀ y k, Names (c.has y) k ↔ w.has y k
  on : ∀ y k, Names (c.on y) k ↔ w.on y k

/-- What is on is present. -/
def Sub (c : Cov) : Prop := ∀ y k, Names (c.on y) k → Names (c.has y) k

theorem run_agree (ops : List Op) : ∀ (s : State) (c : Cov) (w : Want), Good s → LegalOps s ops → Agree c w → Sub c →
    ∃ N, ∃ s' c', (∀ n, N ≤ n → run n (s, c) ops = some (s', c')) ∧ Agree c' (want s w ops) ∧ Sub c' := by
  induction ops with
  | nil => intro s c w hg _ ha hs; exact ⟨0, s, c, fun n _ => rfl, ha, hs⟩
  | cons op ops ih =>
    intro s c w hg hl ha hs
    cases op with
    | tree op =>
      obtain ⟨N, s', c', h, ha', hs'⟩ := ih (RegBlock.step s op) c w (RegBlock.good_step hg op hl.1) hl.2 ha hs
      refine ⟨N, s', c', fun n hn => ?_, ha', hs'⟩
      have := h n hn
      simpa [run, step, List.foldlM_cons] using this
    | add x m =>
      obtain ⟨N, s', c', h, ha', hs'⟩ := ih s (add c x m) { w with has := fun y k => w.has y k ∨ (y = x ∧ Names m k) } hg hl
        ⟨fun y k => by
          show _ ↔ (w.has y k ∨ (y = x ∧ Names m k))
          by_cases hy : y = x
          · subst hy; rw [← ha.has]; simp [add, upd, Names, Int.testBit_lor]
          · rw [← ha.has]; simp [add, upd, hy], ha.on⟩
        (fun y k hk => by
          have := hs y k hk
          by_cases hy : y = x
          · subst hy; simp only [add, upd, if_true, Names, Int.testBit_lor]; unfold Names at this; rw [this]; rfl
          · simpa [add, upd, hy] using this)
      refine ⟨N, s', c', fun n hn => ?_, ha', hs'⟩
      have := h n hn
      simpa [run, step, List.foldlM_cons] using this
    | set x m =>
      obtain ⟨N1, h1⟩ := set_ok hg.tree x m c
      obtain ⟨r, e1, s1⟩ := h1 N1 (Nat.le_refl _)
      have uniq : ∀ n, N1 ≤ n → ∃ v, set s n c x m = some (r.1, v) := by
        intro n hn
        obtain ⟨r', e', s'⟩ := h1 n hn
        refine ⟨r'.2, e'.trans (congrArg some ?_)⟩
        refine Prod.ext ?_ rfl
        have hh : r'.1.has = r.1.has := s'.has.trans s1.has.symm
        have ho : r'.1.on = r.1.on := funext fun y => int_ext fun k => by
          have := (s'.on y k).trans (s1.on y k).symm
          exact Bool.eq_iff_iff.mpr this
        show r'.1 = r.1
        cases h' : r'.1; cases h'' : r.1
        rw [h', h''] at hh ho
        simp only at hh ho
        rw [hh, ho]
      obtain ⟨N, s', c', h, ha', hs'⟩ := ih s r.1 { w with on := fun y k => (Within s x y ∧ w.has y k ∧ Names m k) ∨ (¬ Within s x y ∧ w.on y k) } hg hl
        ⟨fun y k => by rw [s1.has]; exact ha.has y k, fun y k => by rw [s1.on, ha.has, ha.on]⟩
        (fun y k hk => by
          rw [s1.has]
          rcases (s1.on y k).mp hk with ⟨_, h, _⟩ | ⟨_, h⟩
          · exact h
          · exact hs y k h)
      refine ⟨max N1 N, s', c', fun n hn => ?_, ha', hs'⟩
      obtain ⟨v, hv⟩ := uniq n (by omega)
      have := h n (by omega)
      simpa [run, step, List.foldlM_cons, hv] using this

theorem sampleRegs_walk (s : State) : ∀ n b, sampleRegs s n b = RegBlock.walk s (fun b => (s.blk b).regs) n b := by
  intro n
  induction n with
  | zero => intro b; rfl
  | succ n ih =>
    intro b
    have : sampleRegs s n = RegBlock.walk s (fun b => (s.blk b).regs) n := funext ih
    simp only [sampleRegs, RegBlock.walk, this]

theorem sampleBlks_walk (s : State) : ∀ n b, sampleBlks s n b = RegBlock.walk s (fun b => [b]) n b := by
  intro n
  induction n with
  | zero => intro b; rfl
  | succ n ih =>
    intro b
    have : sampleBlks s n = RegBlock.walk s (fun b => [b]) n := funext ih
    simp only [sampleBlks, RegBlock.walk, this]; rfl

end Verif.Coverage
