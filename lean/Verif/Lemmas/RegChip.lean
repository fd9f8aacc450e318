import Verif.Spec.RegChip
import Verif.Props.RegSystem
namespace Verif.RegChip
open Verif.Reg Verif.RegField Verif.RegAccess Verif.RegMap Verif.RegSystem Verif.RegConc

/-! ### Accesses to a device of independent cells that refuses nothing -/

theorem runWrites_cell {γ} {cell : Nat → γ → BusOp → γ × Nat × Bool} (hok : ∀ a c op, (cell a c op).2.2 = true) (ops : List BusOp)
    (hd : (ops.map (·.addr)).Nodup) (s : Nat → γ) (b : Bool) :
    ∃ s' k, runWrites (cellBus cell) ops (s, b) = (s', k) ∧ (k = true ∨ ops = []) ∧
      (∀ op ∈ ops, s' op.addr = (cell op.addr (s op.addr) op).1) ∧ ∀ a, a ∉ ops.map (·.addr) → s' a = s a := by
  induction ops generalizing s b with
  | nil => exact ⟨s, b, rfl, .inr rfl, by simp, fun _ _ => rfl⟩
  | cons op ops ih =>
    rw [List.map_cons, List.nodup_cons] at hd
    obtain ⟨s', k, h1, h2, h3, h4⟩ := ih hd.2 (fun a => if a = op.addr then (cell op.addr (s op.addr) op).1 else s a) true
    refine ⟨s', k, ?_, .inl ?_, ?_, ?_⟩
    · simp only [runWrites, cellBus, hok, Bool.true_eq_false, if_false]; exact h1
    · rcases h2 with h | h
      · exact h
      · subst h
        simp only [runWrites, Prod.mk.injEq] at h1
        exact h1.2.symm
    · intro o ho
      rcases List.mem_cons.1 ho with rfl | ho
      · rw [h4 _ hd.1]; simp
      · rw [h3 o ho, if_neg]
        intro e
        exact hd.1 (List.mem_map.2 ⟨o, ho, e⟩)
    · intro a ha
      rw [List.map_cons, List.mem_cons, not_or] at ha
      rw [h4 a ha.2, if_neg ha.1]

theorem runReads_cell {γ} {cell : Nat → γ → BusOp → γ × Nat × Bool} (hok : ∀ a c op, (cell a c op).2.2 = true) (w : Nat) (ops : List BusOp)
    (hd : (ops.map (·.addr)).Nodup) (s : Nat → γ) (v : Nat) (b : Bool) :
    ∃ s' k v', runReads (cellBus cell) w ops (s, v, b) = (s', v', k) ∧ (k = true ∨ ops = []) ∧
      (∀ op ∈ ops, s' op.addr = (cell op.addr (s op.addr) { op with data := 0 }).1) ∧ (∀ a, a ∉ ops.map (·.addr) → s' a = s a) ∧
      ∀ i, v'.testBit i = (v.testBit i || ops.any fun op =>
        (((cell op.addr (s op.addr) { op with data := 0 }).2.1 &&& (2 ^ (w * 8) - 1)) <<< (op.data * 8)).testBit i) := by
  induction ops generalizing s v b with
  | nil => exact ⟨s, b, v, rfl, .inr rfl, by simp, fun _ _ => rfl, by simp⟩
  | cons op ops ih =>
    rw [List.map_cons, List.nodup_cons] at hd
    obtain ⟨s', k, v', h1, h2, h3, h4, h5⟩ := ih hd.2 (fun a => if a = op.addr then (cell op.addr (s op.addr) { op with data := 0 }).1 else s a)
      (v ||| (((cell op.addr (s op.addr) { op with data := 0 }).2.1 &&& (2 ^ (w * 8) - 1)) <<< (op.data * 8))) true
    have hne : ∀ o ∈ ops, o.addr ≠ op.addr := fun o ho e => hd.1 (List.mem_map.2 ⟨o, ho, e⟩)
    refine ⟨s', k, v', ?_, .inl ?_, ?_, ?_, ?_⟩
    · simp only [runReads, cellBus, hok, Bool.true_eq_false, if_false]; exact h1
    · rcases h2 with h | h
      · exact h
      · subst h
        simp only [runReads, Prod.mk.injEq] at h1
        exact h1.2.2.symm
    · intro o ho
      rcases List.mem_cons.1 ho with rfl | ho
      · rw [h4 _ hd.1]; simp
      · rw [h3 o ho, if_neg (hne o ho)]
    · intro a ha
      rw [List.map_cons, List.mem_cons, not_or] at ha
      rw [h4 a ha.2, if_neg ha.1]
    · intro i
      have hc : ∀ (l : List BusOp), (∀ o ∈ l, o.addr ≠ op.addr) →
          (l.any fun o => (((cell o.addr ((fun a => if a = op.addr then (cell op.addr (s op.addr) { op with data := 0 }).1 else s a) o.addr) { o with data := 0 }).2.1 &&& (2 ^ (w * 8) - 1)) <<< (o.data * 8)).testBit i) =
          (l.any fun o => (((cell o.addr (s o.addr) { o with data := 0 }).2.1 &&& (2 ^ (w * 8) - 1)) <<< (o.data * 8)).testBit i) := by
        intro l
        induction l with
        | nil => intro _; rfl
        | cons o l ih2 =>
          intro h
          rw [List.any_cons, List.any_cons, ih2 fun x hx => h x (by simp [hx])]
          simp only [h o (by simp), if_false]
      rw [h5 i, hc ops hne, Nat.testBit_or, List.any_cons, Bool.or_assoc]

theorem chip_ok (w : Nat) (pol : Nat → Nat → Option Acc) (a : Nat) (c : Cell) (op : BusOp) : (chipCell w pol a c op).2.2 = true := by
  unfold chipCell; cases op.kind <;> rfl

theorem word_lt {w k n : Nat} (hk : k < 8 * w * n) : k / (8 * w) < n := Nat.div_lt_of_lt_mul hk

theorem wordOf_get {w k : Nat} {addrs : List Nat} (hk : k < 8 * w * addrs.length) : wordOf w addrs k = addrs[k / (8 * w)]'(word_lt hk) := by
  rw [wordOf, List.getD_eq_getElem?_getD, List.getElem?_eq_getElem (word_lt hk)]; rfl

/-- What a write of a register does to the chip. -/
theorem chip_write (w : Nat) (hw : 1 ≤ w) (pol : Nat → Nat → Option Acc) {order : Order} (ho : Reorders order) (nb : Int) (be : Nat) {addrs : List Nat}
    (hne : addrs ≠ []) (hd : addrs.Nodup) (s : Nat → Cell) (v : Nat) :
    ∃ s', busWrite (chip w pol) order w nb be 0 addrs [v] (s, true) = (s', true) ∧ (∀ a ∈ addrs, (s' a).written = true) ∧
      (∀ k, k < 8 * w * addrs.length → bitOf w addrs s' k = match pol (wordOf w addrs k) (k % (8 * w)) with
        | some acc => (doc acc).1.bit (s (wordOf w addrs k)).written (bitOf w addrs s k) (v.testBit k)
        | none => bitOf w addrs s k) ∧ ∀ a, a ∉ addrs → s' a = s a := by
  have hperm := ho (mkAccesses .write w v nb be 0 addrs)
  have hmap : ((order (mkAccesses .write w v nb be 0 addrs)).map (·.addr)).Perm addrs := by
    have := hperm.map (·.addr)
    rwa [mkAccesses_addrs] at this
  obtain ⟨s', k, h1, h2, h3, h4⟩ := runWrites_cell (chip_ok w pol) (order (mkAccesses .write w v nb be 0 addrs)) (hmap.nodup_iff.2 hd) s true
  have hk : k = true := by
    rcases h2 with h | h
    · exact h
    · rw [h] at hmap; simp at hmap; exact absurd hmap hne
  have hword : ∀ j (hj : j < addrs.length), s' addrs[j] = (chipCell w pol addrs[j] (s addrs[j]) (mkOp .write w v nb be j addrs[j])).1 := by
    intro j hj
    have := h3 (mkOp .write w v nb be j addrs[j]) (hperm.mem_iff.2 ((mkAccesses_mem _ _ _ _ _ _ _).2 ⟨j, hj, rfl⟩))
    exact this
  refine ⟨s', by simp only [busWrite, chip, h1, hk], ?_, ?_, fun a ha => h4 a fun hc => ha (hmap.mem_iff.1 hc)⟩
  · intro a ha
    obtain ⟨j, hj, rfl⟩ := List.getElem_of_mem ha
    rw [hword j hj]; rfl
  · intro k hk
    have hmod : k % (8 * w) < w * 8 := by rw [Nat.mul_comm w 8]; exact Nat.mod_lt _ (by omega)
    have hbit : ((v >>> (k / (8 * w) * w * 8)) &&& (2 ^ (w * 8) - 1)).testBit (k % (8 * w)) = v.testBit k := by
      rw [Nat.and_two_pow_sub_one_eq_mod, Nat.testBit_mod_two_pow, Nat.testBit_shiftRight]
      simp only [hmod, decide_true, Bool.true_and]
      congr 1
      rw [Nat.mul_assoc, Nat.mul_comm w 8, Nat.mul_comm (k / (8 * w))]
      exact Nat.div_add_mod k (8 * w)
    simp only [bitOf, wordOf_get hk, hword _ (word_lt hk)]
    simp only [chipCell, mkOp, hbit]
    cases pol (addrs[k / (8 * w)]'(word_lt hk)) (k % (8 * w)) <;> rfl

/-- What a read of a register does to the chip. -/
theorem chip_read (w : Nat) (hw : 1 ≤ w) (pol : Nat → Nat → Option Acc) {order : Order} (ho : Reorders order) (nb : Int) (be : Nat) {addrs : List Nat}
    (hne : addrs ≠ []) (hd : addrs.Nodup) (s : Nat → Cell) :
    ∃ s' v, busRead (chip w pol) order w nb be 0 addrs 1 (s, true) = (s', [v], true) ∧ (∀ a ∈ addrs, (s' a).written = (s a).written) ∧
      (∀ k, k < 8 * w * addrs.length → bitOf w addrs s' k = match (pol (wordOf w addrs k) (k % (8 * w))).map fun acc => (doc acc).2 with
        | some .clears => false
        | some .sets => true
        | _ => bitOf w addrs s k) ∧ (∀ a, a ∉ addrs → s' a = s a) ∧
      ∀ k, v.testBit k = (decide (k < 8 * w * addrs.length) && (readable (pol (wordOf w addrs k) (k % (8 * w))) && bitOf w addrs s k)) := by
  have hperm := ho (mkAccesses .read w 0 nb be 0 addrs)
  have hmap : ((order (mkAccesses .read w 0 nb be 0 addrs)).map (·.addr)).Perm addrs := by
    have := hperm.map (·.addr)
    rwa [mkAccesses_addrs] at this
  obtain ⟨s', k, v, h1, h2, h3, h4, h5⟩ := runReads_cell (chip_ok w pol) w (order (mkAccesses .read w 0 nb be 0 addrs)) (hmap.nodup_iff.2 hd) s 0 true
  have hk : k = true := by
    rcases h2 with h | h
    · exact h
    · rw [h] at hmap; simp at hmap; exact absurd hmap hne
  have hword : ∀ j (hj : j < addrs.length), s' addrs[j] = (chipCell w pol addrs[j] (s addrs[j]) { mkOp .read w 0 nb be j addrs[j] with data := 0 }).1 := by
    intro j hj
    exact h3 (mkOp .read w 0 nb be j addrs[j]) (hperm.mem_iff.2 ((mkAccesses_mem _ _ _ _ _ _ _).2 ⟨j, hj, rfl⟩))
  refine ⟨s', v, by simp only [busRead, chip, h1, hk], ?_, ?_, fun a ha => h4 a fun hc => ha (hmap.mem_iff.1 hc), ?_⟩
  · intro a ha
    obtain ⟨j, hj, rfl⟩ := List.getElem_of_mem ha
    rw [hword j hj]; rfl
  · intro k hk
    simp only [bitOf, wordOf_get hk, hword _ (word_lt hk)]
    simp only [chipCell, mkOp]
    rfl
  · intro k
    rw [h5 k]
    simp only [Nat.zero_testBit, Bool.false_or]
    have hterm : ∀ j (hj : j < addrs.length), ((((chipCell w pol addrs[j] (s addrs[j]) { mkOp .read w 0 nb be j addrs[j] with data := 0 }).2.1 &&& (2 ^ (w * 8) - 1)) <<<
        ((mkOp .read w 0 nb be j addrs[j]).data * 8)).testBit k) =
        (decide (j = k / (8 * w)) && (readable (pol addrs[j] (k % (8 * w))) && (s addrs[j]).bit (k % (8 * w)))) := by
      intro j hj
      simp only [chipCell, mkOp, Nat.testBit_shiftLeft, Nat.and_two_pow_sub_one_eq_mod, Nat.testBit_mod_two_pow, ofBits_aux]
      have hpos : 0 < 8 * w := by omega
      have e : j * w * 8 = 8 * w * j := by rw [Nat.mul_assoc, Nat.mul_comm w 8, Nat.mul_comm j]
      rw [e, Nat.mul_comm w 8]
      by_cases hj' : j = k / (8 * w)
      · subst hj'
        have h1 : 8 * w * (k / (8 * w)) ≤ k := Nat.mul_div_le k (8 * w)
        have h2 : k - 8 * w * (k / (8 * w)) = k % (8 * w) := by
          have := Nat.div_add_mod k (8 * w); omega
        have h3 : k % (8 * w) < 8 * w := Nat.mod_lt _ hpos
        simp [h1, h2, h3]
      · by_cases h1 : k ≥ 8 * w * j
        · have h2 : ¬ k - 8 * w * j < 8 * w := by
            intro h
            apply hj'
            have : k < 8 * w * (j + 1) := by rw [Nat.mul_add, Nat.mul_one]; omega
            symm
            exact Nat.div_eq_of_lt_le (by rw [Nat.mul_comm]; exact h1) (by rw [Nat.mul_comm]; exact this)
          simp [hj', h2]
        · simp [hj', h1]
    by_cases hk : k < 8 * w * addrs.length
    · simp only [hk, decide_true, Bool.true_and, bitOf, wordOf_get hk]
      rw [Bool.eq_iff_iff, List.any_eq_true]
      constructor
      · rintro ⟨op, hop, hb⟩
        obtain ⟨j, hj, rfl⟩ := (mkAccesses_mem _ _ _ _ _ _ _).1 (hperm.mem_iff.1 hop)
        have hb := (hterm j hj).symm.trans hb
        simp only [Bool.and_eq_true, decide_eq_true_eq] at hb
        obtain ⟨rfl, h1, h2⟩ := hb
        simp [h1, h2]
      · intro hb
        refine ⟨mkOp .read w 0 nb be (k / (8 * w)) (addrs[k / (8 * w)]'(word_lt hk)), hperm.mem_iff.2 ((mkAccesses_mem _ _ _ _ _ _ _).2 ⟨_, word_lt hk, rfl⟩), ?_⟩
        refine (hterm _ (word_lt hk)).trans ?_
        simpa using hb
    · simp only [hk, decide_false, Bool.false_and]
      rw [List.any_eq_false]
      intro op hop hb
      obtain ⟨j, hj, rfl⟩ := (mkAccesses_mem _ _ _ _ _ _ _).1 (hperm.mem_iff.1 hop)
      have hb := (hterm j hj).symm.trans hb
      simp only [Bool.and_eq_true, decide_eq_true_eq] at hb
      obtain ⟨rfl, _⟩ := hb
      have : k < 8 * w * (k / (8 * w) + 1) := by
        have := Nat.div_add_mod k (8 * w)
        have := Nat.mod_lt k (show 8 * w > 0 by omega)
        rw [Nat.mul_add, Nat.mul_one]; omega
      exact hk (Nat.lt_of_lt_of_le this (Nat.mul_le_mul_left _ hj))

end Verif.RegChip
