import Verif.Model.RegTestsAll
import Verif.Lemmas.RegChipDev
import Verif.Lemmas.RegAccessTest
/-!
# C342, C343, C344: the built-in register tests of a block, down to the words on the bus

Puts together the walks over the blocks (C131, C133), the tests of single registers (C128, C129), the accesses and the words on the bus (C330).
-/
namespace Verif.RegTests
open Verif.Reg Verif.RegField Verif.RegAccess Verif.RegMap Verif.RegSystem Verif.RegConc Verif.RegChip
open Verif.RegAccessTest (cover_unique)

/-- Every register the block or one below it lists is one of the `n` registers. -/
def Names (n : Nat) (b : Blk) : Prop := ∀ c, In c b → (∀ r ∈ c.regs, r.1 < n) ∧ ∀ m ∈ c.maps, ∀ r ∈ m.2, r.1 < n

theorem narrow_shape {r r' : Reg} (h : shape r' = shape r) (hb : r'.nBits = r.nBits) (hn : Narrow r) : Narrow r' := by
  refine ⟨by rw [hb]; exact hn.1, fun x hx => ?_⟩
  obtain ⟨y, hy, e1, e2, _⟩ := shape_mem h.symm hx
  have := hn.2 y hy; omega

theorem wired_shape {w : Nat} {pol : Nat → Nat → Option Acc} {addrs : List Nat} {r r' : Reg} (h : shape r' = shape r) (hw : Wired w pol addrs r) : Wired w pol addrs r' := by
  refine wired_lay ?_ hw
  have e : ∀ q : Reg, q.fields.map lay = (shape q).map fun p => (p.1, p.2.1, p.2.2.1) := by
    intro q; simp only [shape, List.map_map]; rfl
  rw [e, e, h]

/-- The bit bash test of one register of the chip. -/
theorem bash_chip {order : Order} (ho : Reorders order) {w : Nat} (hw : 1 ≤ w) (pol : Nat → Nat → Option Acc) {p : Port} (hp : Auto p) (hrt : p.rt = .RW)
    (hne : p.addrs ≠ []) (hd : p.addrs.Nodup) {h : Hooks} (hq : Quiet h) {r : Reg} (hn : Narrow r) (hap : Apart r.fields) {s : Nat → Cell} (hS : Sound w pol p.addrs s r) :
    ∃ t, bashReg p.dflt h [⟨p.cfg, p.rt, regDev (chip w pol) order w r.nBits p.addrs⟩] r s = some t ∧ t.errs = 0 ∧ Sound w pol p.addrs t.dev t.reg ∧
      shape t.reg = shape r ∧ t.reg.nBits = r.nBits ∧ ∀ a, a ∉ p.addrs → t.dev a = s a := by
  let s0 : EvenState (r.fields ≠ []) p.addrs := ⟨s, even_sound hS hne⟩
  obtain ⟨t, e, o, x⟩ := bashReg_clean p.dflt hq hn hap [⟨p.cfg, p.rt, evenDev (q := r.fields ≠ []) hw pol ho hne hd r.nBits⟩]
    (by
      intro m hm
      simp only [List.mem_singleton] at hm
      subst hm
      exact ⟨⟨hp.rw, hrt, hp.auto, hp.bare⟩, evenDev_follows hw pol ho hne hd r.nBits hS.wired⟩) (s := s0) hS.good (agrees_fieldsIn hne hS)
  have hR := bashReg_alike (evenDev_alike (q := r.fields ≠ []) hw pol ho hne hd r.nBits s) p.cfg p.dflt h p.rt r (s := s) (t := s0) ⟨rfl, fun _ _ => rfl⟩
  rw [e] at hR
  generalize hg : bashReg p.dflt h [⟨p.cfg, p.rt, regDev (chip w pol) order w r.nBits p.addrs⟩] r s = g at hR
  cases hR with
  | some hR =>
    next t' =>
    obtain ⟨h1, h2, h3, h4⟩ := hR
    refine ⟨t', rfl, by rw [h2, x], ?_, by rw [h1]; exact o.shape, by rw [h1]; exact o.bits, h4⟩
    have := (sound_fieldsIn o.good hS.wired o.agrees).1
    rw [h1, ← h3]; exact this

/-- C342. On a chip that follows the documented access policies, with mirrors that agree with it, the bit bash test of a block ends, reports no error
(which registers it tests: C131), and leaves the mirrors in agreement with the chip and all other addresses alone. -/
theorem C342_bit_bash_accepts_chip {n : Nat} (order : Order) (ho : Reorders order) (w : Nat) (hw : 1 ≤ w) (pol : Nat → Nat → Option Acc) (ports : Fin n → Port)
    (hA : RegSystem.Apart ports) (hp : ∀ i, Auto (ports i)) (hrt : ∀ i, (ports i).rt = .RW) (h : Hooks) (hq : Quiet h) (regs : Fin n → Reg) (hreach : ∀ i, Reg.Reachable (regs i))
    (hnar : ∀ i, Narrow (regs i)) (hwired : ∀ i, Wired w pol (ports i).addrs (regs i)) (s : Nat → Cell) (hm : ∀ i, Mirrors w (ports i).addrs s (regs i))
    (fuel : Nat) (b : Blk) (hf : height b ≤ fuel) (hb : b.skip = false) (hN : Names n b) :
    ∃ st, bashTest (chip w pol) order w ports h fuel b ⟨regs, s⟩ = some (st, 0) ∧ (∀ i, Mirrors w (ports i).addrs st.dev (st.regs i)) ∧
      ∀ a, (∀ i, a ∉ (ports i).addrs) → st.dev a = s a := by
  obtain ⟨l, hl, hmem⟩ := C131_bit_bash_covers fuel b hf hb
  obtain ⟨t, e, h1, h2, h3⟩ := foldlM_inv (f := testOne fun i r s => bashReg (ports i).dflt h [via (chip w pol) order w ports i r] r s)
    (P := fun t : RegSystem.State n (Nat → Cell) × Nat => (∀ i, Sound w pol (ports i).addrs t.1.dev (t.1.regs i) ∧ shape (t.1.regs i) = shape (regs i) ∧ (t.1.regs i).nBits = (regs i).nBits) ∧
      (∀ a, (∀ i, a ∉ (ports i).addrs) → t.1.dev a = s a) ∧ t.2 = 0) l (by
      intro t k hk ⟨h1, h2, h3⟩
      obtain ⟨c, hc, hcl⟩ := (hmem k).1 hk
      have hkn : k < n := (hN c hc).1 _ hcl.2
      obtain ⟨g1, g2, g3⟩ := h1 ⟨k, hkn⟩
      obtain ⟨u, e, u1, u2, u3, u4, u5⟩ := bash_chip ho hw pol (hp ⟨k, hkn⟩) (hrt ⟨k, hkn⟩) (hA.some _) (hA.once _) hq (narrow_shape g2 g3 (hnar _))
        (shape_apart g2 (reachable_apart (hreach _))) g1
      refine ⟨(⟨fun j => if j = ⟨k, hkn⟩ then u.reg else t.1.regs j, u.dev⟩, t.2 + u.errs), ?_, fun i => ?_, fun a ha => ?_, ?_⟩
      · simp only [testOne, hkn, dif_pos]
        rw [show bashReg (ports ⟨k, hkn⟩).dflt h [via (chip w pol) order w ports ⟨k, hkn⟩ (t.1.regs ⟨k, hkn⟩)] (t.1.regs ⟨k, hkn⟩) t.1.dev = some u from e]
        rfl
      · by_cases hi : i = ⟨k, hkn⟩
        · subst hi
          simp only [if_true]
          exact ⟨u2, u3.trans g2, u4.trans g3⟩
        · simp only [hi, if_false]
          exact ⟨sound_other (i := ⟨k, hkn⟩) (fun a ha => hA.apart i _ hi a ha) u5 (h1 i).1, (h1 i).2⟩
      · show u.dev a = s a
        rw [u5 a (ha _), h2 a ha]
      · show t.2 + u.errs = 0
        rw [h3, u1]) (⟨regs, s⟩, 0) ⟨fun i => ⟨⟨reachable_good (hreach i), hwired i, hm i⟩, rfl, rfl⟩, fun _ _ => rfl, rfl⟩
  refine ⟨t.1, ?_, fun i => (h1 i).1.mirrors, h2⟩
  simp only [bashTest, hl, Option.bind_eq_bind, Option.bind_some, e]
  rw [← h3]

/-- C343. Whatever is behind the bus: if a bit of a compared read/write field of a register the test covers always reads the same, the bit bash test of the block
reports an error. -/
theorem C343_bit_bash_finds_stuck_bits {n : Nat} {σ} (bus : Bus σ) (order : Order) (w : Nat) (ports : Fin n → Port)
    (hp : ∀ i, Auto (ports i)) (hrt : ∀ i, (ports i).rt = .RW) (h : Hooks) (hq : Quiet h) (regs : Fin n → Reg) (hreach : ∀ i, Reg.Reachable (regs i))
    (hnar : ∀ i, Narrow (regs i)) (s : σ) (fuel : Nat) (b : Blk) (hf : height b ≤ fuel) (hb : b.skip = false) (hN : Names n b)
    (c : Blk) (hc : In c b) (i : Fin n) (hi : Listed c i.val) (k : Nat) (hT : TestedBit (regs i) k) (v : Bool)
    (hs : ∀ s, ((regDev bus order w (regs i).nBits (ports i).addrs).rd s).2.1.testBit k = v) :
    ∃ st e, bashTest bus order w ports h fuel b ⟨regs, s⟩ = some (st, e) ∧ 0 < e := by
  obtain ⟨l, hl, hmem⟩ := C131_bit_bash_covers fuel b hf hb
  obtain ⟨l1, l2, rfl⟩ := List.append_of_mem ((hmem i.val).2 ⟨c, hc, hi⟩)
  let f := testOne (n := n) fun i r (s : σ) => bashReg (ports i).dflt h [via bus order w ports i r] r s
  let P : Nat → RegSystem.State n σ × Nat → Prop := fun m t =>
    (∀ i, Good (t.1.regs i) ∧ shape (t.1.regs i) = shape (regs i) ∧ (t.1.regs i).nBits = (regs i).nBits) ∧ m ≤ t.2
  have one : ∀ (j : Fin n) (m d : Nat) (t : RegSystem.State n σ × Nat), P m t →
      (∃ u, bashMap (ports j).dflt h ⟨t.1.regs j, t.1.dev, 0⟩ (via bus order w ports j (t.1.regs j)) = some u ∧ Shaped (regs j) u ∧ d ≤ u.errs) →
      ∃ t', f t j.val = some t' ∧ P (m + d) t' := by
    intro j m d t ⟨h1, h2⟩ ⟨u, e, hu, hd⟩
    refine ⟨(⟨fun i => if i = j then u.reg else t.1.regs i, u.dev⟩, t.2 + u.errs), ?_, fun i => ?_, by show m + d ≤ t.2 + u.errs; omega⟩
    · simp only [f, testOne, j.isLt, dif_pos, Fin.eta, bashReg, List.foldlM_cons, List.foldlM_nil, e]
      rfl
    · by_cases hi : i = j
      · subst hi; simp only [if_true]; exact ⟨hu.good, hu.shape, hu.bits⟩
      · simp only [hi, if_false]; exact h1 i
  have hopen : ∀ j r, Open (via bus order w ports j r) := fun j r => ⟨(hp j).rw, hrt j, (hp j).auto, (hp j).bare⟩
  have any : ∀ m t k, k ∈ l1 ++ i.val :: l2 → P m t → ∃ t', f t k = some t' ∧ P m t' := by
    intro m t k hk ht
    obtain ⟨c, hc, hcl⟩ := (hmem k).1 hk
    have hkn : k < n := (hN c hc).1 _ hcl.2
    obtain ⟨u, e, hu, _⟩ := bashMap_any (ports ⟨k, hkn⟩).dflt hq (hnar ⟨k, hkn⟩) (reachable_apart (hreach _)) (hopen ⟨k, hkn⟩ (t.1.regs ⟨k, hkn⟩))
      (t := ⟨t.1.regs ⟨k, hkn⟩, t.1.dev, 0⟩) ⟨(ht.1 _).1, (ht.1 _).2.1, (ht.1 _).2.2⟩
    exact one ⟨k, hkn⟩ m 0 t ht ⟨u, e, hu, Nat.zero_le _⟩
  obtain ⟨t1, e1, p1⟩ := foldlM_inv (f := f) (P := P 0) l1 (fun t k hk ht => any 0 t k (by simp [hk]) ht) (⟨regs, s⟩, 0)
    ⟨fun i => ⟨reachable_good (hreach i), rfl, rfl⟩, Nat.le_refl _⟩
  obtain ⟨u, eu, hu, hlt⟩ := bashMap_stuck (ports i).dflt hq (hnar i) (reachable_apart (hreach i)) (reachable_good (hreach i)).disj (hopen i (t1.1.regs i)) hT
    (t := ⟨t1.1.regs i, t1.1.dev, 0⟩) ⟨(p1.1 _).1, (p1.1 _).2.1, (p1.1 _).2.2⟩ v (by
      intro s'
      have := hs s'
      rw [← (p1.1 i).2.2] at this
      exact this)
  obtain ⟨t2, e2, p2⟩ := one i 0 1 t1 p1 ⟨u, eu, hu, hlt⟩
  obtain ⟨t3, e3, p3⟩ := foldlM_inv (f := f) (P := P (0 + 1)) l2 (fun t k hk ht => any _ t k (by simp [hk]) ht) t2 p2
  refine ⟨t3.1, t3.2, ?_, by have := p3.2; omega⟩
  simp only [bashTest, hl]
  show (l1 ++ i.val :: l2).foldlM f (⟨regs, s⟩, 0) = some (t3.1, t3.2)
  rw [List.foldlM_append, e1]
  simp only [Option.bind_eq_bind, Option.bind_some, List.foldlM_cons, e2]
  exact e3

/-! ## The reset test -/

theorem lay_reset (r : Reg) (k : String) : (Reg.reset r k).fields.map lay = r.fields.map lay := by
  simp only [Reg.reset, List.map_map]
  refine List.map_congr_left fun x _ => ?_
  simp only [Function.comp, RegField.reset]
  split
  · rfl
  · split <;> rfl

/-- The check of one register: a read, with at least one error exactly if it fails. -/
theorem hw_any {σ} {c : RegAccess.Cfg} (hr : c.route = .front .RW) (hb : ∀ i, c.bare i = false) (d : Dev σ) {h : Hooks} (hq : Quiet h) (rt : Rights) (r : Reg) (s : σ) :
    ∃ t, hwResetReg c d h rt r s = some t ∧ t.dev = (d.rd s).1 ∧
      t.reg = if c.auto then { r with fields := r.fields.map (predF (d.rd s).2.1 .read .RW r.busy) } else r := by
  obtain ⟨o, h1, h2, h3, h4, _, h6⟩ := read_quiet hr hb d hq hq r s
  exact ⟨⟨o.reg, o.dev, (if (!doCheck o.reg rt (getMirrored r) o.value) then 1 else 0) + (if o.ok then 0 else 1)⟩, by simp [hwResetReg, mirror, hr, h1], h2, h6⟩

theorem hw_chip {order : Order} (ho : Reorders order) {w : Nat} (hw : 1 ≤ w) (pol : Nat → Nat → Option Acc) {p : Port} (hp : Auto p)
    (hne : p.addrs ≠ []) (hd : p.addrs.Nodup) {h : Hooks} (hq : Quiet h) {r : Reg} {s : Nat → Cell} (hS : Sound w pol p.addrs s r) (hR : AllReadable r) :
    ∃ t, hwResetReg p.cfg (regDev (chip w pol) order w r.nBits p.addrs) h p.rt r s = some t ∧ t.errs = 0 ∧ Sound w pol p.addrs t.dev t.reg ∧
      t.reg.fields.map lay = r.fields.map lay ∧ ∀ a, a ∉ p.addrs → t.dev a = s a := by
  obtain ⟨o, h1, h2, h3, h4, _, h6⟩ := read_quiet hp.rw hp.bare (regDev (chip w pol) order w r.nBits p.addrs) hq hq r s
  obtain ⟨s', v, e1, e2, e3, e4, e5⟩ := dev_read hw ho hne hd r.nBits hS hp.bare
  rw [e1] at h2 h3 h4 h6
  rw [hp.auto, if_pos rfl] at h6
  refine ⟨⟨o.reg, o.dev, (if (!doCheck o.reg p.rt (getMirrored r) o.value) then 1 else 0) + (if o.ok then 0 else 1)⟩, by simp [hwResetReg, mirror, hp.rw, h1], ?_, ?_, ?_, ?_⟩
  · simp only
    rw [h3, h4, e5 hR]
    simp [doCheck]
  · simp only; rw [h2, h6]; exact e3
  · simp only; rw [h6]; exact e4
  · simp only; rw [h2]; exact e2

/-- C344. On a chip that is in the state the model has after a hard reset, registers whose fields can all be read pass the reset test of the block without an error;
the mirrors still agree with the chip. -/
theorem C344_reset_test_accepts_chip {n : Nat} (order : Order) (ho : Reorders order) (w : Nat) (hw : 1 ≤ w) (pol : Nat → Nat → Option Acc) (ports : Fin n → Port)
    (hA : RegSystem.Apart ports) (hp : ∀ i, Auto (ports i)) (h : Hooks) (hq : Quiet h) (regs : Fin n → Reg) (hreach : ∀ i, Reg.Reachable (regs i))
    (hread : ∀ i, AllReadable (regs i)) (hwired : ∀ i, Wired w pol (ports i).addrs (regs i)) (s : Nat → Cell)
    (hm : ∀ i, Mirrors w (ports i).addrs s (Reg.reset (regs i) "HARD"))
    (fuel : Nat) (b : Blk) (hf : height b ≤ fuel) (hb : b.skip = false) (hmaps : ∀ c, In c b → c.maps ≠ [] ∧ ∀ m ∈ c.maps, m.1 = false) (hN : Names n b) :
    ∃ st, resetTest (chip w pol) order w ports h fuel b ⟨regs, s⟩ = some (st, 0) ∧ (∀ i, Mirrors w (ports i).addrs st.dev (st.regs i)) ∧
      ∀ a, (∀ i, a ∉ (ports i).addrs) → st.dev a = s a := by
  obtain ⟨l, hl, hmem⟩ := C133_reset_covers_partial fuel b hf hb hmaps
  obtain ⟨t, e, h1, h2, h3⟩ := foldlM_inv (f := testOne fun i r s => hwResetReg (ports i).cfg (regDev (chip w pol) order w r.nBits (ports i).addrs) h (ports i).rt r s)
    (P := fun t : RegSystem.State n (Nat → Cell) × Nat => (∀ i, Sound w pol (ports i).addrs t.1.dev (t.1.regs i) ∧ AllReadable (t.1.regs i)) ∧
      (∀ a, (∀ i, a ∉ (ports i).addrs) → t.1.dev a = s a) ∧ t.2 = 0) l (by
      intro t k hk ⟨h1, h2, h3⟩
      obtain ⟨c, hc, _, m, hm, hkm⟩ := (hmem k).1 hk
      have hkn : k < n := (hN c hc).2 m hm _ hkm
      obtain ⟨g1, g2⟩ := h1 ⟨k, hkn⟩
      obtain ⟨u, e, u1, u2, u3, u5⟩ := hw_chip ho hw pol (hp ⟨k, hkn⟩) (hA.some _) (hA.once _) hq g1 g2
      refine ⟨(⟨fun j => if j = ⟨k, hkn⟩ then u.reg else t.1.regs j, u.dev⟩, t.2 + u.errs), ?_, fun i => ?_, fun a ha => ?_, ?_⟩
      · simp only [testOne, hkn, dif_pos, e]
        rfl
      · by_cases hi : i = ⟨k, hkn⟩
        · subst hi
          simp only [if_true]
          exact ⟨u2, readable_lay u3 g2⟩
        · simp only [hi, if_false]
          exact ⟨sound_other (i := ⟨k, hkn⟩) (fun a ha => hA.apart i _ hi a ha) u5 (h1 i).1, (h1 i).2⟩
      · show u.dev a = s a
        rw [u5 a (ha _), h2 a ha]
      · show t.2 + u.errs = 0
        rw [h3, u1]) (⟨fun i => Reg.reset (regs i) "HARD", s⟩, 0)
      ⟨fun i => ⟨⟨(good_step (reachable_good (hreach i)) (.reset "HARD")).1, wired_lay (lay_reset _ _) (hwired i), hm i⟩, readable_lay (lay_reset _ _) (hread i)⟩, fun _ _ => rfl, rfl⟩
  refine ⟨t.1, ?_, fun i => (h1 i).1.mirrors, h2⟩
  simp only [resetTest, hl, Option.bind_eq_bind, Option.bind_some, e]
  rw [← h3]

/-- A read through the bus that differs, at a compared position of a covered register, from the reset value: the reset test of the block reports an error. -/
theorem reset_differs {n : Nat} (order : Order) (ho : Reorders order) (w : Nat) (hw : 1 ≤ w) (pol : Nat → Nat → Option Acc) (ports : Fin n → Port)
    (hA : RegSystem.Apart ports) (hp : ∀ i, Auto (ports i)) (h : Hooks) (hq : Quiet h) (regs : Fin n → Reg) (hreach : ∀ i, Reg.Reachable (regs i))
    (hwired : ∀ i, Wired w pol (ports i).addrs (regs i)) (s : Nat → Cell)
    (fuel : Nat) (b : Blk) (hf : height b ≤ fuel) (hb : b.skip = false) (hmaps : ∀ c, In c b → c.maps ≠ [] ∧ ∀ m ∈ c.maps, m.1 = false) (hN : Names n b)
    (c : Blk) (hc : In c b) (hcs : c.skip = false) (m : Bool × List (Nat × Bool)) (hm : m ∈ c.maps) (i : Fin n) (hi : (i.val, false) ∈ m.2)
    (x : RF) (hx : x ∈ (regs i).fields) (hck : x.f.check = true) (v : Nat) (hv : x.f.reset "HARD" = some v) (j : Nat) (hj : j < x.f.size)
    (hdiff : v.testBit j ≠ (readable (some x.f.access) && bitOf w (ports i).addrs s (x.lsb + j))) :
    ∃ st e, resetTest (chip w pol) order w ports h fuel b ⟨regs, s⟩ = some (st, e) ∧ 0 < e := by
  obtain ⟨l, hl, hmem⟩ := C133_reset_covers_partial fuel b hf hb hmaps
  obtain ⟨l1, l2, rfl, hni⟩ := List.eq_append_cons_of_mem ((hmem i.val).2 ⟨c, hc, hcs, m, hm, hi⟩)
  let f := testOne (n := n) fun i r (s : Nat → Cell) => hwResetReg (ports i).cfg (regDev (chip w pol) order w r.nBits (ports i).addrs) h (ports i).rt r s
  have any : ∀ (t : RegSystem.State n (Nat → Cell) × Nat) k, k ∈ l1 ++ i.val :: l2 → ∃ t', f t k = some t' ∧ t.2 ≤ t'.2 ∧
      (k ≠ i.val → t'.1.regs i = t.1.regs i ∧ ∀ a ∈ (ports i).addrs, t'.1.dev a = t.1.dev a) := by
    intro t k hk
    obtain ⟨c, hc, _, m, hm, hkm⟩ := (hmem k).1 hk
    have hkn : k < n := (hN c hc).2 m hm _ hkm
    obtain ⟨u, e, u1, _⟩ := hw_any (hp ⟨k, hkn⟩).rw (hp ⟨k, hkn⟩).bare (regDev (chip w pol) order w (t.1.regs ⟨k, hkn⟩).nBits (ports ⟨k, hkn⟩).addrs) hq
      (ports ⟨k, hkn⟩).rt (t.1.regs ⟨k, hkn⟩) t.1.dev
    refine ⟨(⟨fun j => if j = ⟨k, hkn⟩ then u.reg else t.1.regs j, u.dev⟩, t.2 + u.errs), ?_, Nat.le_add_right _ _, fun hki => ?_⟩
    · simp only [f, testOne, hkn, dif_pos, e]; rfl
    · have hne : i ≠ ⟨k, hkn⟩ := fun h => hki (by rw [h])
      refine ⟨by simp only [hne, if_false], fun a ha => ?_⟩
      obtain ⟨s', v, h1, _, _, h4, _⟩ := chip_read w hw pol ho ((t.1.regs ⟨k, hkn⟩).nBits : Int) (2 ^ w - 1) (hA.some ⟨k, hkn⟩) (hA.once _) t.1.dev
      show u.dev a = t.1.dev a
      rw [u1]
      simp only [regDev, h1]
      exact h4 a (hA.apart i _ hne a ha)
  obtain ⟨t1, e1, p1, p2⟩ := foldlM_inv (f := f) (P := fun t => t.1.regs i = Reg.reset (regs i) "HARD" ∧ ∀ a ∈ (ports i).addrs, t.1.dev a = s a) l1 (by
    intro t k hk ⟨h1, h2⟩
    obtain ⟨t', e, _, ht⟩ := any t k (by simp [hk])
    have hki : k ≠ i.val := fun h => hni (h ▸ hk)
    exact ⟨t', e, (ht hki).1.trans h1, fun a ha => ((ht hki).2 a ha).trans (h2 a ha)⟩) (⟨fun i => Reg.reset (regs i) "HARD", s⟩, 0) ⟨rfl, fun _ _ => rfl⟩
  have hcov : Covers x (x.lsb + j) := ⟨by omega, by omega⟩
  have hG := reachable_good (hreach i)
  obtain ⟨u, eu, hu⟩ := C130_reset_check (ports i).cfg .RW (hp i).rw (hp i).bare (regDev (chip w pol) order w (Reg.reset (regs i) "HARD").nBits (ports i).addrs) h hq
    (ports i).rt (regs i) (hreach i) t1.1.dev
  have hpos : 0 < u.errs := by
    rcases Nat.eq_zero_or_pos u.errs with h0 | h0
    · obtain ⟨_, hbit⟩ := hu.1 h0
      have := hbit (x.lsb + j) (fun y hy hyc => by rw [cover_unique hG.disj hy hx hyc hcov]; exact hck)
      rw [assembled_mem hG.disj hx hcov, hv] at this
      obtain ⟨s', v', g1, _, _, _, g5⟩ := chip_read w hw pol ho ((Reg.reset (regs i) "HARD").nBits : Int) (2 ^ w - 1) (hA.some i) (hA.once i) t1.1.dev
      have hlt : x.lsb + j < 8 * w * (ports i).addrs.length := Nat.lt_of_lt_of_le (by omega) ((hwired i).fits x hx)
      have hmw : wordOf w (ports i).addrs (x.lsb + j) ∈ (ports i).addrs := by rw [wordOf_get hlt]; exact List.getElem_mem _
      simp only [regDev, g1, List.headD_cons, g5, hlt, decide_true, Bool.true_and, (hwired i).fields x hx _ hcov, Option.getD_some, Nat.add_sub_cancel_left] at this
      refine absurd this.symm ?_
      rw [bitOf, p2 _ hmw]
      exact hdiff
    · exact h0
  have e2 : f t1 i.val = some (⟨fun j => if j = i then u.reg else t1.1.regs j, u.dev⟩, t1.2 + u.errs) := by
    simp only [f, testOne, i.isLt, dif_pos, Fin.eta, p1, eu]; rfl
  obtain ⟨t3, e3, p3⟩ := foldlM_inv (f := f) (P := fun t => t1.2 + u.errs ≤ t.2) l2 (by
    intro t k hk ht
    obtain ⟨t', e, h1, _⟩ := any t k (by simp [hk])
    exact ⟨t', e, Nat.le_trans ht h1⟩) (⟨fun j => if j = i then u.reg else t1.1.regs j, u.dev⟩, t1.2 + u.errs) (Nat.le_refl _)
  refine ⟨t3.1, t3.2, ?_, by omega⟩
  simp only [resetTest, hl]
  show (l1 ++ i.val :: l2).foldlM f (⟨fun i => Reg.reset (regs i) "HARD", s⟩, 0) = some (t3.1, t3.2)
  rw [List.foldlM_append, e1]
  simp only [Option.bind_eq_bind, Option.bind_some, List.foldlM_cons, e2]
  exact e3

/-- C345. If a bit of the chip is not what the reset value of a compared, readable field of a covered register says, the reset test of the block reports an error,
whatever else is in the chip. -/
theorem C345_reset_test_finds_wrong_bits {n : Nat} (order : Order) (ho : Reorders order) (w : Nat) (hw : 1 ≤ w) (pol : Nat → Nat → Option Acc) (ports : Fin n → Port)
    (hA : RegSystem.Apart ports) (hp : ∀ i, Auto (ports i)) (h : Hooks) (hq : Quiet h) (regs : Fin n → Reg) (hreach : ∀ i, Reg.Reachable (regs i))
    (hwired : ∀ i, Wired w pol (ports i).addrs (regs i)) (s : Nat → Cell)
    (fuel : Nat) (b : Blk) (hf : height b ≤ fuel) (hb : b.skip = false) (hmaps : ∀ c, In c b → c.maps ≠ [] ∧ ∀ m ∈ c.maps, m.1 = false) (hN : Names n b)
    (c : Blk) (hc : In c b) (hcs : c.skip = false) (m : Bool × List (Nat × Bool)) (hm : m ∈ c.maps) (i : Fin n) (hi : (i.val, false) ∈ m.2)
    (x : RF) (hx : x ∈ (regs i).fields) (hck : x.f.check = true) (hR : Readable x.f.access) (v : Nat) (hv : x.f.reset "HARD" = some v) (j : Nat) (hj : j < x.f.size)
    (hdiff : bitOf w (ports i).addrs s (x.lsb + j) ≠ v.testBit j) :
    ∃ st e, resetTest (chip w pol) order w ports h fuel b ⟨regs, s⟩ = some (st, e) ∧ 0 < e := by
  refine reset_differs order ho w hw pol ports hA hp h hq regs hreach hwired s fuel b hf hb hmaps hN c hc hcs m hm i hi x hx hck v hv j hj ?_
  have hR' : (doc x.f.access).2 ≠ .error ∧ x.f.access ≠ .NOACCESS := hR
  simp only [readable, hR', ne_eq, not_false_eq_true, and_self, decide_true, Bool.true_and]
  exact fun e => hdiff e.symm

/-- C346 fails: a compared field that cannot be read, with a reset value other than 0, makes the reset test report an error on every chip, whatever state it is in;
so a chip that is in its reset state is not accepted. -/
theorem C346_write_only_fails {n : Nat} (order : Order) (ho : Reorders order) (w : Nat) (hw : 1 ≤ w) (pol : Nat → Nat → Option Acc) (ports : Fin n → Port)
    (hA : RegSystem.Apart ports) (hp : ∀ i, Auto (ports i)) (h : Hooks) (hq : Quiet h) (regs : Fin n → Reg) (hreach : ∀ i, Reg.Reachable (regs i))
    (hwired : ∀ i, Wired w pol (ports i).addrs (regs i)) (s : Nat → Cell)
    (fuel : Nat) (b : Blk) (hf : height b ≤ fuel) (hb : b.skip = false) (hmaps : ∀ c, In c b → c.maps ≠ [] ∧ ∀ m ∈ c.maps, m.1 = false) (hN : Names n b)
    (c : Blk) (hc : In c b) (hcs : c.skip = false) (m : Bool × List (Nat × Bool)) (hm : m ∈ c.maps) (i : Fin n) (hi : (i.val, false) ∈ m.2)
    (x : RF) (hx : x ∈ (regs i).fields) (hck : x.f.check = true) (hR : ¬ Readable x.f.access) (v : Nat) (hv : x.f.reset "HARD" = some v) (j : Nat) (hj : j < x.f.size)
    (hset : v.testBit j = true) :
    ∃ st e, resetTest (chip w pol) order w ports h fuel b ⟨regs, s⟩ = some (st, e) ∧ 0 < e := by
  refine reset_differs order ho w hw pol ports hA hp h hq regs hreach hwired s fuel b hf hb hmaps hN c hc hcs m hm i hi x hx hck v hv j hj ?_
  have hR' : ¬ ((doc x.f.access).2 ≠ .error ∧ x.f.access ≠ .NOACCESS) := hR
  simp only [readable, hR', decide_false, Bool.false_and, hset]
  nofun

/-- The compared fields that cannot be read are 0 in the chip. -/
def Silent (w : Nat) (addrs : List Nat) (s : Nat → Cell) (r : Reg) : Prop :=
  ∀ x ∈ r.fields, ¬ Readable x.f.access → x.f.check = true → ∀ j, j < x.f.size → bitOf w addrs s (x.lsb + j) = false

theorem unreadable_reads {a : Acc} (h : ¬ Readable a) : (doc a).2 ≠ .clears ∧ (doc a).2 ≠ .sets := by
  have h' : ¬ ((doc a).2 ≠ .error ∧ a ≠ .NOACCESS) := h
  by_cases e : a = .NOACCESS
  · subst e; exact ⟨nofun, nofun⟩
  · have : (doc a).2 = .error := Classical.byContradiction fun hn => h' ⟨hn, e⟩
    rw [this]; exact ⟨nofun, nofun⟩

/-- The check of one register that agrees with the chip and has no compared, unreadable bit that is set. -/
theorem hw_silent {order : Order} (ho : Reorders order) {w : Nat} (hw : 1 ≤ w) (pol : Nat → Nat → Option Acc) {p : Port} (hp : Auto p)
    (hne : p.addrs ≠ []) (hd : p.addrs.Nodup) {h : Hooks} (hq : Quiet h) {r : Reg} {s : Nat → Cell} (hS : Sound w pol p.addrs s r) (hR : Silent w p.addrs s r) :
    ∃ t, hwResetReg p.cfg (regDev (chip w pol) order w r.nBits p.addrs) h p.rt r s = some t ∧ t.errs = 0 ∧ Sound w pol p.addrs t.dev t.reg ∧
      Silent w p.addrs t.dev t.reg ∧ ∀ a, a ∉ p.addrs → t.dev a = s a := by
  obtain ⟨o, h1, h2, h3, h4, _, h6⟩ := read_quiet hp.rw hp.bare (regDev (chip w pol) order w r.nBits p.addrs) hq hq r s
  obtain ⟨s', v, e1, g2, g3, g4, g5⟩ := chip_read w hw pol ho (r.nBits : Int) (2 ^ w - 1) hne hd s
  obtain ⟨f1, f2, _⟩ := sound_readout hS hp.bare g2 g3 g5
  have e1' : (regDev (chip w pol) order w r.nBits p.addrs).rd s = (s', v, true) := by simp only [regDev, e1, List.headD_cons]
  rw [e1'] at h2 h3 h4 h6
  rw [hp.auto, if_pos rfl] at h6
  have hsh : shape o.reg = shape r := by rw [h6]; exact shape_predF _ _ _ _ _
  refine ⟨⟨o.reg, o.dev, (if (!doCheck o.reg p.rt (getMirrored r) o.value) then 1 else 0) + (if o.ok then 0 else 1)⟩, by simp [hwResetReg, mirror, hp.rw, h1], ?_, ?_, ?_, ?_⟩
  · have hck : doCheck o.reg p.rt (getMirrored r) o.value = true := by
      rw [C58_mirror_check_iff]
      intro i hi
      rw [h4]
      show v.testBit i = _
      rw [show (getMirrored r).testBit i = _ from assemble_testBit _ hS.good.disj _ (fun x hx => (hS.good.fits x hx).mirrored) i]
      by_cases hc : ∃ x ∈ r.fields, Covers x i
      · obtain ⟨x, hx, hc⟩ := hc
        obtain ⟨y, hy, a1, a2, _, a4⟩ := shape_mem hsh hx
        have hchk : x.f.check = true := by rw [← a4]; exact hi y hy ⟨a1 ▸ hc.1, by rw [a1, a2]; exact hc.2⟩
        have hj : i - x.lsb < x.f.size := by have := hc.1; have := hc.2; omega
        have hij : x.lsb + (i - x.lsb) = i := by have := hc.1; omega
        have hlt : i < 8 * w * p.addrs.length := Nat.lt_of_lt_of_le hc.2 (hS.wired.fits x hx)
        rw [assembled_mem hS.good.disj hx hc, (hS.mirrors x hx).1 _ hj, hij, g5, hS.wired.fields x hx _ hc]
        by_cases hR' : Readable x.f.access
        · have hr : (doc x.f.access).2 ≠ .error ∧ x.f.access ≠ .NOACCESS := hR'
          simp [hlt, readable, hr]
        · have := hR x hx hR' hchk _ hj
          rw [hij] at this
          simp [this]
      · have hn : ∀ x ∈ r.fields, ¬ Covers x i := fun x hx h => hc ⟨x, hx, h⟩
        have hf : r.fields.find? (fun x => decide (Covers x i)) = none := by
          rw [List.find?_eq_none]; intro x hx; simpa using hn x hx
        simp only [assembled, hf, g5]
        by_cases hlt : i < 8 * w * p.addrs.length
        · simp [hS.wired.rest i hlt hn, readable]
        · simp [hlt]
    simp only [hck, h3]
    rfl
  · simp only; rw [h2, h6]; exact f1
  · intro y hy hyR hyc j hj
    simp only at hy
    obtain ⟨x, hx, a1, a2, a3, a4⟩ := shape_mem hsh.symm hy
    rw [← a1, h2]
    rw [← a2] at hj
    rw [← a3] at hyR
    have hc : Covers x (x.lsb + j) := ⟨by omega, by omega⟩
    have hlt : x.lsb + j < 8 * w * p.addrs.length := Nat.lt_of_lt_of_le hc.2 (hS.wired.fits x hx)
    rw [g3 _ hlt, hS.wired.fields x hx _ hc, Option.map_some]
    have hz := hR x hx hyR (a4.trans hyc) j hj
    cases hq : (doc x.f.access).2 with
    | clears => exact absurd hq (unreadable_reads hyR).1
    | sets => exact absurd hq (unreadable_reads hyR).2
    | noEffect => exact hz
    | error => exact hz
  · simp only; rw [h2]; exact g4

/-- C346, what holds: a chip in its reset state is accepted by the reset test of the block if the fields of covered registers that cannot be read have the reset value 0 or are not
compared; the mirrors still agree with the chip.  Missing: compared fields that cannot be read with another reset value (`C346_write_only_fails`: the test then always reports an error). -/
theorem C346_silent_partial {n : Nat} (order : Order) (ho : Reorders order) (w : Nat) (hw : 1 ≤ w) (pol : Nat → Nat → Option Acc) (ports : Fin n → Port)
    (hA : RegSystem.Apart ports) (hp : ∀ i, Auto (ports i)) (h : Hooks) (hq : Quiet h) (regs : Fin n → Reg) (hreach : ∀ i, Reg.Reachable (regs i))
    (hwired : ∀ i, Wired w pol (ports i).addrs (regs i)) (s : Nat → Cell)
    (hm : ∀ i, Mirrors w (ports i).addrs s (Reg.reset (regs i) "HARD"))
    (fuel : Nat) (b : Blk) (hf : height b ≤ fuel) (hb : b.skip = false) (hmaps : ∀ c, In c b → c.maps ≠ [] ∧ ∀ m ∈ c.maps, m.1 = false) (hN : Names n b)
    (hzero : ∀ i : Fin n, (∃ c, In c b ∧ c.skip = false ∧ ∃ m ∈ c.maps, (i.val, false) ∈ m.2) → ∀ x ∈ (regs i).fields, ¬ Readable x.f.access → x.f.check = true →
      (x.f.reset "HARD").getD x.f.mirrored = 0) :
    ∃ st, resetTest (chip w pol) order w ports h fuel b ⟨regs, s⟩ = some (st, 0) ∧ (∀ i, Mirrors w (ports i).addrs st.dev (st.regs i)) ∧
      ∀ a, (∀ i, a ∉ (ports i).addrs) → st.dev a = s a := by
  obtain ⟨l, hl, hmem⟩ := C133_reset_covers_partial fuel b hf hb hmaps
  obtain ⟨t, e, h1, h2, h3⟩ := foldlM_inv (f := testOne fun i r s => hwResetReg (ports i).cfg (regDev (chip w pol) order w r.nBits (ports i).addrs) h (ports i).rt r s)
    (P := fun t : RegSystem.State n (Nat → Cell) × Nat => (∀ i, Sound w pol (ports i).addrs t.1.dev (t.1.regs i) ∧
      (i.val ∈ l → Silent w (ports i).addrs t.1.dev (t.1.regs i))) ∧ (∀ a, (∀ i, a ∉ (ports i).addrs) → t.1.dev a = s a) ∧ t.2 = 0) l (by
      intro t k hk ⟨h1, h2, h3⟩
      obtain ⟨c, hc, _, m, hm, hkm⟩ := (hmem k).1 hk
      have hkn : k < n := (hN c hc).2 m hm _ hkm
      obtain ⟨g1, g2⟩ := h1 ⟨k, hkn⟩
      obtain ⟨u, e, u1, u2, u3, u5⟩ := hw_silent ho hw pol (hp ⟨k, hkn⟩) (hA.some _) (hA.once _) hq g1 (g2 hk)
      refine ⟨(⟨fun j => if j = ⟨k, hkn⟩ then u.reg else t.1.regs j, u.dev⟩, t.2 + u.errs), ?_, fun i => ?_, fun a ha => ?_, ?_⟩
      · simp only [testOne, hkn, dif_pos, e]
        rfl
      · by_cases hi : i = ⟨k, hkn⟩
        · subst hi
          simp only [if_true]
          exact ⟨u2, fun _ => u3⟩
        · simp only [hi, if_false]
          refine ⟨sound_other (i := ⟨k, hkn⟩) (fun a ha => hA.apart i _ hi a ha) u5 (h1 i).1, fun hil x hx hxR hxc j hj => ?_⟩
          have hlt : x.lsb + j < 8 * w * (ports i).addrs.length := Nat.lt_of_lt_of_le (by omega) ((h1 i).1.wired.fits x hx)
          have hmw : wordOf w (ports i).addrs (x.lsb + j) ∈ (ports i).addrs := by rw [wordOf_get hlt]; exact List.getElem_mem _
          rw [bitOf, u5 _ (hA.apart i _ hi _ hmw)]
          exact (h1 i).2 hil x hx hxR hxc j hj
      · show u.dev a = s a
        rw [u5 a (ha _), h2 a ha]
      · show t.2 + u.errs = 0
        rw [h3, u1]) (⟨fun i => Reg.reset (regs i) "HARD", s⟩, 0)
      ⟨fun i => ⟨⟨(good_step (reachable_good (hreach i)) (.reset "HARD")).1, wired_lay (lay_reset _ _) (hwired i), hm i⟩, fun hil y hy hyR hyc j hj => by
        obtain ⟨c, hc, hcs, m, hcm, him⟩ := (hmem i.val).1 hil
        rw [← (hm i y hy).1 j hj]
        obtain ⟨x, hx, rfl⟩ := List.mem_map.1 hy
        have hz := hzero i ⟨c, hc, hcs, m, hcm, him⟩ x hx
        have hfr : (RegField.reset x.f "HARD").access = x.f.access ∧ (RegField.reset x.f "HARD").check = x.f.check ∧
            (RegField.reset x.f "HARD").mirrored = (x.f.reset "HARD").getD x.f.mirrored := by
          simp only [RegField.reset]
          cases x.f.reset "HARD" <;> exact ⟨rfl, rfl, rfl⟩
        have := hz (by rw [← hfr.1]; exact hyR) (by rw [← hfr.2.1]; exact hyc)
        simp only [hfr.2.2, this, Nat.zero_testBit]⟩, fun _ _ => rfl, rfl⟩
  refine ⟨t.1, ?_, fun i => (h1 i).1.mirrors, h2⟩
  simp only [resetTest, hl, Option.bind_eq_bind, Option.bind_some, e]
  rw [← h3]

/-! ## The hypotheses are met by the block of `Verif.Props.RegChip`: three fields in two words, one in a third -/

def egBlk : Blk := .mk false [(1, false)] [(false, [(1, false)])] [.mk false [(0, false), (1, true)] [(false, [(0, false), (1, true)])] []]

example : height egBlk ≤ 2 ∧ egBlk.skip = false := by decide +kernel
example : ∀ i, (egPorts i).rt = .RW := fun _ => rfl
example : ∀ i, Narrow (egRegs i) := by
  intro i
  match i with
  | ⟨0, _⟩ => exact (by decide : (egRegs 0).nBits ≤ 64 ∧ ∀ x ∈ (egRegs 0).fields, x.lsb + x.f.size ≤ 64)
  | ⟨1, _⟩ => exact (by decide : (egRegs 1).nBits ≤ 64 ∧ ∀ x ∈ (egRegs 1).fields, x.lsb + x.f.size ≤ 64)

theorem egIn {c : Blk} (h : In c egBlk) : c = egBlk ∨ c = .mk false [(0, false), (1, true)] [(false, [(0, false), (1, true)])] [] := by
  cases h with
  | self => exact .inl rfl
  | sub hc hin =>
    simp only [Blk.blks, egBlk, List.mem_singleton] at hc
    subst hc
    cases hin with
    | self => exact .inr rfl
    | sub hc2 _ => simp [Blk.blks] at hc2

example : Names 2 egBlk ∧ ∀ c, In c egBlk → c.maps ≠ [] ∧ ∀ m ∈ c.maps, m.1 = false := by
  refine ⟨fun c hc => ?_, fun c hc => ?_⟩ <;> rcases egIn hc with rfl | rfl <;> decide +kernel

example : ∀ i, Mirrors 2 (egPorts i).addrs egChip (Reg.reset (egRegs i) "HARD") := by
  intro i
  match i with
  | ⟨0, _⟩ =>
    exact (by decide : ∀ x ∈ (Reg.reset (egRegs 0) "HARD").fields, (∀ j, j < x.f.size → x.f.mirrored.testBit j = bitOf 2 (egPorts 0).addrs egChip (x.lsb + j)) ∧
      ∀ a ∈ (egPorts 0).addrs, (egChip a).written = x.f.written)
  | ⟨1, _⟩ =>
    exact (by decide : ∀ x ∈ (Reg.reset (egRegs 1) "HARD").fields, (∀ j, j < x.f.size → x.f.mirrored.testBit j = bitOf 2 (egPorts 1).addrs egChip (x.lsb + j)) ∧
      ∀ a ∈ (egPorts 1).addrs, (egChip a).written = x.f.written)

example : (resetTest (chip 2 egPol) List.reverse 2 egPorts {} 2 egBlk ⟨egRegs, egChip⟩).map (·.2) = some 0 := by decide +kernel

/-- A chip with one bit of the reset value wrong: the test of C345 finds it. -/
example : (resetTest (chip 2 egPol) List.reverse 2 egPorts {} 2 egBlk ⟨egRegs, fun a => ⟨fun b => (egChip a).bit b != (a == 0x100 && b == 5), false⟩⟩).map (·.2) = some 1 := by
  decide +kernel

/-- A register with a write-only field with the reset value 5, in a chip in which it has that value (C346). -/
def egWo : Fin 1 → Reg := fun _ => steps (build 8 [⟨0, configure [] 4 .WO false 5 true⟩]).1 [.reset "HARD"]
example : Mirrors 1 [0] (fun _ => ⟨fun b => (5 : Nat).testBit b, false⟩) (Reg.reset (egWo 0) "HARD") ∧ Wired 1 (fun _ b => if b < 4 then some .WO else none) [0] (egWo 0) := by
  refine ⟨(by decide : ∀ x ∈ (Reg.reset (egWo 0) "HARD").fields, (∀ j, j < x.f.size → x.f.mirrored.testBit j = bitOf 1 [0] (fun _ => ⟨fun b => (5 : Nat).testBit b, false⟩) (x.lsb + j)) ∧
      ∀ a ∈ [0], ((fun _ => ⟨fun b => (5 : Nat).testBit b, false⟩ : Nat → Cell) a).written = x.f.written), fun x hx k hk => ?_, ?_, ?_⟩
  · have hin : ∀ x ∈ (egWo 0).fields, x.lsb + x.f.size ≤ 8 := by decide
    have key : ∀ x ∈ (egWo 0).fields, ∀ k, k < 8 → Covers x k → (if k % 8 < 4 then some Acc.WO else none) = some x.f.access := by decide
    exact key x hx k (Nat.lt_of_lt_of_le hk.2 (hin x hx)) hk
  · exact (by decide : ∀ k, k < 8 → (∀ x ∈ (egWo 0).fields, ¬ Covers x k) → (if k % 8 < 4 then some Acc.WO else none) = none)
  · exact (by decide : ∀ x ∈ (egWo 0).fields, x.lsb + x.f.size ≤ 8)
example : ∃ x ∈ (egWo 0).fields, x.f.check = true ∧ ¬ Readable x.f.access ∧ x.f.reset "HARD" = some 5 := by
  exact (by decide : ∃ x ∈ (egWo 0).fields, x.f.check = true ∧ ¬ ((doc x.f.access).2 ≠ .error ∧ x.f.access ≠ .NOACCESS) ∧ x.f.reset "HARD" = some 5)

/-- The same field with the reset value 0 (C346_silent_partial). -/
def egWo0 : Reg := steps (build 8 [⟨0, configure [] 4 .WO false 0 true⟩]).1 [.reset "HARD"]
example : ∀ x ∈ egWo0.fields, ¬ Readable x.f.access ∧ x.f.check = true ∧ (x.f.reset "HARD").getD x.f.mirrored = 0 := by
  exact (by decide : ∀ x ∈ egWo0.fields, ¬ ((doc x.f.access).2 ≠ .error ∧ x.f.access ≠ .NOACCESS) ∧ x.f.check = true ∧ (x.f.reset "HARD").getD x.f.mirrored = 0)

/-- A stuck bit for C343: a bus on which every read returns 0xfff7, and the read/write register at `[0x104]`. -/
def egRw : Reg := Reg.steps (build 16 [⟨0, configure [] 16 .RW false 0 true⟩]).1 []
def egStuck : Bus Unit := fun _ _ => ((), 0xfff7, true)
example : TestedBit egRw 3 :=
  (by decide : 3 < egRw.nBits ∧ ∃ x ∈ egRw.fields, Covers x 3 ∧ x.f.access = .RW ∧ x.f.check = true)
example : ∀ s, ((regDev egStuck id 2 egRw.nBits (egPorts 1).addrs).rd s).2.1.testBit 3 = false := by
  intro s; cases s; decide +kernel
example : (bashTest egStuck id 2 egPorts {} 2 egBlk ⟨fun _ => egRw, ()⟩).map (fun o => decide (0 < o.2)) = some true := by decide +kernel

end Verif.RegTests
