import Verif.Spec.BuiltIn
import Verif.Props.RegTestsAll
/-!
# C372, C373, C374, C375, C376: the sequence of built-in tests
-/
namespace Verif.BuiltIn
open Verif.Reg Verif.RegField Verif.RegAccess Verif.RegMap Verif.RegSystem Verif.RegConc Verif.RegChip Verif.RegTests

theorem and_bit (n k : Nat) : n &&& 2 ^ k ≠ 0 ↔ n.testBit k = true := by
  constructor
  · intro h
    rcases Bool.eq_false_or_eq_true (n.testBit k) with h1 | h1
    · exact h1
    · refine absurd (Nat.eq_of_testBit_eq fun i => ?_) h
      rw [Nat.testBit_and, Nat.testBit_two_pow, Nat.zero_testBit]
      by_cases hi : k = i
      · subst hi; simp [h1]
      · simp [hi]
  · intro h h0
    have := congrArg (Nat.testBit · k) h0
    simp only [Nat.testBit_and, h, Nat.testBit_two_pow_self, Nat.zero_testBit] at this
    simp at this

/-- C372. The sequence runs exactly the tests that are asked for and from which no resource excludes the block (the test of shared access: C373), each once, in the
documented order. -/
theorem C372_selection (tests : Nat) (res : String → Bool) :
    (∀ t, t ≠ .shared → (t ∈ plan tests res ↔ Asked tests t ∧ ¬ Excluded res t)) ∧
    (plan tests res).Sublist [.reset, .bash, .access, .memAccess, .memWalk] := by
  have b0 := and_bit tests 0
  have b1 := and_bit tests 1
  have b2 := and_bit tests 2
  have b3 := and_bit tests 3
  have b5 := and_bit tests 5
  simp only [Nat.reducePow] at b0 b1 b2 b3 b5
  constructor
  · intro t ht
    unfold plan Asked Excluded
    simp only [b0, b1, b2, b3, b5]
    cases t <;> simp_all [bitNo, excluders]
  · unfold plan
    simp only [List.append_assoc]
    rw [show ([Test.reset, .bash, .access, .memAccess, .memWalk] : List Test) = [.reset] ++ ([.bash] ++ ([.access] ++ ([.memAccess] ++ [.memWalk]))) from rfl]
    refine List.Sublist.append ?_ (List.Sublist.append ?_ (List.Sublist.append ?_ (List.Sublist.append ?_ ?_))) <;> split <;>
      first | exact List.Sublist.refl _ | exact List.nil_sublist _

/-- C372. These tests are run one after the other, and the errors they report are added up; nothing is run without a block, which is an error. -/
theorem C372_runs (tests : Nat) (res : String → Bool) (e : Test → Nat) (l : List Test) :
    body (fun k l => some (l ++ [k], e k)) true tests res l = some (l ++ plan tests res, ((plan tests res).map e).sum) ∧
    body (fun k l => some (l ++ [k], e k)) false tests res l = some (l, 1) := by
  refine ⟨?_, rfl⟩
  simp only [body, Bool.true_eq_false, if_false]
  generalize plan tests res = p
  suffices ∀ (l : List Test) (m : Nat), p.foldlM (runOne fun k l => some (l ++ [k], e k)) (l, m) = some (l ++ p, m + (p.map e).sum) by
    rw [this, Nat.zero_add]
  intro l m
  induction p generalizing l m with
  | nil => simp
  | cons a p ih =>
    simp only [List.foldlM_cons, runOne, Option.map_some, Option.bind_eq_bind, Option.bind_some]
    rw [ih]; simp [Nat.add_assoc]

/-- C372. A test that raises an exception ends the sequence: the tests after it are not run. -/
theorem C372_raises {σ} (run : Test → σ → Option (σ × Nat)) (tests : Nat) (res : String → Bool) (s : σ) (p q : List Test) (k : Test) (o : σ × Nat)
    (hp : plan tests res = p ++ k :: q) (ho : p.foldlM (runOne run) (s, 0) = some o) (hk : run k o.1 = none) : body run true tests res s = none := by
  simp only [body, Bool.true_eq_false, if_false, hp, List.foldlM_append, ho, Option.bind_eq_bind, Option.bind_some, List.foldlM_cons, runOne, hk, Option.map_none, Option.bind_none]

/-- C373 fails. The test of shared access is never run, although it is among the tests that can be asked for and are asked for by default. -/
theorem C373_shared_access_fails (tests : Nat) (res : String → Bool) : Test.shared ∉ plan tests res ∧ Asked 0xffffffffffffffff .shared := by
  refine ⟨fun h => ?_, (by decide : (0xffffffffffffffff : Nat).testBit 4 = true)⟩
  have := (C372_selection tests res).2.subset h
  simp at this

/-! ## What a register keeps -/

/-- What is declared of a field. -/
def decl (x : RF) : Nat × Nat × Acc × Bool × (Kind → Option Nat) := (x.lsb, x.f.size, x.f.access, x.f.check, x.f.reset)

/-- The register is still usable and has the same declaration. -/
structure Kept (r r' : Reg) : Prop where
  reach : Reg.Reachable r'
  bits : r'.nBits = r.nBits
  decl : r'.fields.map decl = r.fields.map decl

theorem Kept.trans {a b c : Reg} (h1 : Kept a b) (h2 : Kept b c) : Kept a c := ⟨h2.reach, h2.bits.trans h1.bits, h2.decl.trans h1.decl⟩

theorem reach_step {r : Reg} (h : Reg.Reachable r) (op : Reg.Op) : Reg.Reachable (Reg.step r op) := by
  obtain ⟨n, xs, ops, h1, h2, rfl⟩ := h
  exact ⟨n, xs, ops ++ [op], h1, h2, by simp [Reg.steps, List.foldl_append]⟩

theorem kept_reset {r : Reg} (h : Reg.Reachable r) : Kept r (Reg.reset r "HARD") := by
  refine ⟨reach_step h (.reset "HARD"), rfl, ?_⟩
  simp only [Reg.reset, List.map_map]
  refine List.map_congr_left fun x _ => ?_
  simp only [Function.comp, RegField.reset, BuiltIn.decl]
  split
  · rfl
  · split <;> rfl

theorem predF_decl (v : Nat) (busy : Bool) (x : RF) : BuiltIn.decl (predF v .read .RW busy x) = BuiltIn.decl x := by
  unfold predF
  split
  · next q hq =>
    unfold RegField.doPredict at hq
    simp only [] at hq
    repeat' split at hq
    all_goals first | (cases hq; rfl) | (simp at hq; done)
  · rfl

theorem kept_pred {r : Reg} (h : Reg.Reachable r) {c : RegAccess.Cfg} (hb : ∀ i, c.bare i = false) (v : Nat) :
    Kept r { r with fields := r.fields.map (predF v .read .RW r.busy) } := by
  refine ⟨?_, rfl, ?_⟩
  · have := predict_front hb r v .read (by decide) .RW
    simp only [predict] at this
    split at this
    · simp at this
    · obtain ⟨q, hq, he⟩ := Option.map_eq_some_iff.1 this
      have := reach_step h (.predict v .read .front .RW)
      simp only [Reg.step, hq] at this
      rw [← he]; exact this
  · simp only [List.map_map]
    exact List.map_congr_left fun x _ => predF_decl v r.busy x

theorem kept_shape {r r' : Reg} (h : Kept r r') : shape r' = shape r := by
  have e : ∀ q : Reg, shape q = (q.fields.map BuiltIn.decl).map fun d => (d.1, d.2.1, d.2.2.1, d.2.2.2.1) := by
    intro q; simp only [shape, List.map_map]; rfl
  rw [e, e, h.decl]

theorem kept_lay {r r' : Reg} (h : Kept r r') : r'.fields.map lay = r.fields.map lay := by
  have e : ∀ q : Reg, q.fields.map lay = (q.fields.map BuiltIn.decl).map fun d => (d.1, d.2.1, d.2.2.1) := by
    intro q; simp only [List.map_map]; rfl
  rw [e, e, h.decl]

/-- After a hard reset of the model nothing of what happened before is left, if every field has a reset value. -/
theorem mirrors_kept {w : Nat} {addrs : List Nat} {s : Nat → Cell} {r r' : Reg} (h : Kept r r') (hr : ∀ x ∈ r.fields, x.f.reset "HARD" ≠ none)
    (hm : Mirrors w addrs s (Reg.reset r "HARD")) : Mirrors w addrs s (Reg.reset r' "HARD") := by
  intro x' hx'
  simp only [Reg.reset, List.mem_map] at hx'
  obtain ⟨y', hy', rfl⟩ := hx'
  have : BuiltIn.decl y' ∈ r.fields.map BuiltIn.decl := h.decl ▸ List.mem_map.2 ⟨y', hy', rfl⟩
  obtain ⟨y, hy, e⟩ := List.mem_map.1 this
  simp only [BuiltIn.decl, Prod.mk.injEq] at e
  obtain ⟨e1, e2, e3, e4, e5⟩ := e
  have hn := hr y hy
  obtain ⟨m1, m2⟩ := hm { y with f := RegField.reset y.f "HARD" } (List.mem_map.2 ⟨y, hy, rfl⟩)
  cases hv : y.f.reset "HARD" with
  | none => exact absurd hv hn
  | some v =>
    have hv' : y'.f.reset "HARD" = some v := by rw [← e5]; exact hv
    simp only [RegField.reset, hv, hv', if_true] at m1 m2 ⊢
    rw [← e1, ← e2]
    exact ⟨m1, m2⟩

/-- The reset test of a block ends on any hardware; the registers keep their declaration. -/
theorem resetTest_any {n : Nat} {σ} (bus : Bus σ) (order : Order) (w : Nat) (ports : Fin n → Port) (hp : ∀ i, Auto (ports i)) (h : Hooks) (hq : Quiet h)
    (regs : Fin n → Reg) (hreach : ∀ i, Reg.Reachable (regs i)) (s : σ) (fuel : Nat) (b : Blk) (hf : height b ≤ fuel) (hb : b.skip = false)
    (hmaps : ∀ c, In c b → c.maps ≠ [] ∧ ∀ m ∈ c.maps, m.1 = false) (hN : Names n b) :
    ∃ st e, resetTest bus order w ports h fuel b ⟨regs, s⟩ = some (st, e) ∧ ∀ i, Kept (regs i) (st.regs i) := by
  obtain ⟨l, hl, hmem⟩ := C133_reset_covers_partial fuel b hf hb hmaps
  obtain ⟨t, e, h1⟩ := foldlM_inv (f := testOne fun i r s => hwResetReg (ports i).cfg (regDev bus order w r.nBits (ports i).addrs) h (ports i).rt r s)
    (P := fun t : RegSystem.State n σ × Nat => ∀ i, Kept (regs i) (t.1.regs i)) l (by
      intro t k hk h1
      obtain ⟨c, hc, _, m, hm, hkm⟩ := (hmem k).1 hk
      have hkn : k < n := (hN c hc).2 m hm _ hkm
      obtain ⟨u, e, _, u2⟩ := hw_any (hp ⟨k, hkn⟩).rw (hp ⟨k, hkn⟩).bare (regDev bus order w (t.1.regs ⟨k, hkn⟩).nBits (ports ⟨k, hkn⟩).addrs) hq
        (ports ⟨k, hkn⟩).rt (t.1.regs ⟨k, hkn⟩) t.1.dev
      rw [(hp ⟨k, hkn⟩).auto, if_pos rfl] at u2
      refine ⟨(⟨fun j => if j = ⟨k, hkn⟩ then u.reg else t.1.regs j, u.dev⟩, t.2 + u.errs), ?_, fun i => ?_⟩
      · simp only [testOne, hkn, dif_pos, e]; rfl
      · by_cases hi : i = ⟨k, hkn⟩
        · subst hi
          simp only [if_true, u2]
          exact (h1 _).trans (kept_pred (h1 _).reach (hp ⟨k, hkn⟩).bare _)
        · simp only [hi, if_false]; exact h1 i) (⟨fun i => Reg.reset (regs i) "HARD", s⟩, 0) (fun i => kept_reset (hreach i))
  refine ⟨t.1, t.2, ?_, h1⟩
  simp only [resetTest, hl, Option.bind_eq_bind, Option.bind_some, e]

theorem plan_registers {tests : Nat} {res : String → Bool} (h : RegistersOnly tests res) :
    plan tests res = [] ∨ plan tests res = [.reset] ∨ plan tests res = [.bash] ∨ plan tests res = [.reset, .bash] := by
  unfold RegistersOnly at h
  have hs := (C372_selection tests res).2
  generalize plan tests res = p at h hs
  have : p = p.filter (fun t => t = .reset ∨ t = .bash) := by
    symm; rw [List.filter_eq_self]; intro t ht; simpa using h t ht
  have hs2 := hs.filter (fun t => t = .reset ∨ t = .bash)
  rw [← this] at hs2
  have hs3 : p.Sublist [.reset, .bash] := hs2
  rw [List.sublist_cons_iff] at hs3
  simp only [List.sublist_cons_iff, List.sublist_nil] at hs3
  grind

/-! ## Whole runs -/

/-- The sequence ends without an error if the chip is in its reset state at the beginning of each test. -/
theorem accepts {n : Nat} (order : Order) (ho : Reorders order) (w : Nat) (hw : 1 ≤ w) (pol : Nat → Nat → Option Acc) (ports : Fin n → Port)
    (hA : RegSystem.Apart ports) (hp : ∀ i, Auto (ports i)) (hrt : ∀ i, (ports i).rt = .RW) (h : Hooks) (hq : Quiet h) (regs : Fin n → Reg) (hreach : ∀ i, Reg.Reachable (regs i))
    (hread : ∀ i, AllReadable (regs i)) (hnar : ∀ i, Narrow (regs i)) (hwired : ∀ i, Wired w pol (ports i).addrs (regs i))
    (hhas : ∀ i, ∀ x ∈ (regs i).fields, x.f.reset "HARD" ≠ none)
    (rb : (Nat → Cell) → Nat → Cell) (s : Nat → Cell) (hrb : ∀ i, Mirrors w (ports i).addrs (rb s) (Reg.reset (regs i) "HARD"))
    (fuel : Nat) (bR bB : Blk) (hfR : height bR ≤ fuel) (hfB : height bB ≤ fuel) (hmaps : ∀ c, In c bR → c.maps ≠ [] ∧ ∀ m ∈ c.maps, m.1 = false)
    (hNR : Names n bR) (hNB : Names n bB) (tests : Nat) (res : String → Bool) (hsel : RegistersOnly tests res)
    (hsR : .reset ∈ plan tests res → bR.skip = false) (hsB : .bash ∈ plan tests res → bB.skip = false)
    (hrb2 : .reset ∈ plan tests res → ∀ st, resetTest (chip w pol) order w ports h fuel bR ⟨regs, rb s⟩ = some (st, 0) →
      ∀ i, Mirrors w (ports i).addrs (rb st.dev) (Reg.reset (regs i) "HARD"))
    (more : Test → RegSystem.State n (Nat → Cell) → Option (RegSystem.State n (Nat → Cell) × Nat)) :
    ∃ st, body (tester rb (chip w pol) order w ports h fuel bR bB more) true tests res ⟨regs, s⟩ = some (st, 0) ∧
      (plan tests res ≠ [] → ∀ i, Mirrors w (ports i).addrs st.dev (st.regs i)) := by
  have first : .reset ∈ plan tests res → ∃ st, tester rb (chip w pol) order w ports h fuel bR bB more .reset ⟨regs, s⟩ = some (st, 0) ∧
      (∀ i, Kept (regs i) (st.regs i)) ∧ (∀ i, Mirrors w (ports i).addrs st.dev (st.regs i)) ∧ ∀ i, Mirrors w (ports i).addrs (rb st.dev) (Reg.reset (regs i) "HARD") := by
    intro hr
    obtain ⟨st, e1, e2, _⟩ := C344_reset_test_accepts_chip order ho w hw pol ports hA hp h hq regs hreach hread hwired (rb s) hrb fuel bR hfR (hsR hr) hmaps hNR
    obtain ⟨st', e', f1, f2⟩ := resetTest_any (chip w pol) order w ports hp h hq regs hreach (rb s) fuel bR hfR (hsR hr) hmaps hNR
    rw [e1] at f1
    simp only [Option.some.injEq, Prod.mk.injEq] at f1
    obtain ⟨rfl, _⟩ := f1
    exact ⟨st, e1, f2, e2, hrb2 hr st e1⟩
  have second : .bash ∈ plan tests res → ∀ st0 : RegSystem.State n (Nat → Cell), (∀ i, Kept (regs i) (st0.regs i)) →
      (∀ i, Mirrors w (ports i).addrs (rb st0.dev) (Reg.reset (regs i) "HARD")) →
      ∃ st, tester rb (chip w pol) order w ports h fuel bR bB more .bash st0 = some (st, 0) ∧ ∀ i, Mirrors w (ports i).addrs st.dev (st.regs i) := by
    intro hr st0 hk hm
    have hk2 : ∀ i, Kept (regs i) (Reg.reset (st0.regs i) "HARD") := fun i => (hk i).trans (kept_reset (hk i).reach)
    obtain ⟨st, e1, e2, _⟩ := C342_bit_bash_accepts_chip order ho w hw pol ports hA hp hrt h hq (fun i => Reg.reset (st0.regs i) "HARD") (fun i => (hk2 i).reach)
      (fun i => narrow_shape (kept_shape (hk2 i)) (hk2 i).bits (hnar i)) (fun i => wired_lay (kept_lay (hk2 i)) (hwired i)) (rb st0.dev)
      (fun i => mirrors_kept (hk i) (hhas i) (hm i)) fuel bB hfB (hsB hr) hNB
    exact ⟨st, e1, e2⟩
  have self : ∀ i, Kept (regs i) (regs i) := fun i => ⟨hreach i, rfl, rfl⟩
  simp only [body, Bool.true_eq_false, if_false]
  rcases plan_registers hsel with hpl | hpl | hpl | hpl <;> rw [hpl] at first second ⊢
  · exact ⟨⟨regs, s⟩, rfl, fun h => absurd rfl h⟩
  · obtain ⟨st, e, _, h2, _⟩ := first (by simp)
    exact ⟨st, by simp [List.foldlM_cons, runOne, e], fun _ => h2⟩
  · obtain ⟨st, e, h2⟩ := second (by simp) ⟨regs, s⟩ self hrb
    exact ⟨st, by simp [List.foldlM_cons, runOne, e], fun _ => h2⟩
  · obtain ⟨st, e, h1, _, hm⟩ := first (by simp)
    obtain ⟨st2, e2, h2⟩ := second (by simp) st h1 hm
    exact ⟨st2, by simp [List.foldlM_cons, runOne, e, e2], fun _ => h2⟩

/-- C374. On a chip that follows the documented access policies, and which `reset_blk` brings into its reset state, the sequence with the two tests of registers
through the bus, or one of them, ends without an error; the mirrors then agree with the chip. -/
theorem C374_accepts_chip {n : Nat} (order : Order) (ho : Reorders order) (w : Nat) (hw : 1 ≤ w) (pol : Nat → Nat → Option Acc) (ports : Fin n → Port)
    (hA : RegSystem.Apart ports) (hp : ∀ i, Auto (ports i)) (hrt : ∀ i, (ports i).rt = .RW) (h : Hooks) (hq : Quiet h) (regs : Fin n → Reg) (hreach : ∀ i, Reg.Reachable (regs i))
    (hread : ∀ i, AllReadable (regs i)) (hnar : ∀ i, Narrow (regs i)) (hwired : ∀ i, Wired w pol (ports i).addrs (regs i))
    (hhas : ∀ i, ∀ x ∈ (regs i).fields, x.f.reset "HARD" ≠ none)
    (rb : (Nat → Cell) → Nat → Cell) (hrb : ∀ s i, Mirrors w (ports i).addrs (rb s) (Reg.reset (regs i) "HARD")) (s : Nat → Cell)
    (fuel : Nat) (bR bB : Blk) (hfR : height bR ≤ fuel) (hfB : height bB ≤ fuel) (hmaps : ∀ c, In c bR → c.maps ≠ [] ∧ ∀ m ∈ c.maps, m.1 = false)
    (hNR : Names n bR) (hNB : Names n bB) (tests : Nat) (res : String → Bool) (hsel : RegistersOnly tests res)
    (hsR : .reset ∈ plan tests res → bR.skip = false) (hsB : .bash ∈ plan tests res → bB.skip = false)
    (more : Test → RegSystem.State n (Nat → Cell) → Option (RegSystem.State n (Nat → Cell) × Nat)) :
    ∃ st, body (tester rb (chip w pol) order w ports h fuel bR bB more) true tests res ⟨regs, s⟩ = some (st, 0) ∧
      (plan tests res ≠ [] → ∀ i, Mirrors w (ports i).addrs st.dev (st.regs i)) := by
  exact accepts order ho w hw pol ports hA hp hrt h hq regs hreach hread hnar hwired hhas rb s (hrb s) fuel bR bB hfR hfB hmaps hNR hNB tests res hsel hsR hsB
    (fun _ st _ i => hrb st.dev i) more

/-- The reset test changes nothing in the chip if no field is changed by being read. -/
theorem reset_leaves {n : Nat} (order : Order) (ho : Reorders order) (w : Nat) (hw : 1 ≤ w) (pol : Nat → Nat → Option Acc) (ports : Fin n → Port)
    (hA : RegSystem.Apart ports) (hp : ∀ i, Auto (ports i)) (h : Hooks) (hq : Quiet h) (regs : Fin n → Reg) (hreach : ∀ i, Reg.Reachable (regs i))
    (hkeep : ∀ i, ReadsKeep (regs i)) (hwired : ∀ i, Wired w pol (ports i).addrs (regs i)) (s : Nat → Cell)
    (hm : ∀ i, Mirrors w (ports i).addrs s (Reg.reset (regs i) "HARD"))
    (fuel : Nat) (b : Blk) (hf : height b ≤ fuel) (hb : b.skip = false) (hmaps : ∀ c, In c b → c.maps ≠ [] ∧ ∀ m ∈ c.maps, m.1 = false) (hN : Names n b) :
    ∃ st e, resetTest (chip w pol) order w ports h fuel b ⟨regs, s⟩ = some (st, e) ∧ ∀ i, Mirrors w (ports i).addrs st.dev (Reg.reset (regs i) "HARD") := by
  have hkR : ∀ i, Kept (regs i) (Reg.reset (regs i) "HARD") := fun i => kept_reset (hreach i)
  obtain ⟨l, hl, hmem⟩ := C133_reset_covers_partial fuel b hf hb hmaps
  obtain ⟨t, e, h1⟩ := foldlM_inv (f := testOne fun i r s => hwResetReg (ports i).cfg (regDev (chip w pol) order w r.nBits (ports i).addrs) h (ports i).rt r s)
    (P := fun t : RegSystem.State n (Nat → Cell) × Nat => ∀ i, Sound w pol (ports i).addrs t.1.dev (Reg.reset (regs i) "HARD")) l (by
      intro t k hk h1
      obtain ⟨c, hc, _, m, hm, hkm⟩ := (hmem k).1 hk
      have hkn : k < n := (hN c hc).2 m hm _ hkm
      obtain ⟨u, e, u1, _⟩ := hw_any (hp ⟨k, hkn⟩).rw (hp ⟨k, hkn⟩).bare (regDev (chip w pol) order w (t.1.regs ⟨k, hkn⟩).nBits (ports ⟨k, hkn⟩).addrs) hq
        (ports ⟨k, hkn⟩).rt (t.1.regs ⟨k, hkn⟩) t.1.dev
      obtain ⟨s', v, c1, c2, c3, c4, _⟩ := chip_read w hw pol ho ((t.1.regs ⟨k, hkn⟩).nBits : Int) (2 ^ w - 1) (hA.some ⟨k, hkn⟩) (hA.once _) t.1.dev
      have hu : u.dev = s' := by rw [u1]; simp only [regDev, c1]
      refine ⟨(⟨fun j => if j = ⟨k, hkn⟩ then u.reg else t.1.regs j, u.dev⟩, t.2 + u.errs), ?_, fun i => ?_⟩
      · simp only [testOne, hkn, dif_pos, e]; rfl
      · show Sound w pol (ports i).addrs u.dev _
        rw [hu]
        by_cases hi : i = ⟨k, hkn⟩
        · subst hi
          have hS := h1 ⟨k, hkn⟩
          refine ⟨hS.good, hS.wired, fun x hx => ⟨fun j hj => ?_, fun a ha => ?_⟩⟩
          · have hcov : Covers x (x.lsb + j) := ⟨by omega, by omega⟩
            have hlt := hS.wired.fits x hx
            rw [c3 (x.lsb + j) (by omega), hS.wired.fields x hx _ hcov]
            obtain ⟨y, hy, _, _, e3, _⟩ := shape_mem (kept_shape (hkR ⟨k, hkn⟩)).symm hx
            have hne : (doc x.f.access).2 = .noEffect := by rw [← e3]; exact hkeep _ y hy
            simp only [Option.map_some, hne]
            exact (hS.mirrors x hx).1 j hj
          · rw [c2 a ha]; exact (hS.mirrors x hx).2 a ha
        · exact sound_other (i := ⟨k, hkn⟩) (fun a ha => hA.apart i _ hi a ha) c4 (h1 i)) (⟨fun i => Reg.reset (regs i) "HARD", s⟩, 0)
      (fun i => ⟨reachable_good (hkR i).reach, wired_lay (kept_lay (hkR i)) (hwired i), hm i⟩)
  refine ⟨t.1, t.2, ?_, fun i => (h1 i).mirrors⟩
  simp only [resetTest, hl, Option.bind_eq_bind, Option.bind_some, e]

/-- C375, what holds: with the `reset_blk` of the library, which does nothing, the sequence accepts a chip that is in its reset state at the start, if no field
is changed by being read.  Missing: fields that are, for which it is false (`C375_default_reset_fails`). -/
theorem C375_default_reset_partial {n : Nat} (order : Order) (ho : Reorders order) (w : Nat) (hw : 1 ≤ w) (pol : Nat → Nat → Option Acc) (ports : Fin n → Port)
    (hA : RegSystem.Apart ports) (hp : ∀ i, Auto (ports i)) (hrt : ∀ i, (ports i).rt = .RW) (h : Hooks) (hq : Quiet h) (regs : Fin n → Reg) (hreach : ∀ i, Reg.Reachable (regs i))
    (hread : ∀ i, AllReadable (regs i)) (hkeep : ∀ i, ReadsKeep (regs i)) (hnar : ∀ i, Narrow (regs i)) (hwired : ∀ i, Wired w pol (ports i).addrs (regs i))
    (hhas : ∀ i, ∀ x ∈ (regs i).fields, x.f.reset "HARD" ≠ none) (s : Nat → Cell) (hm : ∀ i, Mirrors w (ports i).addrs s (Reg.reset (regs i) "HARD"))
    (fuel : Nat) (bR bB : Blk) (hfR : height bR ≤ fuel) (hfB : height bB ≤ fuel) (hmaps : ∀ c, In c bR → c.maps ≠ [] ∧ ∀ m ∈ c.maps, m.1 = false)
    (hNR : Names n bR) (hNB : Names n bB) (tests : Nat) (res : String → Bool) (hsel : RegistersOnly tests res)
    (hsR : .reset ∈ plan tests res → bR.skip = false) (hsB : .bash ∈ plan tests res → bB.skip = false)
    (more : Test → RegSystem.State n (Nat → Cell) → Option (RegSystem.State n (Nat → Cell) × Nat)) :
    ∃ st, body (tester id (chip w pol) order w ports h fuel bR bB more) true tests res ⟨regs, s⟩ = some (st, 0) ∧
      (plan tests res ≠ [] → ∀ i, Mirrors w (ports i).addrs st.dev (st.regs i)) := by
  refine accepts order ho w hw pol ports hA hp hrt h hq regs hreach hread hnar hwired hhas id s hm fuel bR bB hfR hfB hmaps hNR hNB tests res hsel hsR hsB
    (fun hr st e i => ?_) more
  obtain ⟨st', e', g1, g2⟩ := reset_leaves order ho w hw pol ports hA hp h hq regs hreach hkeep hwired s hm fuel bR hfR (hsR hr) hmaps hNR
  have e0 : resetTest (chip w pol) order w ports h fuel bR ⟨regs, s⟩ = some (st, 0) := e
  rw [e0] at g1
  simp only [Option.some.injEq, Prod.mk.injEq] at g1
  rw [g1.1]
  exact g2 i

/-- C376. A bit of a plain read/write field that always reads as the same value is reported by the sequence whenever the bit bash test is among the tests run,
whatever the hardware does otherwise and whatever `reset_blk` does. -/
theorem C376_finds_stuck_bits {n : Nat} {σ} (bus : Bus σ) (order : Order) (w : Nat) (ports : Fin n → Port)
    (hp : ∀ i, Auto (ports i)) (hrt : ∀ i, (ports i).rt = .RW) (h : Hooks) (hq : Quiet h) (regs : Fin n → Reg) (hreach : ∀ i, Reg.Reachable (regs i))
    (hnar : ∀ i, Narrow (regs i)) (rb : σ → σ) (s : σ)
    (fuel : Nat) (bR bB : Blk) (hfR : height bR ≤ fuel) (hfB : height bB ≤ fuel) (hmaps : ∀ c, In c bR → c.maps ≠ [] ∧ ∀ m ∈ c.maps, m.1 = false)
    (hNR : Names n bR) (hNB : Names n bB) (tests : Nat) (res : String → Bool) (hsel : RegistersOnly tests res)
    (hsR : .reset ∈ plan tests res → bR.skip = false) (hsB : bB.skip = false) (hask : Asked tests .bash) (hex : ¬ Excluded res .bash)
    (c : Blk) (hc : In c bB) (i : Fin n) (hi : Listed c i.val) (k : Nat) (hT : TestedBit (regs i) k) (v : Bool)
    (hs : ∀ s, ((regDev bus order w (regs i).nBits (ports i).addrs).rd s).2.1.testBit k = v)
    (more : Test → RegSystem.State n σ → Option (RegSystem.State n σ × Nat)) :
    ∃ st e, body (tester rb bus order w ports h fuel bR bB more) true tests res ⟨regs, s⟩ = some (st, e) ∧ 0 < e := by
  have hin : Test.bash ∈ plan tests res := ((C372_selection tests res).1 .bash (by decide)).2 ⟨hask, hex⟩
  have second : ∀ st0 : RegSystem.State n σ, (∀ i, Kept (regs i) (st0.regs i)) →
      ∃ st e, tester rb bus order w ports h fuel bR bB more .bash st0 = some (st, e) ∧ 0 < e := by
    intro st0 hk
    have hk2 : ∀ i, Kept (regs i) (Reg.reset (st0.regs i) "HARD") := fun i => (hk i).trans (kept_reset (hk i).reach)
    refine C343_bit_bash_finds_stuck_bits bus order w ports hp hrt h hq (fun i => Reg.reset (st0.regs i) "HARD") (fun i => (hk2 i).reach)
      (fun i => narrow_shape (kept_shape (hk2 i)) (hk2 i).bits (hnar i)) (rb st0.dev) fuel bB hfB hsB hNB c hc i hi k ?_ v ?_
    · obtain ⟨t1, x, hx, t2, t3, t4⟩ := hT
      obtain ⟨y, hy, e1, e2, e3, e4⟩ := shape_mem (kept_shape (hk2 i)) hx
      exact ⟨by rw [(hk2 i).bits]; exact t1, y, hy, ⟨by have := t2.1; omega, by have := t2.2; omega⟩, e3 ▸ t3, e4 ▸ t4⟩
    · intro s'
      rw [show (Reg.reset (st0.regs i) "HARD").nBits = (regs i).nBits from (hk2 i).bits]; exact hs s'
  simp only [body, Bool.true_eq_false, if_false]
  rcases plan_registers hsel with hpl | hpl | hpl | hpl <;> rw [hpl] at hin hsR ⊢
  · simp at hin
  · simp at hin
  · obtain ⟨st, e, h1, h2⟩ := second ⟨regs, s⟩ fun i => ⟨hreach i, rfl, rfl⟩
    exact ⟨st, e, by simp [List.foldlM_cons, runOne, h1], h2⟩
  · obtain ⟨st, e, h1, h2⟩ := resetTest_any bus order w ports hp h hq regs hreach (rb s) fuel bR hfR (hsR (by simp)) hmaps hNR
    obtain ⟨st2, e2, g1, g2⟩ := second st h2
    refine ⟨st2, e + e2, ?_, by omega⟩
    have h1' : tester rb bus order w ports h fuel bR bB more .reset ⟨regs, s⟩ = some (st, e) := h1
    simp [List.foldlM_cons, runOne, h1', g1]

/-! ## The hypotheses are met by the block of `Verif.Props.RegTestsAll` -/

/-- No resources. -/
def none' : String → Bool := fun _ => false

example : plan 0xffffffffffffffff none' = [.reset, .bash, .access, .memAccess, .memWalk] ∧ plan 0x2b (· == "NO_MEM_TESTS") = [.reset, .bash, .memWalk] := by decide
example : plan 3 none' = [.reset, .bash] ∧ RegistersOnly 3 none' := ⟨by decide, (by decide : ∀ t ∈ plan 3 none', t = .reset ∨ t = .bash)⟩
example : Asked 3 .bash ∧ ¬ Excluded none' .bash := ⟨(by decide : (3 : Nat).testBit 1 = true), fun ⟨_, _, h⟩ => by simp [none'] at h⟩
example : ∀ i, ∀ x ∈ (egRegs i).fields, x.f.reset "HARD" ≠ none := by
  intro i
  match i with
  | ⟨0, _⟩ => exact (by decide : ∀ x ∈ (egRegs 0).fields, x.f.reset "HARD" ≠ none)
  | ⟨1, _⟩ => exact (by decide : ∀ x ∈ (egRegs 1).fields, x.f.reset "HARD" ≠ none)

/-- `reset_blk` brings the chip into its reset state. -/
example : (body (tester (fun _ => egChip) (chip 2 egPol) List.reverse 2 egPorts {} 2 egBlk egBlk fun _ _ => none) true 3 none' ⟨egRegs, egChip⟩).map (·.2) = some 0 := by
  decide +kernel

/-- C375 fails. With the `reset_blk` of the library a chip that follows the documented policies and is in its reset state is reported: the reset test reads the field
that is cleared by reads, the model is reset before the bit bash test, the chip is not. -/
theorem C375_default_reset_fails :
    ∃ st e, body (tester id (chip 2 egPol) List.reverse 2 egPorts {} 2 egBlk egBlk fun _ _ => none) true 3 none' ⟨egRegs, egChip⟩ = some (st, e) ∧ 0 < e := by
  have : (body (tester id (chip 2 egPol) List.reverse 2 egPorts {} 2 egBlk egBlk fun _ _ => none) true 3 none' ⟨egRegs, egChip⟩).map (fun o => decide (0 < o.2)) = some true := by
    decide +kernel
  obtain ⟨o, h1, h2⟩ := Option.map_eq_some_iff.1 this
  exact ⟨o.1, o.2, h1, by simpa using h2⟩

/-- The registers of C375_default_reset_partial. -/
example : ReadsKeep egRw ∧ AllReadable egRw :=
  ⟨(by decide : ∀ x ∈ egRw.fields, (doc x.f.access).2 = .noEffect), (by decide : ∀ x ∈ egRw.fields, (doc x.f.access).2 ≠ .error ∧ x.f.access ≠ .NOACCESS)⟩

/-- A stuck bit (C376). -/
example : (body (tester id egStuck id 2 egPorts {} 2 egBlk egBlk fun _ _ => none) true 3 none' ⟨fun _ => egRw, ()⟩).map (fun o => decide (0 < o.2)) = some true := by
  decide +kernel

end Verif.BuiltIn
