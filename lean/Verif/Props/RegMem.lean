import Verif.Lemmas.RegMem
/-!
# C336: registers and memories on one bus

Any number of registers and memories behind one bus, any history of register operations and allowed front-door memory accesses, single or
burst, in any order: the registers behave as if there were no memories and every memory as if it were alone.
-/
namespace Verif.RegMem
open Verif.Reg Verif.RegField Verif.RegAccess Verif.RegMap Verif.RegSystem Verif.RegChip

/-- The memories are mapped apart from each other: each is reached under the addresses of its words, and has no back door. -/
structure Banks {m : Nat} (sel : Nat → Option (Fin m)) (c : RegMap.Cfg) (b : Nat) (off sz : Fin m → Nat) (es : Fin m → Mem.Env (Nat → Nat))
    (ls : Fin m → Mem.Local (Nat → Nat)) : Prop where
  mapped : ∀ j, Mem.Mapped c b (off j) (sz j) (es j) (ls j)
  user : ∀ j, (es j).user = none
  hdl : ∀ j, (es j).hdl = none
  sel : ∀ j, Selected sel j (es j)

section
variable {n m : Nat} {sel : Nat → Option (Fin m)} {σ : Type} {a : Bus σ} {order : Order} {w : Nat} {ports : Fin n → Port} {c : RegMap.Cfg} {b : Nat}
  {off sz : Fin m → Nat} {es : Fin m → Mem.Env (Nat → Nat)} {ls : Fin m → Mem.Local (Nat → Nat)}

theorem step_reg (ho : Reorders order) (hsel : ∀ i, ∀ x ∈ (ports i).addrs, sel x = none) (i : Fin n) (o : RegAccess.Op) (regs : Fin n → Reg) (s : σ)
    (t : Fin m → Nat → Nat) {st1 : RegSystem.State n σ} {out : Out} (h : RegSystem.step ports (onBus a order w ports) ⟨regs, s⟩ (i, o) = some (st1, out)) :
    step (soc sel a) order w ports (fun j => place (es j) (soc sel a)) ⟨regs, (s, t)⟩ (.reg i o) = some (⟨st1.regs, (st1.dev, t)⟩, .reg i out) := by
  have H := access_alike (regDev_reg (a := a) ho w (regs i).nBits (ports i).addrs (hsel i) t) (ports i) (regs i) (s, t) s rfl o
  simp only [RegSystem.step, onBus] at h
  obtain ⟨q, hq, e⟩ := Option.map_eq_some_iff.1 h
  rw [hq] at H
  generalize hg : access (ports i) (regDev (soc sel a) order w (regs i).nBits (ports i).addrs) (regs i) (s, t) o = g at H
  cases H with
  | @some x y hx =>
    obtain ⟨h1, h2, h3⟩ := hx
    simp only [Prod.mk.injEq] at e
    obtain ⟨rfl, rfl⟩ := e
    simp only [step, RegSystem.step, onBus, hg, Option.map_some, h1, h2]
    rw [h3]

/-- C336. The registers and the memories do not disturb each other: what happens on the common bus is what happens to the registers without the memories and to
each memory alone. -/
theorem C336_separate (ho : Reorders order) (hsel : ∀ i, ∀ x ∈ (ports i).addrs, sel x = none) (B : Banks sel c b off sz es ls) (h : List (Op n m))
    (ha : ∀ j, ∀ op ∈ opsOf j h, Mem.Allowed (es j) (ls j).w (sz j) op) (regs : Fin n → Reg) (s : σ) (t : Fin m → Nat → Nat) {st : RegSystem.State n σ} {ro : List Out}
    (hr : RegSystem.run ports (onBus a order w ports) ⟨regs, s⟩ (regOps h) = some (st, ro)) :
    ∃ t' outs, run (soc sel a) order w ports (fun j => place (es j) (soc sel a)) ⟨regs, (s, t)⟩ h = some (⟨st.regs, (st.dev, t')⟩, outs) ∧
      outs.map Ans.of = h.map Op.of ∧ regOuts outs = ro ∧ ∀ j, Mem.execAll (es j) (t j) (opsOf j h) = some (t' j, resOf j outs) := by
  induction h generalizing regs s t ro with
  | nil =>
    simp only [regOps, List.filterMap_nil, RegSystem.run, Option.some.injEq, Prod.mk.injEq] at hr
    obtain ⟨rfl, rfl⟩ := hr
    exact ⟨t, [], rfl, rfl, rfl, fun j => rfl⟩
  | cons op h ih =>
    cases op with
    | reg i o =>
      have e : regOps (m := m) (Op.reg i o :: h) = (i, o) :: regOps h := rfl
      rw [e] at hr
      simp only [RegSystem.run] at hr
      cases hs : RegSystem.step ports (onBus a order w ports) ⟨regs, s⟩ (i, o) with
      | none => rw [hs] at hr; cases hr
      | some q =>
        obtain ⟨st1, out⟩ := q
        rw [hs] at hr
        obtain ⟨z, hz, e'⟩ := Option.map_eq_some_iff.1 hr
        simp only [Prod.mk.injEq] at e'
        obtain ⟨rfl, rfl⟩ := e'
        obtain ⟨t', outs, h1, h2, h3, h4⟩ := ih (fun j op hop => ha j op (by simpa [opsOf] using hop)) st1.regs st1.dev t hz
        refine ⟨t', .reg i out :: outs, ?_, by simp [h2, Ans.of, Op.of], by rw [← h3]; rfl, fun j => h4 j⟩
        simp only [run, step_reg ho hsel i o regs s t hs, Option.bind_some, h1, Option.map_some]
    | mem j o =>
      have hj : opsOf (n := n) j (Op.mem j o :: h) = o :: opsOf j h := by simp [opsOf]
      have hk : ∀ k, k ≠ j → opsOf (n := n) k (Op.mem j o :: h) = opsOf k h := fun k hk => by simp [opsOf, Ne.symm hk]
      have hop := ha j o (by rw [hj]; simp)
      have M := B.mapped j
      have hex := exec_place (a := a) M.bus M.order M.loc M.fd M.mapped (B.user j) (B.hdl j) (B.sel j) hop s t
      obtain ⟨s1, r, e1, _⟩ := Mem.exec_front M (t j) [] (by intro o v hl; simp [Mem.lastWritten] at hl) o hop
      rw [e1] at hex
      have hr' : RegSystem.run ports (onBus a order w ports) ⟨regs, s⟩ (regOps h) = some (st, ro) := hr
      obtain ⟨t', outs, h1, h2, h3, h4⟩ := ih (fun k op hop' => ha k op (by
        by_cases hkj : k = j
        · subst hkj; rw [hj]; exact List.mem_cons_of_mem _ hop'
        · rw [hk k hkj]; exact hop')) regs s (put t j s1) hr'
      refine ⟨t', .mem j r :: outs, ?_, by simp [h2, Ans.of, Op.of], by rw [← h3]; rfl, fun k => ?_⟩
      · simp only [run, step, hex, Option.map_some, Option.bind_some, h1]
      · have := h4 k
        by_cases hkj : k = j
        · subst hkj
          rw [put_at] at this
          rw [hj]
          simp [Mem.execAll, e1, this, resOf]
        · rw [hk k hkj]
          simp only [put, hkj, if_false] at this
          simpa [resOf, Ne.symm hkj] using this
end

/-- C336. In a chip that follows the documented access policies, with memories next to its registers: no operation raises, every register operation and every
memory access reports OK, the mirrors of the registers are what the chip has, and a read of a memory returns the value written last to that word of that memory. -/
theorem C336_registers_and_memories {n m : Nat} (sel : Nat → Option (Fin m)) (order : Order) (ho : Reorders order) (w : Nat) (hw : 1 ≤ w) (pol : Nat → Nat → Option Acc)
    (ports : Fin n → Port) (hA : Apart ports) (hp : ∀ i, Auto (ports i)) (hsel : ∀ i, ∀ x ∈ (ports i).addrs, sel x = none)
    (c : RegMap.Cfg) (b : Nat) (off sz : Fin m → Nat) (es : Fin m → Mem.Env (Nat → Nat)) (ls : Fin m → Mem.Local (Nat → Nat)) (B : Banks sel c b off sz es ls)
    (regs : Fin n → Reg) (hreach : ∀ i, Reachable (regs i)) (hwired : ∀ i, Wired w pol (ports i).addrs (regs i)) (s : Nat → Cell)
    (hm : ∀ i, Mirrors w (ports i).addrs s (regs i)) (t : Fin m → Nat → Nat) (h : List (Op n m))
    (ha : ∀ j, ∀ op ∈ opsOf j h, Mem.Allowed (es j) (ls j).w (sz j) op) :
    ∃ st outs, run (soc sel (chip w pol)) order w ports (fun j => place (es j) (soc sel (chip w pol))) ⟨regs, (s, t)⟩ h = some (st, outs) ∧
      outs.map Ans.of = h.map Op.of ∧ (∀ i, Mirrors w (ports i).addrs st.dev.1 (st.regs i)) ∧ (∀ o ∈ regOuts outs, AllOk o) ∧
      ((∀ i, AllReadable (regs i)) → ∀ status, Out.mirrored status true ∉ regOuts outs) ∧
      ∀ j i op r, (opsOf j h)[i]? = some op → (resOf j outs)[i]? = some r → r.ok = true ∧ r.errs = [] ∧
        ∀ o p, op = .read o p → ∀ v, Mem.lastWritten o ((opsOf j h).take i) = some v → r.value = some v := by
  obtain ⟨st, ro, e1, e2, e3, e4, e5, e6⟩ := run_sound ho hw pol hA hp (regOps h) regs s fun i => ⟨reachable_good (hreach i), hwired i, hm i⟩
  obtain ⟨t', outs, h1, h2, h3, h4⟩ := C336_separate (a := chip w pol) ho hsel B h ha regs s t e1
  refine ⟨_, outs, h1, h2, fun i => (e2 i).1.mirrors, by rw [h3]; exact e5, fun hR => by rw [h3]; exact e6 hR, fun j => ?_⟩
  obtain ⟨s1, rs, k1, _, k3, _⟩ := Mem.C138_memory_is_an_array c b (off j) (sz j) (es j) (ls j) (B.mapped j) (opsOf j h) (t j) (ha j)
  rw [h4 j, Option.some.injEq, Prod.mk.injEq] at k1
  rw [k1.2]
  exact k3

/-! ### A case: the registers of Props/RegChip and two memories -/

def egSel (x : Nat) : Option (Fin 2) := if 0x120 ≤ x ∧ x < 0x160 then some 0 else if 0x160 ≤ x ∧ x < 0x1a0 then some 1 else none
def egLocs (j : Fin 2) : Mem.Local (Nat → Nat) := if j = 0 then Mem.loc4 else { info := ([0x162, 0x160], 4), w := 2 }
def egEnvs (j : Fin 2) : Mem.Env (Nat → Nat) := { size := 16, nBits := 32, loc := some (egLocs j), bus := memBus }

theorem egBanks : Banks egSel ⟨2, true, .big⟩ 0x100 (fun j => if j = 0 then 0x20 else 0x60) (fun _ => 4) egEnvs egLocs where
  mapped j := match j with
    | ⟨0, _⟩ => ⟨rfl, fun _ => List.Perm.refl _, rfl, rfl, rfl, by decide +revert, rfl, by decide, .inr rfl, (by decide +revert), by decide +revert⟩
    | ⟨1, _⟩ => ⟨rfl, fun _ => List.Perm.refl _, rfl, rfl, rfl, by decide +revert, rfl, by decide, .inr rfl, (by decide +revert), by decide +revert⟩
  user _ := rfl
  hdl _ := rfl
  sel j := by
    intro l hl
    cases hl
    match j with
    | ⟨0, _⟩ => exact (by decide : ∀ o, o < 16 → ∀ a ∈ memAddrs (egLocs 0).info o, egSel a = some 0)
    | ⟨1, _⟩ => exact (by decide : ∀ o, o < 16 → ∀ a ∈ memAddrs (egLocs 1).info o, egSel a = some 1)

example : ∀ i, ∀ x ∈ (egPorts i).addrs, egSel x = none := by decide

example : (run (soc egSel (chip 2 egPol)) List.reverse 2 egPorts (fun j => place (egEnvs j) (soc egSel (chip 2 egPol))) ⟨egRegs, (egChip, fun _ _ => 0)⟩
    [.mem 0 (.write 3 0x12345678 .front), .reg 0 (.write 0x30003f), .mem 1 (.write 3 7 .dflt), .reg 1 (.write 0x1234), .mem 0 (.read 3 .back), .mem 1 (.read 3 .front),
      .reg 0 (.mirror true), .reg 1 .read]).map (fun q => (regOuts q.2, (resOf 0 q.2).map (·.value), (resOf 1 q.2).map (·.value))) =
    some ([.wrote true, .wrote true, .mirrored [true] false, .got 0x1234 true false], [none, some 0x12345678], [none, some 7]) := by decide +kernel

end Verif.RegMem
