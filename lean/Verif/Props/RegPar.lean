import Verif.Lemmas.RegPar
/-!
# C337: processes that access the registers of a block at the same time

Any number of processes, any requests at any time, and any schedule of the words on the bus: what happens to a register is what happens if the operations on
it are made one after the other with nothing else on the bus; in a chip that follows the documented access policies, the mirrors follow it.
-/
namespace Verif.RegPar
open Verif.Reg Verif.RegField Verif.RegAccess Verif.RegMap Verif.RegSystem Verif.RegConc Verif.RegChip

/-- What is known of register `i` after a history. -/
structure Known {γ} (cell : Nat → γ → BusOp → γ × Nat × Bool) (order : Order) (w : Nat) (p : Port) (r : Reg) (s0 : Nat → γ) (ops : List RegAccess.Op) (t : Task)
    (dev : Nat → γ) : Prop where
  within : Within p t
  dead : t.dead = true → ∃ g, t.cur = some g ∧ g.flight.todo = [] ∧ finish p g.seen t.reg g.op g.req g.flight.res = none
  rest : ∃ s, Same p dev s ∧ rest (cellBus cell) order w p t s = solo (cellBus cell) order w p r s0 ops

section
variable {n : Nat} {γ : Type} {cell : Nat → γ → BusOp → γ × Nat × Bool} {order : Order} {w : Nat} {ports : Fin n → Port}

theorem known_go (ho : Reorders order) {p : Port} {rt : Rights} (hp : p.cfg.route = .front rt) {r : Reg} {s0 : Nat → γ} {ops : List RegAccess.Op} {t : Task} {dev : Nat → γ}
    (h : Known cell order w p r s0 ops t dev) :
    Known cell order w p r s0 ops (t.step (cellBus cell) order w p dev).1 (t.step (cellBus cell) order w p dev).2 := by
  obtain ⟨s, h1, h2⟩ := h.rest
  obtain ⟨e1, e2⟩ := same_step cell order w h.within h1
  refine ⟨within_step _ ho w h.within dev, ?_, ⟨_, e2, ?_⟩⟩
  · unfold Task.step
    split
    · exact h.dead
    · next hd =>
      split
      · split
        · exact fun h => absurd h hd
        · split <;> exact fun h => absurd h hd
      · next g hc =>
        split
        · next ht =>
          split
          · next hf => exact fun _ => ⟨g, hc, ht, hf⟩
          · exact fun h => absurd h hd
        · exact fun h => absurd h hd
  · rw [e1, rest_step _ order w hp, h2]

theorem known_run (hA : Apart ports) (ho : Reorders order) (hp : ∀ i, ∃ rt, (ports i).cfg.route = .front rt) (regs : Fin n → Reg) (s0 : Nat → γ) (evs : List (Ev n)) :
    (∀ i, Known cell order w (ports i) (regs i) s0 (asked i evs) ((run (cellBus cell) order w ports ⟨fun i => fresh (regs i), s0⟩ evs).tasks i)
      (run (cellBus cell) order w ports ⟨fun i => fresh (regs i), s0⟩ evs).dev) ∧
    ∀ a, (∀ i, a ∉ (ports i).addrs) → (run (cellBus cell) order w ports ⟨fun i => fresh (regs i), s0⟩ evs).dev a = s0 a := by
  have key : ∀ (evs : List (Ev n)) (st : State n (Nat → γ)) (done : Fin n → List RegAccess.Op),
      (∀ i, Known cell order w (ports i) (regs i) s0 (done i) (st.tasks i) st.dev) →
      (∀ i, Known cell order w (ports i) (regs i) s0 (done i ++ asked i evs) ((run (cellBus cell) order w ports st evs).tasks i) (run (cellBus cell) order w ports st evs).dev) ∧
      ∀ a, (∀ i, a ∉ (ports i).addrs) → (run (cellBus cell) order w ports st evs).dev a = st.dev a := by
    intro evs
    induction evs with
    | nil => intro st done h; exact ⟨fun i => by simpa [asked, run] using h i, fun _ _ => rfl⟩
    | cons e evs ih =>
      intro st done h
      cases e with
      | ask k op =>
        obtain ⟨g1, g2⟩ := ih (step (cellBus cell) order w ports st (.ask k op)) (fun i => if i = k then done i ++ [op] else done i) (by
          intro i
          by_cases hi : i = k
          · subst hi
            simp only [step, if_true]
            obtain ⟨s, e1, e2⟩ := (h i).rest
            exact ⟨(h i).within, (h i).dead, s, e1, by rw [rest_ask, e2, solo_append]⟩
          · simp only [step, hi, if_false]; exact h i)
        refine ⟨fun i => ?_, g2⟩
        have := g1 i
        by_cases hi : i = k
        · subst hi
          simp only [if_true] at this
          have ha : asked i (Ev.ask i op :: evs) = op :: asked i evs := by simp [asked]
          rw [ha, show done i ++ op :: asked i evs = done i ++ [op] ++ asked i evs by simp]
          exact this
        · simp only [hi, if_false] at this
          have ha : asked i (Ev.ask k op :: evs) = asked i evs := by simp [asked, Ne.symm hi]
          rw [ha]
          exact this
      | go k =>
        obtain ⟨rt, hrt⟩ := hp k
        have hoth : ∀ a, a ∉ (ports k).addrs → (step (cellBus cell) order w ports st (.go k)).dev a = st.dev a :=
          fun a ha => other_step cell order w (h k).within st.dev a ha
        obtain ⟨g1, g2⟩ := ih (step (cellBus cell) order w ports st (.go k)) done (by
          intro i
          by_cases hi : i = k
          · subst hi
            simp only [step, if_true]
            exact known_go ho hrt (h i)
          · simp only [step, hi, if_false]
            obtain ⟨s, e1, e2⟩ := (h i).rest
            exact ⟨(h i).within, (h i).dead, s, fun a ha => (hoth a (hA.apart i k hi a ha)).trans (e1 a ha), e2⟩)
        exact ⟨fun i => g1 i, fun a ha => (g2 a ha).trans (hoth a (ha k))⟩
  obtain ⟨g1, g2⟩ := key evs ⟨fun i => fresh (regs i), s0⟩ (fun _ => []) fun i => by
    refine ⟨fun g hg => by simp [fresh] at hg, fun h => by simp [fresh] at h, s0, fun _ _ => rfl, ?_⟩
    simp [rest, after, fresh, solo]
  exact ⟨fun i => by simpa using g1 i, g2⟩

/-- C337. Whenever no operation on register `i` is under way, under whatever schedule: the register, what is behind its addresses and what the callers were given is
what it would be had the operations on it been made one after the other with nothing else on the bus. Addresses of no register are untouched. -/
theorem C337_as_if_alone (hA : Apart ports) (ho : Reorders order) (hp : ∀ i, ∃ rt, (ports i).cfg.route = .front rt) (regs : Fin n → Reg) (s0 : Nat → γ) (evs : List (Ev n)) :
    let st := run (cellBus cell) order w ports ⟨fun i => fresh (regs i), s0⟩ evs
    (∀ i, (st.tasks i).idle → ∃ s, solo (cellBus cell) order w (ports i) (regs i) s0 (asked i evs) = some ((st.tasks i).reg, s, (st.tasks i).log) ∧
      ∀ a ∈ (ports i).addrs, st.dev a = s a) ∧
    ∀ a, (∀ i, a ∉ (ports i).addrs) → st.dev a = s0 a := by
  intro st
  obtain ⟨h1, h2⟩ := known_run (cell := cell) (w := w) hA ho hp regs s0 evs
  refine ⟨fun i hi => ?_, h2⟩
  obtain ⟨s, e1, e2⟩ := (h1 i).rest
  refine ⟨s, ?_, e1⟩
  rw [← e2]
  have e : ((run (cellBus cell) order w ports ⟨fun i => fresh (regs i), s0⟩ evs).tasks i).queue = [] := hi.1
  have e' : ((run (cellBus cell) order w ports ⟨fun i => fresh (regs i), s0⟩ evs).tasks i).cur = none := hi.2
  simp [rest, after, e, e', solo, st]

/-- C337. An operation raises only if it, or one before it on the same register, raises with nothing else on the bus. -/
theorem C337_exceptions (hA : Apart ports) (ho : Reorders order) (hp : ∀ i, ∃ rt, (ports i).cfg.route = .front rt) (regs : Fin n → Reg) (s0 : Nat → γ) (evs : List (Ev n))
    (i : Fin n) (hd : ((run (cellBus cell) order w ports ⟨fun i => fresh (regs i), s0⟩ evs).tasks i).dead = true) :
    solo (cellBus cell) order w (ports i) (regs i) s0 (asked i evs) = none := by
  obtain ⟨h1, _⟩ := known_run (cell := cell) (w := w) hA ho hp regs s0 evs
  obtain ⟨g, k1, k2, k3⟩ := (h1 i).dead hd
  obtain ⟨s, _, e2⟩ := (h1 i).rest
  rw [← e2]
  simp [rest, after, k1, flush_nil _ _ _ k2, k3]

/-- C337. Every schedule that lets a register go on often enough brings all its operations to an end. -/
theorem C337_completes (ho : Reorders order) (regs : Fin n → Reg) {σ} (bus : Bus σ) (s0 : σ) (evs more : List (Ev n)) (i : Fin n)
    (hm : asked i more = []) (hg : (asked i evs).length * ((ports i).addrs.length + 2) ≤ goes i more) :
    let t := (run bus order w ports ⟨fun i => fresh (regs i), s0⟩ (evs ++ more)).tasks i
    t.dead = true ∨ t.idle := by
  have keep : ∀ (evs : List (Ev n)) (st : State n σ), (st.tasks i).dead = true → ((run bus order w ports st evs).tasks i).dead = true := by
    intro evs
    induction evs with
    | nil => exact fun _ h => h
    | cons e evs ih =>
      intro st h
      refine ih _ ?_
      cases e with
      | ask k op =>
        simp only [step]
        split
        · next hk => subst hk; exact h
        · exact h
      | go k =>
        simp only [step]
        split
        · next hk => subst hk; simp [Task.step, h]
        · exact h
  have key : ∀ (evs : List (Ev n)) (st : State n σ), ((run bus order w ports st evs).tasks i).dead = true ∨
      work (ports i) ((run bus order w ports st evs).tasks i) ≤ work (ports i) (st.tasks i) + (asked i evs).length * ((ports i).addrs.length + 2) - goes i evs ∨
      (asked i evs ≠ [] ∧ work (ports i) ((run bus order w ports st evs).tasks i) ≤ work (ports i) (st.tasks i) + (asked i evs).length * ((ports i).addrs.length + 2)) := by
    intro evs
    induction evs with
    | nil => intro st; right; left; simp [run, asked, goes]
    | cons e evs ih =>
      intro st
      cases e with
      | ask k op =>
        by_cases hk : k = i
        · subst hk
          have hw' : work (ports k) ((step bus order w ports st (.ask k op)).tasks k) = work (ports k) (st.tasks k) + ((ports k).addrs.length + 2) := by
            simp only [step, if_true, work, List.length_append, List.length_singleton, Nat.add_mul]; omega
          have ha : asked k (Ev.ask k op :: evs) = op :: asked k evs := by simp [asked]
          rcases ih (step bus order w ports st (.ask k op)) with h | h | ⟨_, h⟩
          · exact .inl h
          · refine .inr (.inr ⟨by simp [ha], ?_⟩)
            rw [ha, List.length_cons, Nat.add_mul]
            exact Nat.le_trans h (by omega)
          · refine .inr (.inr ⟨by simp [ha], ?_⟩)
            rw [ha, List.length_cons, Nat.add_mul]
            exact Nat.le_trans h (by omega)
        · have hw' : (step bus order w ports st (.ask k op)).tasks i = st.tasks i := by simp [step, Ne.symm hk]
          have ha : asked i (Ev.ask k op :: evs) = asked i evs := by simp [asked, hk]
          have hg' : goes i (Ev.ask k op :: evs) = goes i evs := by simp [goes]
          have := ih (step bus order w ports st (.ask k op))
          rw [hw'] at this
          rw [ha, hg']
          exact this
      | go k =>
        have ha : asked i (Ev.go k :: evs) = asked i evs := by simp [asked]
        rw [ha]
        by_cases hk : k = i
        · subst hk
          have hg' : goes k (Ev.go k :: evs) = goes k evs + 1 := by simp [goes]
          rw [hg']
          rcases work_step bus ho w (p := ports k) (st.tasks k) st.dev with hd | hd
          · exact .inl (keep evs (step bus order w ports st (.go k)) (by simpa [step] using hd))
          · have hd' : work (ports k) ((step bus order w ports st (.go k)).tasks k) ≤ work (ports k) (st.tasks k) - 1 := by simpa [step] using hd
            rcases ih (step bus order w ports st (.go k)) with h | h | ⟨h0, h⟩
            · exact .inl h
            · by_cases hz : asked k evs = []
              · refine .inr (.inl (Nat.le_trans h ?_))
                rw [hz]; simp only [List.length_nil, Nat.zero_mul]; omega
              · exact .inr (.inr ⟨hz, Nat.le_trans h (by omega)⟩)
            · exact .inr (.inr ⟨h0, Nat.le_trans h (by omega)⟩)
        · have hw' : (step bus order w ports st (.go k)).tasks i = st.tasks i := by simp [step, Ne.symm hk]
          have hg' : goes i (Ev.go k :: evs) = goes i evs := by simp [goes, hk]
          have := ih (step bus order w ports st (.go k))
          rw [hw'] at this
          rw [hg']
          exact this
  have happ : run bus order w ports ⟨fun i => fresh (regs i), s0⟩ (evs ++ more) = run bus order w ports (run bus order w ports ⟨fun i => fresh (regs i), s0⟩ evs) more := by
    simp [run, List.foldl_append]
  intro t
  have hidle : work (ports i) t = 0 → t.idle := by
    intro h
    unfold work at h
    refine ⟨?_, ?_⟩
    · cases hq : t.queue with
      | nil => rfl
      | cons a l => rw [hq, List.length_cons, Nat.add_mul] at h; omega
    · cases hc : t.cur with
      | none => rfl
      | some g => rw [hc] at h; simp at h
  have h1 : ((run bus order w ports ⟨fun i => fresh (regs i), s0⟩ evs).tasks i).dead = true ∨
      work (ports i) ((run bus order w ports ⟨fun i => fresh (regs i), s0⟩ evs).tasks i) ≤ (asked i evs).length * ((ports i).addrs.length + 2) := by
    have h0 : work (ports i) (fresh (regs i)) = 0 := by simp [work, fresh]
    rcases key evs ⟨fun i => fresh (regs i), s0⟩ with h | h | ⟨_, h⟩
    · exact .inl h
    · right; rw [h0] at h; omega
    · right; rw [h0] at h; omega
  have ht : t = (run bus order w ports (run bus order w ports ⟨fun i => fresh (regs i), s0⟩ evs) more).tasks i := by rw [← happ]
  rcases h1 with h | h
  · left; rw [ht]; exact keep more _ h
  · rcases key more (run bus order w ports ⟨fun i => fresh (regs i), s0⟩ evs) with k | k | ⟨k, _⟩
    · left; rw [ht]; exact k
    · right
      apply hidle
      rw [ht]
      rw [hm] at k
      simp only [List.length_nil, Nat.zero_mul] at k
      omega
    · exact absurd hm k
end

theorem solo_sound {order : Order} (ho : Reorders order) {w : Nat} (hw : 1 ≤ w) {pol : Nat → Nat → Option Acc} {p : Port} (hp : Auto p) (hne : p.addrs ≠ [])
    (hn : p.addrs.Nodup) (ops : List RegAccess.Op) {r : Reg} {s : Nat → Cell} (h : Sound w pol p.addrs s r) :
    ∃ r' s' outs, solo (chip w pol) order w p r s ops = some (r', s', outs) ∧ Sound w pol p.addrs s' r' ∧ outs.length = ops.length ∧ (∀ o ∈ outs, AllOk o) ∧
      (AllReadable r → ∀ status, Out.mirrored status true ∉ outs) := by
  induction ops generalizing r s with
  | nil => exact ⟨r, s, [], rfl, h, rfl, by simp, by simp⟩
  | cons op ops ih =>
    obtain ⟨r1, s1, o, h1, h2, h3, h4, h5, h6⟩ := access_sound hw ho hne hn hp h op
    obtain ⟨r2, s2, outs, k1, k2, k3, k4, k5⟩ := ih h2
    refine ⟨r2, s2, o :: outs, by simp [solo, h1, k1], k2, by simp [k3], ?_, fun hR status => ?_⟩
    · intro x hx
      rcases List.mem_cons.1 hx with rfl | hx
      · exact h5
      · exact k4 x hx
    · intro hx
      rcases List.mem_cons.1 hx with e | hx
      · exact (h6 hR).1 status e.symm
      · exact k5 (readable_lay h3 hR) status hx

/-- C337. In a chip that follows the documented access policies, at every moment: no operation has raised, all that returned reported OK, and no mirror with check
reported a mismatch if all fields of its register can be read; and whenever no operation on a register is under way, its mirror is what the chip has and every
operation asked for has returned. -/
theorem C337_mirrors {n : Nat} (order : Order) (ho : Reorders order) (w : Nat) (hw : 1 ≤ w) (pol : Nat → Nat → Option Acc) (ports : Fin n → Port)
    (hA : Apart ports) (hp : ∀ i, Auto (ports i)) (regs : Fin n → Reg) (hreach : ∀ i, Reachable (regs i))
    (hwired : ∀ i, Wired w pol (ports i).addrs (regs i)) (s : Nat → Cell) (hm : ∀ i, Mirrors w (ports i).addrs s (regs i)) (evs : List (Ev n)) (i : Fin n) :
    let st := run (chip w pol) order w ports ⟨fun i => fresh (regs i), s⟩ evs
    (st.tasks i).dead = false ∧ (∀ o ∈ (st.tasks i).log, AllOk o) ∧
      (AllReadable (regs i) → ∀ status, Out.mirrored status true ∉ (st.tasks i).log) ∧
      ((st.tasks i).idle → Mirrors w (ports i).addrs st.dev (st.tasks i).reg ∧ (st.tasks i).log.length = (asked i evs).length) := by
  intro st
  have hf : ∀ i, ∃ rt, (ports i).cfg.route = .front rt := fun i => ⟨.RW, (hp i).rw⟩
  obtain ⟨r', s', outs, k1, k2, k3, k4, k5⟩ := solo_sound ho hw (hp i) (hA.some i) (hA.once i) (asked i evs) ⟨reachable_good (hreach i), hwired i, hm i⟩
  have hlog : ∃ l, outs = (st.tasks i).log ++ l := by
    obtain ⟨h1, _⟩ := known_run (cell := chipCell w pol) (w := w) hA ho hf regs s evs
    obtain ⟨s1, e1, e2⟩ := (h1 i).rest
    rw [show solo (cellBus (chipCell w pol)) order w (ports i) (regs i) s (asked i evs) = _ from k1] at e2
    obtain ⟨x, hx, e3⟩ := Option.bind_eq_some_iff.1 e2
    obtain ⟨z, hz, e4⟩ := Option.map_eq_some_iff.1 e3
    simp only [Prod.mk.injEq] at e4
    exact ⟨x.2.2 ++ z.2.2, by rw [← e4.2.2, List.append_assoc]; rfl⟩
  obtain ⟨l, hl⟩ := hlog
  refine ⟨?_, fun o h => k4 o (by rw [hl]; simp [h]), fun hR status h => k5 hR status (by rw [hl]; simp [h]), fun hi => ?_⟩
  · cases hd : (st.tasks i).dead with
    | false => rfl
    | true =>
      have := C337_exceptions (cell := chipCell w pol) hA ho hf regs s evs i hd
      rw [show solo (cellBus (chipCell w pol)) order w (ports i) (regs i) s (asked i evs) = _ from k1] at this
      cases this
  · obtain ⟨s1, e1, e2⟩ := (C337_as_if_alone (cell := chipCell w pol) (w := w) hA ho hf regs s evs).1 i hi
    rw [show solo (cellBus (chipCell w pol)) order w (ports i) (regs i) s (asked i evs) = _ from k1] at e1
    simp only [Option.some.injEq, Prod.mk.injEq] at e1
    obtain ⟨rfl, rfl, e3⟩ := e1
    refine ⟨?_, by rw [← k3, e3]; rfl⟩
    intro x hx
    have hmx := k2.mirrors x hx
    refine ⟨fun k hk => ?_, fun a ha => ?_⟩
    · have hlt : x.lsb + k < 8 * w * (ports i).addrs.length := Nat.lt_of_lt_of_le (by omega) (k2.wired.fits x hx)
      have hmem : wordOf w (ports i).addrs (x.lsb + k) ∈ (ports i).addrs := by rw [wordOf_get hlt]; exact List.getElem_mem _
      rw [hmx.1 k hk, bitOf, bitOf, ← e2 _ hmem]; rfl
    · rw [← hmx.2 a ha, ← e2 a ha]; rfl

/-! ### A case: the registers of Props/RegChip, accessed by several processes, their words mixed; the examples there (`egApart`, `egAuto` and after) meet the hypotheses -/

def egEvs : List (Ev 2) := [.ask 0 (.write 0x30003f), .go 0, .ask 1 (.write 0x1234), .go 1, .go 0, .go 1, .ask 0 (.mirror true), .ask 1 .read, .go 1, .go 0, .go 0, .go 1,
  .go 0, .go 1, .go 0, .go 1, .go 0, .go 0, .go 0]

example : let st := run (chip 2 egPol) List.reverse 2 egPorts ⟨fun i => fresh (egRegs i), egChip⟩ egEvs
    (st.tasks 0).log = [.wrote true, .mirrored [true] false] ∧ (st.tasks 1).log = [.wrote true, .got 0x1234 true false] ∧
    (st.tasks 0).queue = [] ∧ (st.tasks 1).queue = [] := by decide +kernel

example : (asked 0 egEvs).length = 2 ∧ (egPorts 0).addrs.length = 2 ∧ (2 : Nat) * (2 + 2) ≤ goes (0 : Fin 2) (List.replicate 8 (Ev.go 0)) := by decide

end Verif.RegPar
