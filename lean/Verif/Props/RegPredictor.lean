import Verif.Lemmas.RegPredictor
import Verif.Props.RegAccess
import Verif.Props.RegMap
namespace Verif.RegPredictor
open Verif.Reg Verif.RegField Verif.RegAccess

/-! ## C134: explicit prediction of observed transfers -/

theorem assembles_unique {c : Conf} {r : Nat} {l : List Beat} (hl : ∀ a ∈ c.addrs r, ∃ b ∈ l, b.addr = a) {u v : Nat}
    (hu : Assembles c r l u) (hv : Assembles c r l v) : u = v := by
  apply Nat.eq_of_testBit_eq
  intro j
  by_cases hj : j < 8 * c.w * (c.addrs r).length
  · have hW : 0 < 8 * c.w := by
      rcases Nat.eq_zero_or_pos (8 * c.w) with h | h
      · rw [h] at hj; simp at hj
      · exact h
    have hi : j / (8 * c.w) < (c.addrs r).length := by rw [Nat.div_lt_iff_lt_mul hW, Nat.mul_comm]; exact hj
    obtain ⟨b, hb, e⟩ := hl _ (List.getElem_mem hi)
    have h1 := hu.2 _ _ (List.getElem?_eq_getElem hi) b hb e
    have h2 := hv.2 _ _ (List.getElem?_eq_getElem hi) b hb e
    have := congrArg (·.testBit (j % (8 * c.w))) (h1.trans h2.symm)
    simp only [Nat.testBit_mod_two_pow, Nat.mod_lt _ hW, decide_true, Bool.true_and, Nat.testBit_div_two_pow] at this
    rwa [Nat.mod_add_div] at this
  · rw [Nat.testBit_lt_two_pow (Nat.lt_of_lt_of_le hu.1 (Nat.pow_le_pow_right (by decide) (by omega))),
      Nat.testBit_lt_two_pow (Nat.lt_of_lt_of_le hv.1 (Nat.pow_le_pow_right (by decide) (by omega)))]

theorem transfer_covers {c : Conf} {r : Nat} {read : Bool} {l : List Beat} (ht : Transfer c r read l) : ∀ a ∈ c.addrs r, ∃ b ∈ l, b.addr = a := by
  intro a ha
  obtain ⟨b, hb, e⟩ := List.mem_map.1 (ht.addrs.mem_iff.2 ha)
  exact ⟨b, hb, e⟩

/-- C134. Without byte enables the predictor never raises an exception, whatever is observed. -/
theorem C134_never_raises (c : Conf) (s : St) (l : List Beat) (hb : Plain l) : ∃ t, run c s l = some t := by
  induction l generalizing s with
  | nil => exact ⟨s, rfl⟩
  | cons b l ih =>
    have hstep : ∃ t, step c s b = some t := by
      cases hr : c.rg b.addr b.read with
      | none => exact ⟨s, step_none hr⟩
      | some r =>
        have := step_local c s b r hr
        cases hl : local1 c r (s.regs r) (s.pend.lookup r) b with
        | some q => rw [hl] at this; obtain ⟨t, e, _⟩ := this; exact ⟨t, e⟩
        | none =>
          exfalso
          unfold local1 at hl
          rw [hb b List.mem_cons_self] at hl
          generalize (s.pend.lookup r).getD ⟨b.read, 0, []⟩ = p at hl
          simp only at hl
          generalize p.addrs.contains b.addr = co at hl
          cases hi : (c.addrs r).idxOf? b.addr with
          | none => rw [hi] at hl; simp at hl
          | some i =>
            rw [hi] at hl
            simp only at hl
            generalize (if co = true then p.addrs else p.addrs ++ [b.addr]).length = n at hl
            by_cases hn : n = (c.addrs r).length
            · rw [if_pos hn, doPredict_front _ _ _ (by split <;> simp)] at hl; simp at hl
            · rw [if_neg hn] at hl; simp at hl
    obtain ⟨t, e⟩ := hstep
    rw [run, e]
    exact ih t fun x hx => hb x (List.mem_cons_of_mem _ hx)

/-- C134. In any history of observed transactions, if those for register `r` are one whole transfer (each address once, in any order, with anything for
other registers or no register in between), then exactly one prediction is made for it, of the value transferred, and nothing stays pending.
The register is left as a front-door access with automatic prediction leaves it when it transfers that value, whatever the device. -/
theorem C134_transfer_is_predicted (c : Conf) (s t : St) (l : List Beat) (hrun : run c s l = some t) (hpl : Plain l) (r : Nat)
    (hn : (c.addrs r).Nodup) (hne : c.addrs r ≠ []) (hp : s.pend.lookup r = none) (read : Bool) (ht : Transfer c r read (l.filter (Targets c r))) :
    ∃ v, Assembles c r (l.filter (Targets c r)) v ∧ t.pend.lookup r = none ∧
      (about r t.log).filter (fun e => e matches .predicted ..) =
        (about r s.log).filter (fun e => e matches .predicted ..) ++ [.predicted r read v] ∧
      (∀ e ∈ about r t.log, e ∈ about r s.log ∨ e = .mismatch r ∨ e = .predicted r read v) ∧
      (Ev.mismatch r ∈ (about r t.log).drop (about r s.log).length ↔
        read = true ∧ c.check r = true ∧ doCheck (s.regs r) (c.rights r) (getMirrored (s.regs r)) v = false) ∧
      (read = false → ∀ {σ} (cf : Cfg) (_ : cf.route = .front (c.rights r)) (_ : cf.auto = true) (_ : ∀ i, cf.bare i = false) (dflt : Rights) (d : Dev σ)
        (pre post : Hooks) (_ : Quiet pre) (_ : Quiet post) (x : σ) (u : Nat), u % 2 ^ (s.regs r).nBits = v →
        (write cf dflt d pre post (s.regs r) x u).map (·.reg) = some (t.regs r)) ∧
      (read = true → ∀ {σ} (cf : Cfg) (_ : cf.route = .front (c.rights r)) (_ : cf.auto = true) (_ : ∀ i, cf.bare i = false) (d : Dev σ)
        (pre post : Hooks) (_ : Quiet pre) (_ : Quiet post) (x : σ), (d.rd x).2.1 = v →
        (RegAccess.read cf d pre post (s.regs r) x).map (·.reg) = some (t.regs r)) := by
  have hv := view_run r l hrun
  simp only [view, hp] at hv
  obtain ⟨g', ok, be, ⟨b, hb, hbe⟩, hd, hq⟩ := local_transfer (s.regs r) (about r s.log) _ hn hne ht hv
  have hbe1 : be = -1 := by rw [← hbe]; exact hpl b (List.mem_filter.1 hb).1
  rw [hbe1, doPredict_front _ _ _ (by split <;> simp)] at hd
  simp only [Prod.mk.injEq] at hq
  obtain ⟨q1, q2, q3⟩ := hq
  generalize hm : (if read && c.check r && !doCheck (s.regs r) (c.rights r) (getMirrored (s.regs r)) (val c r (l.filter (Targets c r))) then
    [Ev.mismatch r] else []) = mm at q3
  have hmm : mm = [] ∨ mm = [.mismatch r] := by rw [← hm]; split <;> simp
  refine ⟨val c r (l.filter (Targets c r)), val_assembles hn ht, q2, ?_, ?_, ?_, ?_, ?_⟩
  · rw [q3]
    rcases hmm with h | h <;> simp [h, List.filter_append]
  · intro e he
    rw [q3, List.mem_append, List.mem_append] at he
    rcases he with (he | he) | he
    · exact Or.inl he
    · rcases hmm with h | h <;> rw [h] at he <;> simp at he
      exact Or.inr (Or.inl he)
    · exact Or.inr (Or.inr (by simpa using he))
  · rw [q3, List.append_assoc, List.drop_left, ← hm]
    split
    · next h => simp at h; simp [h]
    · next h => simp at h; simp; intro a b; simpa using h a b
  · intro hr σ cf h1 h2 h3 dflt d pre post h4 h5 x u hu
    obtain ⟨o, e1, e2, e3, e4⟩ := write_quiet h1 h3 dflt d h4 h5 (s.regs r) x u
    rw [e1, Option.map_some, e4, h2, if_pos rfl, set_fields_predF, hu, q1]
    subst hr
    simp only [Bool.false_eq_true, if_false, Option.some.injEq, Prod.mk.injEq] at hd
    rw [← hd.1]; rfl
  · intro hr σ cf h1 h2 h3 d pre post h4 h5 x hu
    obtain ⟨o, e1, e2, e3, e4, _, e6⟩ := read_quiet h1 h3 d h4 h5 (s.regs r) x
    rw [show RegAccess.read cf d pre post (s.regs r) x = some o from e1, Option.map_some, e6, h2, if_pos rfl, hu, q1]
    subst hr
    simp only [if_true, Option.some.injEq, Prod.mk.injEq] at hd
    rw [← hd.1]

-- Non-vacuity: two registers of two bytes on a bus of one byte, their beats interleaved, and a transaction for no register.
def two : Conf where
  rg a _ := if a = 0 ∨ a = 1 then some 0 else if a = 2 ∨ a = 3 then some 1 else none
  addrs r := if r = 0 then [0, 1] else if r = 1 then [3, 2] else []
  w := 1
  rights _ := .RW
  check _ := true

def rw16 : Reg := steps (build 16 [⟨0, configure [] 8 .RW false 0 true⟩, ⟨8, configure [] 8 .RW false 0 true⟩]).1 [.reset "HARD"]

theorem rw16_reachable : Reg.Reachable rw16 := by
  refine ⟨16, [⟨0, configure [] 8 .RW false 0 true⟩, ⟨8, configure [] 8 .RW false 0 true⟩], [.reset "HARD"], ?_, by decide, rfl⟩
  intro x hx
  simp at hx
  rcases hx with rfl | rfl
  · exact ⟨[], 8, .RW, false, 0, true, [], rfl⟩
  · exact ⟨[], 8, .RW, false, 0, true, [], rfl⟩

def beats : List Beat := [⟨false, 1, 0x12, -1⟩, ⟨false, 2, 0xab, -1⟩, ⟨true, 7, 1, -1⟩, ⟨false, 0, 0x34, -1⟩, ⟨false, 3, 0xcd, -1⟩]

example : Plain beats ∧ Transfer two 0 false (beats.filter (Targets two 0)) ∧ Transfer two 1 false (beats.filter (Targets two 1)) ∧
    (run two { regs := fun _ => rw16 } beats).map (fun t => (getMirrored (t.regs 0), getMirrored (t.regs 1), t.log)) =
      some (0x1234, 0xabcd, [.predicted 0 false 0x1234, .predicted 1 false 0xabcd]) :=
  ⟨by simp [Plain, beats], ⟨by decide, by decide, by decide⟩, ⟨by decide, by decide, by decide⟩, by decide +kernel⟩

/-! ## C135: any number of transfers, and what the monitor sees of a front-door write -/

theorem local_transfers {c : Conf} {r : Nat} (hn : (c.addrs r).Nodup) (hne : c.addrs r ≠ []) (ls : List (Bool × List Beat))
    (ht : ∀ x ∈ ls, Transfer c r x.1 x.2) (g : Reg) (ev : List Ev) (rest : List Beat) {q}
    (h : ((ls.map (·.2)).flatten ++ rest).foldlM (local2 c r) (g, none, ev) = some q) :
    ∃ g' ev', rest.foldlM (local2 c r) (g', none, ev') = some q ∧
      ev'.filter (fun e => e matches .predicted ..) =
        ev.filter (fun e => e matches .predicted ..) ++ ls.map (fun x => .predicted r x.1 (val c r x.2)) := by
  induction ls generalizing g ev with
  | nil => exact ⟨g, ev, by simpa using h, by simp⟩
  | cons x ls ih =>
    rw [List.map_cons, List.flatten_cons, List.append_assoc, List.foldlM_append] at h
    cases hx : x.2.foldlM (local2 c r) (g, none, ev) with
    | none => rw [hx] at h; simp at h
    | some q1 =>
      rw [hx] at h
      obtain ⟨g1, ok, be, _, _, e⟩ := local_transfer g ev x.2 hn hne (ht x List.mem_cons_self) hx
      subst e
      obtain ⟨g', ev', h1, h2⟩ := ih (fun y hy => ht y (List.mem_cons_of_mem _ hy)) _ _ h
      refine ⟨g', ev', h1, ?_⟩
      rw [h2]
      simp only [List.filter_append, List.map_cons]
      split <;> simp

/-- C135. If the transactions for register `r` are whole transfers, one after the other, the predictions made for it are exactly the values
transferred, in order, with the kind of each. -/
theorem C135_transfers_are_predicted (c : Conf) (s t : St) (l : List Beat) (hrun : run c s l = some t) (r : Nat)
    (hn : (c.addrs r).Nodup) (hne : c.addrs r ≠ []) (hp : s.pend.lookup r = none) (ls : List (Bool × List Beat))
    (ht : ∀ x ∈ ls, Transfer c r x.1 x.2) (hl : l.filter (Targets c r) = (ls.map (·.2)).flatten) :
    ∃ v : Bool × List Beat → Nat, (∀ x ∈ ls, Assembles c r x.2 (v x)) ∧ t.pend.lookup r = none ∧
      (about r t.log).filter (fun e => e matches .predicted ..) =
        (about r s.log).filter (fun e => e matches .predicted ..) ++ ls.map (fun x => .predicted r x.1 (v x)) := by
  have hv := view_run r l hrun
  simp only [view, hp] at hv
  rw [hl, ← List.append_nil ((ls.map (·.2)).flatten)] at hv
  obtain ⟨g', ev', h1, h2⟩ := local_transfers hn hne ls ht _ _ [] hv
  simp only [List.foldlM_nil, Option.pure_def, Option.some.injEq, Prod.mk.injEq] at h1
  refine ⟨fun x => val c r x.2, fun x hx => val_assembles hn (ht x hx), h1.2.1.symm, ?_⟩
  rw [← h1.2.2]; exact h2

/-- The beat a monitor without byte enables reports for a bus operation. -/
def seen (op : RegMap.BusOp) : Beat := ⟨op.kind = .read, op.addr, op.data, -1⟩

/-- C135. The operations a front-door write of `v` puts on the bus, in whatever order the transaction order policy gives them, are a whole transfer, and
the value predicted from them is `v`. -/
theorem C135_front_door_write_is_seen (c : Conf) (r : Nat) (o : RegMap.Order) (ho : RegMap.Reorders o) (nb : Int) (be v : Nat)
    (hn : (c.addrs r).Nodup) (hv : v < 2 ^ (8 * c.w * (c.addrs r).length)) :
    Transfer c r false ((o (RegMap.mkAccesses .write c.w v nb be 0 (c.addrs r))).map seen) ∧
    ∀ u, Assembles c r ((o (RegMap.mkAccesses .write c.w v nb be 0 (c.addrs r))).map seen) u ↔ u = v := by
  have hperm := ho (RegMap.mkAccesses .write c.w v nb be 0 (c.addrs r))
  have hops : ∀ op ∈ o (RegMap.mkAccesses .write c.w v nb be 0 (c.addrs r)), ∃ i, ∃ h : i < (c.addrs r).length, op.kind = .write ∧
      op.addr = (c.addrs r)[i] ∧ op.data = v / 2 ^ (8 * c.w * i) % 2 ^ (8 * c.w) := by
    intro op hop
    obtain ⟨i, hi, e⟩ := List.mem_iff_getElem.1 (hperm.mem_iff.1 hop)
    have hi' : i < (c.addrs r).length := by rw [(RegMap.C17_access_count .write c.w v nb be (c.addrs r)).1] at hi; exact hi
    obtain ⟨op', e1, e2, e3, e4, _⟩ := RegMap.C17_write_accesses c.w v nb be (c.addrs r) i hi'
    rw [List.getElem?_eq_getElem hi, Option.some.injEq] at e1
    rw [← e, e1]
    exact ⟨i, hi', e2, e3, e4⟩
  have haddr : (((o (RegMap.mkAccesses .write c.w v nb be 0 (c.addrs r))).map seen).map (·.addr)).Perm (c.addrs r) := by
    rw [List.map_map]
    have := hperm.map (fun op => op.addr)
    rw [(RegMap.C17_access_count .write c.w v nb be (c.addrs r)).2] at this
    exact this
  have hT : Transfer c r false ((o (RegMap.mkAccesses .write c.w v nb be 0 (c.addrs r))).map seen) := by
    refine ⟨haddr, ?_, ?_⟩
    · intro b hb
      obtain ⟨op, hop, rfl⟩ := List.mem_map.1 hb
      obtain ⟨i, _, hk, _⟩ := hops op hop
      simp [seen, hk]
    · intro b hb
      obtain ⟨op, hop, rfl⟩ := List.mem_map.1 hb
      obtain ⟨i, _, _, _, hd⟩ := hops op hop
      show op.data < _
      rw [hd]; exact Nat.mod_lt _ (Nat.two_pow_pos _)
  have hA : Assembles c r ((o (RegMap.mkAccesses .write c.w v nb be 0 (c.addrs r))).map seen) v := by
    refine ⟨hv, fun i a ha b hb hba => ?_⟩
    obtain ⟨op, hop, rfl⟩ := List.mem_map.1 hb
    obtain ⟨j, hj, _, hja, hd⟩ := hops op hop
    obtain ⟨hi, hia⟩ := List.getElem?_eq_some_iff.1 ha
    have : i = j := by
      have h1 : (c.addrs r)[i] = (c.addrs r)[j] := by rw [hia, ← hba]; exact hja
      rw [← hn.idxOf_getElem i hi, ← hn.idxOf_getElem j hj, h1]
    rw [this]; exact hd.symm
  exact ⟨hT, fun u => ⟨fun hu => assembles_unique (transfer_covers hT) hu hA, fun h => h ▸ hA⟩⟩

example : (RegMap.mkAccesses .write 1 0x1234 16 1 0 (two.addrs 0)).map seen = [⟨false, 0, 0x34, -1⟩, ⟨false, 1, 0x12, -1⟩] := by decide

/-! ## C136: incomplete transfers are reported at the end -/

theorem mem_of_lookup {l : List (Nat × Pend)} {r : Nat} : r ∈ l.map (·.1) ↔ l.lookup r ≠ none := by
  induction l with
  | nil => simp
  | cons q l ih =>
    obtain ⟨a, b⟩ := q
    rw [List.map_cons, List.mem_cons, List.lookup_cons, ih]
    by_cases h : r = a
    · simp [h]
    · have h' : (r == a) = false := by simpa using h
      rw [h']; simp [h]

theorem nodup_step {c : Conf} {s t : St} {b : Beat} (h : step c s b = some t) (hs : (s.pend.map (·.1)).Nodup) : (t.pend.map (·.1)).Nodup := by
  cases hr : c.rg b.addr b.read with
  | none => rw [step_none hr] at h; cases h; exact hs
  | some r =>
    have := step_local c s b r hr
    cases hl : local1 c r (s.regs r) (s.pend.lookup r) b with
    | none => rw [hl] at this; rw [this] at h; simp at h
    | some q =>
      obtain ⟨g, po, ev⟩ := q
      rw [hl] at this
      obtain ⟨t', e, _, h2, _⟩ := this
      rw [e] at h; cases h
      rw [h2]
      cases po with
      | none =>
        exact List.Nodup.sublist (List.Sublist.map _ List.filter_sublist) hs
      | some p =>
        unfold put
        simp only
        cases hlk : s.pend.lookup r with
        | none =>
          simp only [Option.isSome_none, Bool.false_eq_true, if_false, List.map_append]
          rw [List.nodup_append]
          refine ⟨hs, by simp, ?_⟩
          intro a ha b hb e
          simp at hb
          subst hb; subst e
          exact (mem_of_lookup.1 ha) hlk
        | some x =>
          simp only [Option.isSome_some, if_true, List.map_map]
          have : ((fun q : Nat × Pend => q.1) ∘ fun q => if q.1 = r then (r, p) else q) = fun q => q.1 := by
            funext q; simp only [Function.comp]; split
            · next e => exact e.symm
            · rfl
          rw [this]; exact hs

/-- C136. At the end of the simulation, a register is reported, once, exactly if its last transfer is incomplete: its transactions are some whole transfers followed by
`part`, which has some of its addresses, once each, but not all; it is reported exactly if `part` is not empty. -/
theorem C136_incomplete_transfers_reported (c : Conf) (regs : Nat → Reg) (t : St) (l : List Beat) (hrun : run c { regs := regs } l = some t) (r : Nat)
    (hn : (c.addrs r).Nodup) (hne : c.addrs r ≠ []) (ls : List (Bool × List Beat)) (ht : ∀ x ∈ ls, Transfer c r x.1 x.2) (part : List Beat) (read : Bool)
    (hk : ∀ b ∈ part, b.read = read) (hmem : ∀ b ∈ part, b.addr ∈ c.addrs r) (hnd : (part.map (·.addr)).Nodup) (hlen : part.length < (c.addrs r).length)
    (hl : l.filter (Targets c r) = (ls.map (·.2)).flatten ++ part) :
    (checkPhase t).Nodup ∧ (r ∈ checkPhase t ↔ part ≠ []) := by
  constructor
  · have key : ∀ (l : List Beat) (s : St), run c s l = some t → (s.pend.map (·.1)).Nodup → (t.pend.map (·.1)).Nodup := by
      intro l
      induction l with
      | nil => intro s h hs; simp only [run, Option.some.injEq] at h; subst h; exact hs
      | cons b l ih =>
        intro s h hs
        rw [run] at h
        cases hs' : step c s b with
        | none => rw [hs'] at h; simp at h
        | some s' => rw [hs'] at h; exact ih s' h (nodup_step hs' hs)
    exact key l _ hrun (by simp)
  · have hv := view_run r l hrun
    simp only [view, List.lookup_nil] at hv
    rw [hl] at hv
    obtain ⟨g', ev', h1, _⟩ := local_transfers hn hne ls ht _ _ part hv
    rw [checkPhase, mem_of_lookup]
    by_cases hp : part = []
    · subst hp
      simp only [List.foldlM_nil, Option.pure_def, Option.some.injEq, Prod.mk.injEq] at h1
      simp [← h1.2.1]
    · rw [local_part g' ev' part hp hmem hnd hk hlen] at h1
      simp only [Option.some.injEq, Prod.mk.injEq] at h1
      simp [← h1.2.1, hp]

example : (run two { regs := fun _ => rw16 } (beats ++ [⟨false, 2, 1, -1⟩])).map checkPhase = some [1] ∧
    (run two { regs := fun _ => rw16 } beats).map checkPhase = some [] := by decide +kernel

/-! ## C137: where explicit prediction goes wrong -/

/-- C137 fails: a read of one half and a write of the other are taken for one transfer, of the kind of the first; here the written half and the half
read are predicted as a read. -/
theorem C137_kinds_are_mixed_fails :
    ∃ t, run two { regs := fun _ => rw16 } [⟨true, 0, 0, -1⟩, ⟨false, 1, 0x12, -1⟩] = some t ∧
      t.log = [.mismatch 0, .predicted 0 true 0x1200] :=
  ⟨(run two { regs := fun _ => rw16 } [⟨true, 0, 0, -1⟩, ⟨false, 1, 0x12, -1⟩]).get (by decide +kernel), by simp, by decide +kernel⟩

/-- C137 fails in FIFO maps: a register of two or more words, all at the same address, is never predicted, whatever is observed; every second
transaction is reported as a collision. -/
theorem C137_fifo_map_fails (c : Conf) (r a n : Nat) (ha : c.addrs r = List.replicate (n + 2) a) (regs : Nat → Reg) (l : List Beat) (t : St)
    (h : run c { regs := regs } l = some t) : t.regs r = regs r ∧ ∀ e ∈ about r t.log, ∀ k v, e ≠ .predicted r k v := by
  have hv := view_run r l h
  simp only [view, List.lookup_nil] at hv
  have hlen : (c.addrs r).length = n + 2 := by rw [ha]; simp
  have key : ∀ (l : List Beat) (g : Reg) (po : Option Pend) (ev : List Ev) (q : Reg × Option Pend × List Ev),
      (∀ p, po = some p → p.addrs = [] ∨ p.addrs = [a]) → (∀ e ∈ ev, ∀ k v, e ≠ .predicted r k v) →
      l.foldlM (local2 c r) (g, po, ev) = some q → q.1 = g ∧ ∀ e ∈ q.2.2, ∀ k v, e ≠ .predicted r k v := by
    intro l
    induction l with
    | nil =>
      intro g po ev q _ hev h
      simp only [List.foldlM_nil, Option.pure_def, Option.some.injEq] at h
      subst h; exact ⟨rfl, hev⟩
    | cons b l ih =>
      intro g po ev q hpo hev h
      rw [List.foldlM_cons] at h
      have hp : (po.getD ⟨b.read, 0, []⟩).addrs = [] ∨ (po.getD ⟨b.read, 0, []⟩).addrs = [a] := by
        cases po with
        | none => exact Or.inl rfl
        | some p => exact hpo p rfl
      have : ∃ po' ev', local2 c r (g, po, ev) b = some (g, po', ev') ∧ (∀ p, po' = some p → p.addrs = [] ∨ p.addrs = [a]) ∧
          ∀ e ∈ ev', ∀ k v, e ≠ .predicted r k v := by
        unfold local2 local1
        simp only
        generalize po.getD ⟨b.read, 0, []⟩ = p at *
        by_cases hb : b.addr = a
        · have hi : (c.addrs r).idxOf? b.addr = some 0 := by rw [ha, hb]; simp [List.replicate_succ, List.idxOf?_cons]
          rw [hi]
          simp only [hlen]
          rcases hp with hp | hp
          · have : (p.addrs.contains b.addr) = false := by simp [hp]
            simp only [this, Bool.false_eq_true, if_false]
            simp only [hp, List.nil_append, List.length_singleton]
            rw [if_neg (by omega)]
            refine ⟨_, _, rfl, ?_, ?_⟩
            · intro p' h'; cases h'; right; simp [hb]
            · simpa using hev
          · have : (p.addrs.contains b.addr) = true := by simp [hp, hb]
            simp only [this, if_true]
            simp only [hp, List.length_singleton]
            rw [if_neg (by omega)]
            refine ⟨_, _, rfl, by simp, ?_⟩
            intro e he k v
            rcases List.mem_append.1 he with he | he
            · exact hev e he k v
            · simp at he; subst he; simp
        · have hi : (c.addrs r).idxOf? b.addr = none := by
            rw [List.idxOf?_eq_none_iff, ha]; simp [hb]
          rw [hi]
          have : (p.addrs.contains b.addr) = false := by rcases hp with hp | hp <;> simp [hp, hb]
          simp only [this, Bool.false_eq_true, if_false, List.nil_append]
          refine ⟨_, _, rfl, ?_, ?_⟩
          · intro p' h'; cases h'; exact hp
          · intro e he k v
            rcases List.mem_append.1 he with he | he
            · exact hev e he k v
            · simp at he; subst he; simp
      obtain ⟨po', ev', e, h1, h2⟩ := this
      rw [e] at h
      exact ih g po' ev' q h1 h2 h
  have := key _ _ _ _ _ (by simp) (by simp [about]) hv
  exact this

example : (run { two with addrs := fun _ => [0, 0] } { regs := fun _ => rw16 } [⟨false, 0, 1, -1⟩, ⟨false, 0, 2, -1⟩]).map (·.log) = some [.collision 0] := by
  decide +kernel

/-- C137 fails with byte enables: they are those of the last bus word, but are taken for those of the whole register; with a
byte-wide bus, all lanes enabled, the prediction of a two-byte register raises. -/
theorem C137_byte_enables_fails : run two { regs := fun _ => rw16 } [⟨false, 0, 0x34, 1⟩, ⟨false, 1, 0x12, 1⟩] = none := by decide +kernel

/-- C137 fails: after a collision the second transaction at the address is dropped together with the first, so a transfer started anew is not predicted. -/
theorem C137_collision_fails :
    ∃ t, run two { regs := fun _ => rw16 } [⟨false, 0, 1, -1⟩, ⟨false, 0, 0x34, -1⟩, ⟨false, 1, 0x12, -1⟩] = some t ∧
      t.log = [.collision 0] ∧ checkPhase t = [0] :=
  ⟨(run two { regs := fun _ => rw16 } [⟨false, 0, 1, -1⟩, ⟨false, 0, 0x34, -1⟩, ⟨false, 1, 0x12, -1⟩]).get (by decide +kernel), by simp,
    by decide +kernel, by decide +kernel⟩

/-- C137. What does hold after a collision: it is reported, and the entry is dropped, so that the next whole transfer is
predicted (C134 applies from there on). -/
theorem C137_collision_partial (c : Conf) (s : St) (b : Beat) (r : Nat) (p : Pend) (hr : c.rg b.addr b.read = some r) (hp : s.pend.lookup r = some p)
    (hin : b.addr ∈ p.addrs) (hl : p.addrs.length < (c.addrs r).length) :
    ∃ t, step c s b = some t ∧ t.pend.lookup r = none ∧ t.regs = s.regs ∧ (∃ ev, t.log = s.log ++ .collision r :: ev) := by
  have hc : p.addrs.contains b.addr = true := by simpa using hin
  unfold step
  simp only [hr, hp, Option.getD_some, hc, if_true]
  cases hi : (c.addrs r).idxOf? b.addr with
  | none => exact ⟨_, rfl, lookup_del_self _ _, rfl, [.internal r], by simp⟩
  | some i =>
    simp only
    rw [if_neg (by omega)]
    exact ⟨_, rfl, lookup_del_self _ _, rfl, [], rfl⟩

end Verif.RegPredictor
