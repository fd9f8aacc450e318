import Verif.Lemmas.RegChip
/-!
# C330: the registers of a block in a chip that follows the documented access policies

Any number of registers, fields with any of the documented policies, words of any width, addresses in any order, any transaction order policy and
any history of sets, writes, reads, updates and mirrors: the mirrors are what the chip has, reads return what the mirrors say, and the
check never reports a mismatch.
-/
namespace Verif.RegChip
open Verif.Reg Verif.RegField Verif.RegAccess Verif.RegMap Verif.RegSystem Verif.RegConc

def lay (x : RF) : Nat × Nat × Acc := (x.lsb, x.f.size, x.f.access)
def layD (y : DF) : Nat × Nat × Acc := (y.lsb, y.size, y.acc)

theorem lay_agrees {r : Reg} {fs : List DF} (h : Agrees r fs) : r.fields.map lay = fs.map layD := by
  unfold Agrees at h
  generalize r.fields = l at h
  induction h with
  | nil => rfl
  | cons h1 _ ih => rw [List.map_cons, List.map_cons, ih]; simp only [lay, layD, h1.1, h1.2.1, h1.2.2.1]

theorem lay_mem {l l' : List RF} (h : l'.map lay = l.map lay) {x : RF} (hx : x ∈ l') : ∃ y ∈ l, y.lsb = x.lsb ∧ y.f.size = x.f.size ∧ y.f.access = x.f.access := by
  have : lay x ∈ l.map lay := h ▸ List.mem_map.2 ⟨x, hx, rfl⟩
  obtain ⟨y, hy, e⟩ := List.mem_map.1 this
  simp only [lay, Prod.mk.injEq] at e
  exact ⟨y, hy, e⟩

theorem wired_lay {w : Nat} {pol : Nat → Nat → Option Acc} {addrs : List Nat} {r r' : Reg} (h : r'.fields.map lay = r.fields.map lay)
    (hw : Wired w pol addrs r) : Wired w pol addrs r' := by
  refine ⟨fun x hx k hk => ?_, fun k hk hno => ?_, fun x hx => ?_⟩
  · obtain ⟨y, hy, h1, h2, h3⟩ := lay_mem h hx
    rw [← h3]
    exact hw.fields y hy k ⟨h1 ▸ hk.1, by rw [h1, h2]; exact hk.2⟩
  · refine hw.rest k hk fun x hx hc => ?_
    obtain ⟨y, hy, h1, h2, _⟩ := lay_mem h.symm hx
    exact hno y hy ⟨h1 ▸ hc.1, by rw [h1, h2]; exact hc.2⟩
  · obtain ⟨y, hy, h1, h2, h3⟩ := lay_mem h hx
    rw [← h1, ← h2]; exact hw.fits y hy

theorem readable_lay {r r' : Reg} (h : r'.fields.map lay = r.fields.map lay) (hr : AllReadable r) : AllReadable r' := by
  intro x hx
  obtain ⟨y, hy, _, _, h3⟩ := lay_mem h hx
  rw [← h3]; exact hr y hy

/-- What is kept for one register. -/
structure Sound (w : Nat) (pol : Nat → Nat → Option Acc) (addrs : List Nat) (s : Nat → Cell) (r : Reg) : Prop where
  good : Good r
  wired : Wired w pol addrs r
  mirrors : Mirrors w addrs s r

/-- The fields as the mirror has them. -/
def mine (r : Reg) : List DF := r.fields.map fun x => ⟨x.lsb, x.f.size, x.f.access, x.f.mirrored, x.f.written⟩

/-- The fields as the chip has them. -/
def theirs (w : Nat) (addrs : List Nat) (s : Nat → Cell) (r : Reg) (written : Bool → Bool) : List DF :=
  r.fields.map fun x => ⟨x.lsb, x.f.size, x.f.access, ofBits x.f.size fun j => bitOf w addrs s (x.lsb + j), written x.f.written⟩

theorem agrees_mine (r : Reg) : Agrees r (mine r) := All2.map_right _ fun _ _ => ⟨rfl, rfl, rfl, rfl, rfl⟩

theorem All2.both {α β γ : Type} {R : β → γ → Prop} {f : α → β} {g : α → γ} (l : List α) (h : ∀ a ∈ l, R (f a) (g a)) : All2 R (l.map f) (l.map g) := by
  induction l with
  | nil => exact .nil
  | cons a l ih => exact .cons (h a (by simp)) (ih fun b hb => h b (by simp [hb]))

theorem sound_theirs {w : Nat} {pol : Nat → Nat → Option Acc} {addrs : List Nat} {s : Nat → Cell} {r r' : Reg} {g : Bool → Bool}
    (hG : Good r') (hw : Wired w pol addrs r) (h : Agrees r' (theirs w addrs s r g)) (hg : ∀ x ∈ r.fields, ∀ a ∈ addrs, (s a).written = g x.f.written) :
    Sound w pol addrs s r' ∧ r'.fields.map lay = r.fields.map lay := by
  have hl : r'.fields.map lay = r.fields.map lay := by
    rw [lay_agrees h, theirs, List.map_map]; rfl
  refine ⟨⟨hG, wired_lay hl hw, fun x hx => ?_⟩, hl⟩
  obtain ⟨y, hy, h1, h2, h3, h4, h5⟩ := h.mem_left hx
  obtain ⟨z, hz, rfl⟩ := List.mem_map.1 hy
  simp only at h1 h2 h3 h4 h5
  refine ⟨fun j hj => ?_, fun a ha => ?_⟩
  · rw [h4, ofBits_aux, ← h2, h1]; simp [hj]
  · rw [h5, hg z hz a ha]

/-- The prediction of a write is what the chip does. -/
theorem sound_wrote {w : Nat} {pol : Nat → Nat → Option Acc} {addrs : List Nat} {r : Reg} {s s' : Nat → Cell} (h : Sound w pol addrs s r) {v : Nat}
    {c : RegAccess.Cfg} (hb : ∀ k, c.bare k = false) (h2 : ∀ a ∈ addrs, (s' a).written = true)
    (h3 : ∀ k, k < 8 * w * addrs.length → bitOf w addrs s' k = match pol (wordOf w addrs k) (k % (8 * w)) with
        | some acc => (doc acc).1.bit (s (wordOf w addrs k)).written (bitOf w addrs s k) (v.testBit k)
        | none => bitOf w addrs s k) :
    Sound w pol addrs s' { r with fields := r.fields.map (predF v .write .RW r.busy) } ∧
      (r.fields.map (predF v .write .RW r.busy)).map lay = r.fields.map lay := by
  refine sound_theirs (r' := { r with fields := r.fields.map (predF v .write .RW r.busy) }) (g := fun _ => true)
    (good_predF hb h.good v .write (by decide) .RW) h.wired ?_ (fun x hx a ha => h2 a ha)
  refine agrees_write h.good (agrees_mine r) (v := v) ?_ r.busy
  refine All2.both _ fun x hx => ⟨rfl, rfl, rfl, rfl, ofBits_lt _ _, fun i hi => ?_⟩
  have hc : Covers x (x.lsb + i) := ⟨by omega, by simp only at hi; omega⟩
  have hlt : x.lsb + i < 8 * w * addrs.length := Nat.lt_of_lt_of_le (by simp only at hi; omega) (h.wired.fits x hx)
  have hm : wordOf w addrs (x.lsb + i) ∈ addrs := by rw [wordOf_get hlt]; exact List.getElem_mem _
  simp only at hi
  simp only [ofBits_aux, hi, decide_true, Bool.true_and, h3 _ hlt, h.wired.fields x hx _ hc, (h.mirrors x hx).2 _ hm, (h.mirrors x hx).1 i hi, Nat.testBit_shiftRight]

/-- The prediction of a read is what the chip does, and what it returns is what the mirror says. -/
theorem sound_readout {w : Nat} {pol : Nat → Nat → Option Acc} {addrs : List Nat} {r : Reg} {s s' : Nat → Cell} (h : Sound w pol addrs s r) {v : Nat}
    {c : RegAccess.Cfg} (hb : ∀ k, c.bare k = false) (h2 : ∀ a ∈ addrs, (s' a).written = (s a).written)
    (h3 : ∀ k, k < 8 * w * addrs.length → bitOf w addrs s' k = match (pol (wordOf w addrs k) (k % (8 * w))).map fun acc => (doc acc).2 with
        | some .clears => false
        | some .sets => true
        | _ => bitOf w addrs s k)
    (h5 : ∀ k, v.testBit k = (decide (k < 8 * w * addrs.length) && (readable (pol (wordOf w addrs k) (k % (8 * w))) && bitOf w addrs s k))) :
    Sound w pol addrs s' { r with fields := r.fields.map (predF v .read .RW r.busy) } ∧
      (r.fields.map (predF v .read .RW r.busy)).map lay = r.fields.map lay ∧ (AllReadable r → v = getMirrored r) := by
  have hbit : ∀ x ∈ r.fields, Readable x.f.access → ∀ j, j < x.f.size → v.testBit (x.lsb + j) = x.f.mirrored.testBit j := by
    intro x hx hR j hj
    have hc : Covers x (x.lsb + j) := ⟨by omega, by omega⟩
    have hlt : x.lsb + j < 8 * w * addrs.length := Nat.lt_of_lt_of_le (by omega) (h.wired.fits x hx)
    have hR' : (doc x.f.access).2 ≠ .error ∧ x.f.access ≠ .NOACCESS := hR
    simp [h5, hlt, h.wired.fields x hx _ hc, readable, hR', (h.mirrors x hx).1 j hj]
  have key : Sound w pol addrs s' { r with fields := r.fields.map (predF v .read .RW r.busy) } ∧
      (r.fields.map (predF v .read .RW r.busy)).map lay = r.fields.map lay := by
    refine sound_theirs (r' := { r with fields := r.fields.map (predF v .read .RW r.busy) }) (g := id)
      (good_predF hb h.good v .read (by decide) .RW) h.wired ?_ (fun x hx a ha => by rw [h2 a ha]; exact (h.mirrors x hx).2 a ha)
    refine agrees_read h.good (agrees_mine r) (v := v) ?_ ?_ r.busy
    · refine All2.both _ fun x hx => ?_
      simp only [DF.Read, DF.mk.injEq, true_and, id, and_true]
      apply Nat.eq_of_testBit_eq
      intro j
      rw [ofBits_aux]
      by_cases hj : j < x.f.size
      · have hc : Covers x (x.lsb + j) := ⟨by omega, by omega⟩
        have hlt : x.lsb + j < 8 * w * addrs.length := Nat.lt_of_lt_of_le (by omega) (h.wired.fits x hx)
        simp only [hj, decide_true, Bool.true_and, h3 _ hlt, h.wired.fields x hx _ hc, Option.map_some]
        cases hq : (doc x.f.access).2 with
        | clears => simp
        | sets => simp [Nat.testBit_two_pow_sub_one, hj]
        | noEffect => simp [(h.mirrors x hx).1 j hj]
        | error => simp [(h.mirrors x hx).1 j hj]
      · simp only [hj, decide_false, Bool.false_and]
        symm
        apply Nat.testBit_lt_two_pow
        have hle : 2 ^ x.f.size ≤ 2 ^ j := Nat.pow_le_pow_right (by omega) (by omega)
        have hm := (h.good.fits x hx).mirrored
        have := Nat.two_pow_pos x.f.size
        cases hq : (doc x.f.access).2 with
        | clears => exact Nat.two_pow_pos _
        | sets => show 2 ^ x.f.size - 1 < _; omega
        | noEffect => show x.f.mirrored < _; omega
        | error => show x.f.mirrored < _; omega
    · intro y hy hR i hi
      obtain ⟨x, hx, rfl⟩ := List.mem_map.1 hy
      have := hbit x hx hR (i - x.lsb) (by have := hi.1; have := hi.2; simp only at *; omega)
      simp only
      rw [← this]; congr 1; have := hi.1; simp only at this; omega
  refine ⟨key.1, key.2, fun hR => ?_⟩
  apply Nat.eq_of_testBit_eq
  intro i
  rw [show (getMirrored r).testBit i = _ from assemble_testBit _ h.good.disj _ (fun x hx => (h.good.fits x hx).mirrored) i]
  by_cases hc : ∃ x ∈ r.fields, Covers x i
  · obtain ⟨x, hx, hc⟩ := hc
    rw [assembled_mem h.good.disj hx hc, ← hbit x hx (hR x hx) _ (by have := hc.1; have := hc.2; omega)]
    congr 1; have := hc.1; omega
  · have hn : ∀ x ∈ r.fields, ¬ Covers x i := fun x hx h => hc ⟨x, hx, h⟩
    have hf : r.fields.find? (fun x => decide (Covers x i)) = none := by
      rw [List.find?_eq_none]; intro x hx; simpa using hn x hx
    simp only [assembled, hf, h5]
    by_cases hlt : i < 8 * w * addrs.length
    · simp [h.wired.rest i hlt hn, readable]
    · simp [hlt]

section
variable {w : Nat} (hw : 1 ≤ w) {pol : Nat → Nat → Option Acc} {order : Order} (ho : Reorders order) {addrs : List Nat} (hne : addrs ≠ []) (hd : addrs.Nodup)
include hw ho hne hd

theorem dev_write (nb : Nat) {r : Reg} {s : Nat → Cell} (h : Sound w pol addrs s r) (v : Nat) (hb : ∀ k, (RegAccess.Cfg.bare c) k = false) (busy : r.busy = b) :
    ∃ s', (regDev (chip w pol) order w nb addrs).wr s v = (s', true) ∧ (∀ a, a ∉ addrs → s' a = s a) ∧
      Sound w pol addrs s' { r with fields := r.fields.map (predF v .write .RW b) } ∧
      (r.fields.map (predF v .write .RW b)).map lay = r.fields.map lay := by
  obtain ⟨s', h1, h2, h3, h4⟩ := chip_write w hw pol ho (nb : Int) (2 ^ w - 1) hne hd s v
  subst busy
  exact ⟨s', h1, h4, sound_wrote h hb h2 h3⟩

theorem dev_read (nb : Nat) {r : Reg} {s : Nat → Cell} (h : Sound w pol addrs s r) (hb : ∀ k, (RegAccess.Cfg.bare c) k = false) :
    ∃ s' v, (regDev (chip w pol) order w nb addrs).rd s = (s', v, true) ∧ (∀ a, a ∉ addrs → s' a = s a) ∧
      Sound w pol addrs s' { r with fields := r.fields.map (predF v .read .RW r.busy) } ∧
      (r.fields.map (predF v .read .RW r.busy)).map lay = r.fields.map lay ∧ (AllReadable r → v = getMirrored r) := by
  obtain ⟨s', v, h1, h2, h3, h4, h5⟩ := chip_read w hw pol ho (nb : Int) (2 ^ w - 1) hne hd s
  exact ⟨s', v, by simp only [regDev, h1, List.headD_cons], h4, sound_readout h hb h2 h3 h5⟩

/-- One operation on a register. -/
theorem access_sound {p : Port} (hp : Auto p) {r : Reg} {s : Nat → Cell} (h : Sound w pol addrs s r) (op : RegAccess.Op) :
    ∃ r' s' o, access p (regDev (chip w pol) order w r.nBits addrs) r s op = some (r', s', o) ∧ Sound w pol addrs s' r' ∧
      r'.fields.map lay = r.fields.map lay ∧ (∀ a, a ∉ addrs → s' a = s a) ∧ AllOk o ∧
      (AllReadable r → (∀ st, o ≠ .mirrored st true) ∧ (op = .read → ∃ e, o = .got (getMirrored r) true e)) := by
  have hset : ∀ v : Int, Sound w pol addrs s (Reg.set r v) ∧ (Reg.set r v).fields.map lay = r.fields.map lay := by
    intro v
    have hl : (Reg.set r v).fields.map lay = r.fields.map lay := by simp only [Reg.set, List.map_map]; rfl
    refine ⟨⟨good_set h.good v, wired_lay hl h.wired, fun x hx => ?_⟩, hl⟩
    obtain ⟨y, hy, rfl⟩ := List.mem_map.1 hx
    exact h.mirrors y hy
  have hwrite : ∀ v : Nat, ∃ o, write p.cfg p.dflt (regDev (chip w pol) order w r.nBits addrs) p.preW p.postW r s v = some o ∧
      Sound w pol addrs o.dev o.reg ∧ o.reg.fields.map lay = r.fields.map lay ∧ (∀ a, a ∉ addrs → o.dev a = s a) ∧ o.ok = true := by
    intro v
    obtain ⟨o, h1, h2, h3, h4⟩ := write_quiet hp.rw hp.bare p.dflt (regDev (chip w pol) order w r.nBits addrs) hp.preW hp.postW r s v
    obtain ⟨s', e1, e2, e3, e4⟩ := dev_write hw ho hne hd r.nBits (hset v).1 (v % 2 ^ r.nBits) hp.bare (b := r.busy) rfl
    rw [e1] at h2 h3
    refine ⟨o, h1, ?_, ?_, by rw [h2]; exact e2, h3⟩
    · rw [h2, h4, hp.auto, if_pos rfl]; exact e3
    · rw [h4, hp.auto, if_pos rfl]; exact e4.trans (hset v).2
  have hread : ∃ o, doRead p.cfg (regDev (chip w pol) order w r.nBits addrs) p.preR p.postR r s = some o ∧
      Sound w pol addrs o.dev o.reg ∧ o.reg.fields.map lay = r.fields.map lay ∧ (∀ a, a ∉ addrs → o.dev a = s a) ∧ o.ok = true ∧
      (AllReadable r → o.value = getMirrored r) := by
    obtain ⟨o, h1, h2, h3, h4, _, h6⟩ := read_quiet hp.rw hp.bare (regDev (chip w pol) order w r.nBits addrs) hp.preR hp.postR r s
    obtain ⟨s', v, e1, e2, e3, e4, e5⟩ := dev_read hw ho hne hd r.nBits h hp.bare
    rw [e1] at h2 h3 h4 h6
    refine ⟨o, h1, ?_, ?_, by rw [h2]; exact e2, h3, fun hR => by rw [h4]; exact e5 hR⟩
    · rw [h2, h6, hp.auto, if_pos rfl]; exact e3
    · rw [h6, hp.auto, if_pos rfl]; exact e4
  cases op with
  | set v => exact ⟨_, _, _, rfl, (hset v).1, (hset v).2, fun _ _ => rfl, trivial, fun _ => ⟨nofun, nofun⟩⟩
  | setField k v =>
    have hl : (Reg.step r (.fieldOp k (.set v))).fields.map lay = r.fields.map lay := by
      apply List.ext_getElem?
      intro j
      simp only [Reg.step, List.getElem?_map, List.getElem?_modify]
      cases r.fields[j]? with
      | none => rfl
      | some x =>
        simp only [Option.map_some]
        split <;> rfl
    refine ⟨_, _, _, rfl, ⟨(good_step h.good _).1, wired_lay hl h.wired, fun y hy => ?_⟩, hl, fun _ _ => rfl, trivial, fun _ => ⟨nofun, nofun⟩⟩
    simp only [Reg.step] at hy
    obtain ⟨j, hj⟩ := List.mem_iff_getElem?.1 hy
    rw [List.getElem?_modify] at hj
    obtain ⟨x, hx, rfl⟩ := Option.map_eq_some_iff.1 hj
    have := h.mirrors x (List.mem_of_getElem? hx)
    split
    · exact this
    · exact this
  | write v =>
    obtain ⟨o, h1, h2, h3, h4, h5⟩ := hwrite v
    exact ⟨o.reg, o.dev, .wrote o.ok, by simp only [access, h1]; rfl, h2, h3, h4, h5, fun _ => ⟨nofun, nofun⟩⟩
  | update =>
    cases hn : Reg.needsUpdate r with
    | false => exact ⟨r, s, .updated [], by simp [access, update, hn], h, rfl, fun _ _ => rfl, by simp [AllOk], fun _ => ⟨nofun, nofun⟩⟩
    | true =>
      obtain ⟨o, h1, h2, h3, h4, h5⟩ := hwrite (updateValue r)
      exact ⟨o.reg, o.dev, .updated [o.ok], by simp [access, update, hn, h1], h2, h3, h4, by simp [AllOk, h5], fun _ => ⟨nofun, nofun⟩⟩
  | read =>
    obtain ⟨o, h1, h2, h3, h4, h5, h6⟩ := hread
    exact ⟨o.reg, o.dev, .got o.value o.ok o.err, by simp only [access, RegAccess.read, h1]; rfl, h2, h3, h4, h5,
      fun hR => ⟨nofun, fun _ => ⟨o.err, by rw [h6 hR, h5]⟩⟩⟩
  | mirror b =>
    obtain ⟨o, h1, h2, h3, h4, h5, h6⟩ := hread
    refine ⟨o.reg, o.dev, .mirrored [o.ok] (b && !(doCheck o.reg p.rt (getMirrored r) o.value)), by simp only [access, mirror, hp.rw, h1]; rfl,
      h2, h3, h4, by simp [AllOk, h5], fun hR => ⟨fun st hst => ?_, nofun⟩⟩
    rw [h6 hR] at hst
    simp [doCheck] at hst

end

theorem sound_other {n : Nat} {w : Nat} {pol : Nat → Nat → Option Acc} {ports : Fin n → Port} {s s' : Nat → Cell} {i j : Fin n}
    (hA : ∀ a ∈ (ports j).addrs, a ∉ (ports i).addrs) (hs : ∀ a, a ∉ (ports i).addrs → s' a = s a) {r : Reg}
    (h : Sound w pol (ports j).addrs s r) : Sound w pol (ports j).addrs s' r := by
  refine ⟨h.good, h.wired, fun x hx => ⟨fun k hk => ?_, fun a ha => ?_⟩⟩
  · have hlt : x.lsb + k < 8 * w * (ports j).addrs.length := Nat.lt_of_lt_of_le (by omega) (h.wired.fits x hx)
    have hm : wordOf w (ports j).addrs (x.lsb + k) ∈ (ports j).addrs := by rw [wordOf_get hlt]; exact List.getElem_mem _
    rw [(h.mirrors x hx).1 k hk, bitOf, bitOf, hs _ (hA _ hm)]
  · rw [hs a (hA a ha)]; exact (h.mirrors x hx).2 a ha

theorem run_sound {n : Nat} {order : Order} (ho : Reorders order) {w : Nat} (hw : 1 ≤ w) (pol : Nat → Nat → Option Acc) {ports : Fin n → Port}
    (hA : Apart ports) (hp : ∀ i, Auto (ports i)) (ops : List (Fin n × RegAccess.Op)) (regs : Fin n → Reg) (s : Nat → Cell)
    (h : ∀ i, Sound w pol (ports i).addrs s (regs i)) :
    ∃ st outs, run ports (onBus (chip w pol) order w ports) ⟨regs, s⟩ ops = some (st, outs) ∧
      (∀ i, Sound w pol (ports i).addrs st.dev (st.regs i) ∧ (st.regs i).fields.map lay = (regs i).fields.map lay) ∧
      (∀ a, (∀ i, a ∉ (ports i).addrs) → st.dev a = s a) ∧ outs.length = ops.length ∧ (∀ o ∈ outs, AllOk o) ∧
      ((∀ i, AllReadable (regs i)) → ∀ status, Out.mirrored status true ∉ outs) := by
  induction ops generalizing regs s with
  | nil => exact ⟨_, _, rfl, fun i => ⟨h i, rfl⟩, fun _ _ => rfl, rfl, by simp, by simp⟩
  | cons op ops ih =>
    obtain ⟨r', s', o, h1, h2, h3, h4, h5, h6⟩ := access_sound hw ho (hA.some op.1) (hA.once op.1) (hp op.1) (h op.1) op.2
    have h1' : access (ports op.1) (onBus (chip w pol) order w ports op.1 (regs op.1)) (regs op.1) s op.2 = some (r', s', o) := h1
    have hlay : ∀ j, ((fun j => if j = op.1 then r' else regs j) j).fields.map lay = (regs j).fields.map lay := by
      intro j
      by_cases hj : j = op.1
      · subst hj; simpa using h3
      · simp [hj]
    obtain ⟨st, outs, e1, e2, e3, e4, e5, e6⟩ := ih (fun j => if j = op.1 then r' else regs j) s' (by
      intro j
      by_cases hj : j = op.1
      · subst hj; simpa using h2
      · simpa [hj] using sound_other (hA.apart j op.1 hj) h4 (h j))
    refine ⟨st, o :: outs, by simp only [RegSystem.run, RegSystem.step, h1', Option.map_some, e1], fun i => ⟨(e2 i).1, (e2 i).2.trans (hlay i)⟩, fun a ha => ?_, by simp [e4], ?_, ?_⟩
    · rw [e3 a ha, h4 a (ha op.1)]
    · intro x hx
      rcases List.mem_cons.1 hx with rfl | hx
      · exact h5
      · exact e5 x hx
    · intro hR status hm
      rcases List.mem_cons.1 hm with hm | hm
      · exact (h6 (hR op.1)).1 status hm.symm
      · exact e6 (fun i => readable_lay (hlay i) (hR i)) status hm

/-- C330. Every mirror is what the chip has, after every history; no exception, every status is OK, and no address outside the registers is touched. -/
theorem C330_mirrors_follow {n : Nat} (order : Order) (ho : Reorders order) (w : Nat) (hw : 1 ≤ w) (pol : Nat → Nat → Option Acc) (ports : Fin n → Port)
    (hA : Apart ports) (hp : ∀ i, Auto (ports i)) (regs : Fin n → Reg) (hreach : ∀ i, Reachable (regs i))
    (hwired : ∀ i, Wired w pol (ports i).addrs (regs i)) (s : Nat → Cell) (hm : ∀ i, Mirrors w (ports i).addrs s (regs i))
    (ops : List (Fin n × RegAccess.Op)) :
    ∃ st outs, run ports (onBus (chip w pol) order w ports) ⟨regs, s⟩ ops = some (st, outs) ∧
      (∀ i, Mirrors w (ports i).addrs st.dev (st.regs i)) ∧ outs.length = ops.length ∧ (∀ o ∈ outs, AllOk o) ∧
      ∀ a, (∀ i, a ∉ (ports i).addrs) → st.dev a = s a := by
  obtain ⟨st, outs, e1, e2, e3, e4, e5, _⟩ := run_sound ho hw pol hA hp ops regs s fun i => ⟨reachable_good (hreach i), hwired i, hm i⟩
  exact ⟨st, outs, e1, fun i => (e2 i).1.mirrors, e4, e5, e3⟩

/-- C330. If every field can be read: no mirror with check ever reports a mismatch. -/
theorem C330_no_mismatch {n : Nat} (order : Order) (ho : Reorders order) (w : Nat) (hw : 1 ≤ w) (pol : Nat → Nat → Option Acc) (ports : Fin n → Port)
    (hA : Apart ports) (hp : ∀ i, Auto (ports i)) (regs : Fin n → Reg) (hreach : ∀ i, Reachable (regs i)) (hread : ∀ i, AllReadable (regs i))
    (hwired : ∀ i, Wired w pol (ports i).addrs (regs i)) (s : Nat → Cell) (hm : ∀ i, Mirrors w (ports i).addrs s (regs i))
    (ops : List (Fin n × RegAccess.Op)) :
    ∃ st outs, run ports (onBus (chip w pol) order w ports) ⟨regs, s⟩ ops = some (st, outs) ∧ ∀ status, Out.mirrored status true ∉ outs := by
  obtain ⟨st, outs, e1, _, _, _, _, e6⟩ := run_sound ho hw pol hA hp ops regs s fun i => ⟨reachable_good (hreach i), hwired i, hm i⟩
  exact ⟨st, outs, e1, e6 hread⟩

/-- C330. A read at the end of any history returns what the mirror had before the read. -/
theorem C330_read {n : Nat} (order : Order) (ho : Reorders order) (w : Nat) (hw : 1 ≤ w) (pol : Nat → Nat → Option Acc) (ports : Fin n → Port)
    (hA : Apart ports) (hp : ∀ i, Auto (ports i)) (regs : Fin n → Reg) (hreach : ∀ i, Reachable (regs i))
    (hwired : ∀ i, Wired w pol (ports i).addrs (regs i)) (s : Nat → Cell) (hm : ∀ i, Mirrors w (ports i).addrs s (regs i))
    (ops : List (Fin n × RegAccess.Op)) (i : Fin n) (hread : AllReadable (regs i)) :
    ∃ st outs st' err, run ports (onBus (chip w pol) order w ports) ⟨regs, s⟩ ops = some (st, outs) ∧
      run ports (onBus (chip w pol) order w ports) ⟨regs, s⟩ (ops ++ [(i, .read)]) = some (st', outs ++ [.got (getMirrored (st.regs i)) true err]) := by
  obtain ⟨st, outs, e1, e2, _⟩ := run_sound ho hw pol hA hp ops regs s fun i => ⟨reachable_good (hreach i), hwired i, hm i⟩
  obtain ⟨r', s', o, h1, _, _, _, _, h6⟩ := access_sound hw ho (hA.some i) (hA.once i) (hp i) (e2 i).1 .read
  obtain ⟨e, he⟩ := (h6 (readable_lay (e2 i).2 hread)).2 rfl
  subst he
  refine ⟨st, outs, ⟨fun j => if j = i then r' else st.regs j, s'⟩, e, e1, ?_⟩
  rw [run_append _ _ _ _ _ _ _ e1]
  have h1' : access (ports i) (onBus (chip w pol) order w ports i (st.regs i)) (st.regs i) st.dev .read = _ := h1
  simp only [RegSystem.run, RegSystem.step, h1', Option.map_some]

/-! ### A case: a 24-bit register with read/write, cleared-by-read and write-one-to-clear fields next to a 16-bit write-once register, on a 16-bit big-endian bus -/

def egRegs : Fin 2 → Reg := fun i =>
  if i = 0 then steps (build 24 [⟨0, configure [] 6 .RW false 0 true⟩, ⟨6, configure [] 12 .RC false 0x5a5 true⟩, ⟨20, configure [] 4 .W1C false 0xf true⟩]).1 [.reset "HARD"]
  else steps (build 16 [⟨0, configure [] 16 .W1 false 0 true⟩]).1 [.reset "HARD"]

def egPorts : Fin 2 → Port := fun i =>
  { cfg := { route := .front .RW, auto := true, check := false }
    addrs := if i = 0 then (physAddrs (.root ⟨2, true, .big⟩ 0x100) 0 0 3 []).1 else (physAddrs (.root ⟨2, true, .big⟩ 0x100) 4 0 2 []).1 }

/-- The chip: `[0x102]` is the low word of the first register, `[0x100]` its high word, `[0x104]` the second register. -/
def egPol (a b : Nat) : Option Acc :=
  if a = 0x102 then (if b < 6 then some .RW else if b < 16 then some .RC else none)
  else if a = 0x100 then (if b < 2 then some .RC else if b < 4 then none else if b < 8 then some .W1C else none)
  else if a = 0x104 then (if b < 16 then some .W1 else none)
  else none

def egChip : Nat → Cell := fun a => ⟨fun b => if a = 0x102 then (0x5a5 <<< 6).testBit b else if a = 0x100 then (0xf1 : Nat).testBit b else false, false⟩

theorem egApart : Apart egPorts :=
  C323_apart_in_map ⟨2, true, .big⟩ 0x100 (by decide) (.inr rfl) (fun i => if i = 0 then 0 else 4) (fun i => if i = 0 then 3 else 2) (by decide)
    egPorts (by decide) (by decide)

theorem egAuto : ∀ i, Auto (egPorts i) := fun _ =>
  { front := ⟨.RW, rfl⟩, bare := fun _ => rfl, preW := quiet_default, postW := quiet_default, preR := quiet_default, postR := quiet_default,
    rw := rfl, auto := rfl }

example : (egPorts 0).addrs = [0x102, 0x100] ∧ (egPorts 1).addrs = [0x104] := by decide

example : ∀ i, Reachable (egRegs i) := by
  intro i
  match i with
  | ⟨0, _⟩ =>
    refine ⟨24, _, [.reset "HARD"], ?_, by decide, rfl⟩
    intro x hx
    simp only [List.mem_cons, List.not_mem_nil, or_false] at hx
    rcases hx with rfl | rfl | rfl
    · exact ⟨[], 6, .RW, false, 0, true, [], rfl⟩
    · exact ⟨[], 12, .RC, false, 0x5a5, true, [], rfl⟩
    · exact ⟨[], 4, .W1C, false, 0xf, true, [], rfl⟩
  | ⟨1, _⟩ =>
    refine ⟨16, _, [.reset "HARD"], ?_, by decide, rfl⟩
    intro x hx
    simp only [List.mem_cons, List.not_mem_nil, or_false] at hx
    subst hx
    exact ⟨[], 16, .W1, false, 0, true, [], rfl⟩

theorem egInside (i : Fin 2) : ∀ x ∈ (egRegs i).fields, x.lsb + x.f.size ≤ 32 := by
  match i with
  | ⟨0, _⟩ => exact (by decide : ∀ x ∈ (egRegs 0).fields, x.lsb + x.f.size ≤ 32)
  | ⟨1, _⟩ => exact (by decide : ∀ x ∈ (egRegs 1).fields, x.lsb + x.f.size ≤ 32)

example : ∀ i, Wired 2 egPol (egPorts i).addrs (egRegs i) := by
  intro i
  have key : ∀ x ∈ (egRegs i).fields, ∀ k, k < 32 → Covers x k → egPol (wordOf 2 (egPorts i).addrs k) (k % (8 * 2)) = some x.f.access := by
    match i with
    | ⟨0, _⟩ => exact (by decide : ∀ x ∈ (egRegs 0).fields, ∀ k, k < 32 → Covers x k → egPol (wordOf 2 (egPorts 0).addrs k) (k % (8 * 2)) = some x.f.access)
    | ⟨1, _⟩ => exact (by decide : ∀ x ∈ (egRegs 1).fields, ∀ k, k < 32 → Covers x k → egPol (wordOf 2 (egPorts 1).addrs k) (k % (8 * 2)) = some x.f.access)
  refine ⟨fun x hx k hk => key x hx k (Nat.lt_of_lt_of_le hk.2 (egInside i x hx)) hk, ?_, ?_⟩
  · match i with
    | ⟨0, _⟩ => exact (by decide : ∀ k, k < 32 → (∀ x ∈ (egRegs 0).fields, ¬ Covers x k) → egPol (wordOf 2 (egPorts 0).addrs k) (k % (8 * 2)) = none)
    | ⟨1, _⟩ => exact (by decide : ∀ k, k < 16 → (∀ x ∈ (egRegs 1).fields, ¬ Covers x k) → egPol (wordOf 2 (egPorts 1).addrs k) (k % (8 * 2)) = none)
  · match i with
    | ⟨0, _⟩ => exact (by decide : ∀ x ∈ (egRegs 0).fields, x.lsb + x.f.size ≤ 8 * 2 * (egPorts 0).addrs.length)
    | ⟨1, _⟩ => exact (by decide : ∀ x ∈ (egRegs 1).fields, x.lsb + x.f.size ≤ 8 * 2 * (egPorts 1).addrs.length)

example : ∀ i, Mirrors 2 (egPorts i).addrs egChip (egRegs i) := by
  intro i
  match i with
  | ⟨0, _⟩ =>
    exact (by decide : ∀ x ∈ (egRegs 0).fields, (∀ j, j < x.f.size → x.f.mirrored.testBit j = bitOf 2 (egPorts 0).addrs egChip (x.lsb + j)) ∧
      ∀ a ∈ (egPorts 0).addrs, (egChip a).written = x.f.written)
  | ⟨1, _⟩ =>
    exact (by decide : ∀ x ∈ (egRegs 1).fields, (∀ j, j < x.f.size → x.f.mirrored.testBit j = bitOf 2 (egPorts 1).addrs egChip (x.lsb + j)) ∧
      ∀ a ∈ (egPorts 1).addrs, (egChip a).written = x.f.written)

example : ∀ i, AllReadable (egRegs i) := by
  intro i
  match i with
  | ⟨0, _⟩ => exact (by decide : ∀ x ∈ (egRegs 0).fields, (doc x.f.access).2 ≠ .error ∧ x.f.access ≠ .NOACCESS)
  | ⟨1, _⟩ => exact (by decide : ∀ x ∈ (egRegs 1).fields, (doc x.f.access).2 ≠ .error ∧ x.f.access ≠ .NOACCESS)

example : (RegSystem.run egPorts (onBus (chip 2 egPol) List.reverse 2 egPorts) ⟨egRegs, egChip⟩
    [(0, .write 0x30003f), (1, .write 0x1234), (0, .read), (1, .write 0x5678), (0, .mirror true), (1, .read), (0, .read)]).map (·.2) =
    some [.wrote true, .wrote true, .got 0xc1697f true false, .wrote true, .mirrored [true] false, .got 0x1234 true false, .got 0xc0003f true false] := by
  decide +kernel

end Verif.RegChip
