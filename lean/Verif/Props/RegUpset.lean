import Verif.Spec.RegUpset
import Verif.Props.RegChip
/-!
# C333: deviations of the chip are reported

A block of readable registers in a chip that follows the documented policies, except that at any time something else may change its bits.
-/
namespace Verif.RegChip
open Verif.Reg Verif.RegField Verif.RegAccess Verif.RegMap Verif.RegSystem Verif.RegConc

theorem cover_eq {l : List RF} (hd : NoOverlap l) {x y : RF} (hx : x ∈ l) (hy : y ∈ l) {i : Nat} (cx : Covers x i) (cy : Covers y i) : x = y := by
  induction l with
  | nil => simp at hx
  | cons z l ih =>
    have q := List.pairwise_cons.1 hd
    rcases List.mem_cons.1 hx with rfl | hx'
    · rcases List.mem_cons.1 hy with e | hy'
      · exact e.symm
      · exact absurd ⟨i, cx, cy⟩ (q.1 y hy')
    · rcases List.mem_cons.1 hy with rfl | hy'
      · exact absurd ⟨i, cy, cx⟩ (q.1 x hx')
      · exact ih q.2 hx' hy'

theorem lay_predF (v : Nat) (k : PKind) (rt : Rights) (b : Bool) (x : RF) : lay (predF v k rt b x) = lay x := by
  unfold predF RegField.doPredict
  cases k with
  | write => rfl
  | direct => rfl
  | read => cases getAccess x.f rt <;> rfl

theorem check_predF (v : Nat) (k : PKind) (rt : Rights) (b : Bool) (x : RF) : (predF v k rt b x).f.check = x.f.check := by
  unfold predF RegField.doPredict
  cases k with
  | write => rfl
  | direct => rfl
  | read => cases getAccess x.f rt <;> rfl

theorem written_read (v : Nat) (rt : Rights) (b : Bool) (x : RF) : (predF v .read rt b x).f.written = x.f.written := by
  unfold predF RegField.doPredict
  cases getAccess x.f rt <;> rfl

/-- What is kept for one register although the chip changes. -/
structure Fit (w : Nat) (pol : Nat → Nat → Option Acc) (addrs : List Nat) (s : Nat → Cell) (r : Reg) : Prop where
  good : Good r
  wired : Wired w pol addrs r
  readable : AllReadable r
  age : SameAge addrs s r

/-- The field with the chip's bits as its mirror. -/
def synced (w : Nat) (addrs : List Nat) (s : Nat → Cell) (x : RF) : RF :=
  { x with f := { x.f with mirrored := ofBits x.f.size fun j => bitOf w addrs s (x.lsb + j) } }

def synR (w : Nat) (addrs : List Nat) (s : Nat → Cell) (r : Reg) : Reg := { r with fields := r.fields.map (synced w addrs s) }

theorem synR_lay (w : Nat) (addrs : List Nat) (s : Nat → Cell) (r : Reg) : (synR w addrs s r).fields.map lay = r.fields.map lay := by
  simp only [synR, List.map_map]; rfl

theorem synR_sound {w : Nat} {pol : Nat → Nat → Option Acc} {addrs : List Nat} {s : Nat → Cell} {r : Reg} (h : Fit w pol addrs s r) :
    Sound w pol addrs s (synR w addrs s r) := by
  refine ⟨?_, wired_lay (synR_lay w addrs s r) h.wired, ?_⟩
  · refine good_map h.good (synced w addrs s) (fun x hx => ⟨?_, rfl, rfl⟩) r.busy
    have q := h.good.fits x hx
    exact ⟨ofBits_lt _ _, q.desired, q.value, q.reset, q.acc, q.size⟩
  · intro y hy
    obtain ⟨x, hx, rfl⟩ := List.mem_map.1 hy
    refine ⟨fun j hj => ?_, h.age x hx⟩
    simp only [synced] at hj ⊢
    rw [ofBits_aux]; simp [hj]

theorem predF_synced {w : Nat} {addrs : List Nat} {s : Nat → Cell} {x : RF} (hR : Readable x.f.access) (v : Nat) (b : Bool) :
    predF v .read .RW b (synced w addrs s x) = predF v .read .RW b x := by
  have hR' : (doc x.f.access).2 ≠ .error ∧ x.f.access ≠ .NOACCESS := hR
  have e : getAccess (synced w addrs s x).f .RW = getAccess x.f .RW := rfl
  have g : getAccess x.f .RW = x.f.access := by cases ha : x.f.access <;> simp [getAccess, ha]
  unfold predF RegField.doPredict
  rw [e, g]
  cases ha : x.f.access <;> first
    | rfl
    | (rw [ha] at hR'; simp [doc] at hR')

section
variable {w : Nat} (hw : 1 ≤ w) {pol : Nat → Nat → Option Acc} {order : Order} (ho : Reorders order) {addrs : List Nat} (hne : addrs ≠ []) (hd : addrs.Nodup)
include hw ho hne hd

/-- A read makes the mirror what the chip has. -/
theorem dev_read_any (nb : Nat) {r : Reg} {s : Nat → Cell} (h : Fit w pol addrs s r) (hb : ∀ k, (RegAccess.Cfg.bare c) k = false) :
    ∃ s' v, (regDev (chip w pol) order w nb addrs).rd s = (s', v, true) ∧ (∀ a, a ∉ addrs → s' a = s a) ∧
      Sound w pol addrs s' { r with fields := r.fields.map (predF v .read .RW r.busy) } ∧ v = getMirrored (synR w addrs s r) := by
  obtain ⟨s', v, h1, h2, h3, _, h5⟩ := dev_read (c := c) hw ho hne hd nb (synR_sound h) hb
  refine ⟨s', v, h1, h2, ?_, h5 (readable_lay (synR_lay w addrs s r) h.readable)⟩
  have e : (synR w addrs s r).fields.map (predF v .read .RW r.busy) = r.fields.map (predF v .read .RW r.busy) := by
    simp only [synR, List.map_map]
    apply List.map_congr_left
    intro x hx
    exact predF_synced (h.readable x hx) v r.busy
  have h3' : Sound w pol addrs s' { (synR w addrs s r) with fields := (synR w addrs s r).fields.map (predF v .read .RW r.busy) } := h3
  rw [e] at h3'
  exact h3'

omit hw ho hne hd in
theorem synR_bit {r : Reg} {s : Nat → Cell} (h : Fit w pol addrs s r) {x : RF} (hx : x ∈ r.fields) {j : Nat} (hj : j < x.f.size) :
    (getMirrored (synR w addrs s r)).testBit (x.lsb + j) = bitOf w addrs s (x.lsb + j) := by
  have hg := (synR_sound h).good
  rw [show (getMirrored (synR w addrs s r)).testBit (x.lsb + j) = _ from assemble_testBit _ hg.disj _ (fun y hy => (hg.fits y hy).mirrored) _]
  have hm : synced w addrs s x ∈ (synR w addrs s r).fields := List.mem_map.2 ⟨x, hx, rfl⟩
  have hc : Covers (synced w addrs s x) (x.lsb + j) := ⟨by simp [synced], by simp only [synced]; omega⟩
  rw [assembled_mem hg.disj hm hc]
  simp only [synced, Nat.add_sub_cancel_left, ofBits_aux, hj, decide_true, Bool.true_and]

omit hw ho hne hd in
theorem mirrored_bit {r : Reg} (hg : Good r) {x : RF} (hx : x ∈ r.fields) {j : Nat} (hj : j < x.f.size) :
    (getMirrored r).testBit (x.lsb + j) = x.f.mirrored.testBit j := by
  rw [show (getMirrored r).testBit (x.lsb + j) = _ from assemble_testBit _ hg.disj _ (fun y hy => (hg.fits y hy).mirrored) _]
  rw [assembled_mem hg.disj hx (⟨by omega, by omega⟩ : Covers x (x.lsb + j)), Nat.add_sub_cancel_left]

omit hw ho hne hd in
theorem mirrored_out {r : Reg} (hg : Good r) {k : Nat} (hk : ∀ x ∈ r.fields, ¬ Covers x k) : (getMirrored r).testBit k = false := by
  rw [show (getMirrored r).testBit k = _ from assemble_testBit _ hg.disj _ (fun y hy => (hg.fits y hy).mirrored) _]
  have hf : r.fields.find? (fun x => decide (Covers x k)) = none := by
    rw [List.find?_eq_none]; intro x hx; simpa using hk x hx
  simp only [assembled, hf]

omit hw ho hne hd in
/-- The check against what is read fails exactly if the chip deviates. -/
theorem check_deviates {r r' : Reg} {s : Nat → Cell} (h : Fit w pol addrs s r) (rt : Rights) {v : Nat} {b : Bool} (hr : r'.fields = r.fields.map (predF v .read .RW b)) :
    doCheck r' rt (getMirrored r) (getMirrored (synR w addrs s r)) = false ↔ Deviates w addrs s r := by
  have hmem : ∀ i, (∀ x ∈ r'.fields, Covers x i → x.f.check = true) ↔ ∀ x ∈ r.fields, Covers x i → x.f.check = true := by
    intro i
    have hcov : ∀ x : RF, Covers (predF v .read .RW b x) i ↔ Covers x i := by
      intro x
      have := lay_predF v .read .RW b x
      simp only [lay, Prod.mk.injEq] at this
      simp only [Covers, this.1, this.2.1]
    constructor
    · intro q x hx hc
      rw [← check_predF v .read .RW b x]
      exact q _ (hr ▸ List.mem_map.2 ⟨x, hx, rfl⟩) ((hcov x).2 hc)
    · intro q y hy hc
      rw [hr] at hy
      obtain ⟨x, hx, rfl⟩ := List.mem_map.1 hy
      rw [check_predF]
      exact q x hx ((hcov x).1 hc)
  constructor
  · intro hf
    have hn : ¬ doCheck r' rt (getMirrored r) (getMirrored (synR w addrs s r)) = true := by rw [hf]; decide
    rw [C58_mirror_check_iff] at hn
    by_cases q : Deviates w addrs s r
    · exact q
    · refine absurd (fun i hi => ?_) hn
      by_cases hc : ∃ x ∈ r.fields, Covers x i
      · obtain ⟨x, hx, hc⟩ := hc
        have hj : i - x.lsb < x.f.size := by have := hc.1; have := hc.2; omega
        have he : i = x.lsb + (i - x.lsb) := by have := hc.1; omega
        rw [he, synR_bit h hx hj, mirrored_bit h.good hx hj]
        by_cases e : x.f.mirrored.testBit (i - x.lsb) = bitOf w addrs s (x.lsb + (i - x.lsb))
        · exact e.symm
        · exact absurd ⟨x, hx, (hmem i).1 hi x hx hc, _, hj, e⟩ q
      · have hno : ∀ x ∈ r.fields, ¬ Covers x i := fun x hx q => hc ⟨x, hx, q⟩
        rw [mirrored_out h.good hno, mirrored_out (synR_sound h).good]
        intro y hy hcy
        obtain ⟨x, hx, rfl⟩ := List.mem_map.1 hy
        exact hno x hx hcy
  · rintro ⟨x, hx, hck, j, hj, hne⟩
    cases hf : doCheck r' rt (getMirrored r) (getMirrored (synR w addrs s r)) with
    | false => rfl
    | true =>
      have q := (C58_mirror_check_iff _ _ _ _).1 hf (x.lsb + j) ((hmem _).2 (fun y hy hc => ?_))
      · rw [synR_bit h hx hj, mirrored_bit h.good hx hj] at q
        exact absurd q.symm hne
      · have hcx : Covers x (x.lsb + j) := ⟨by omega, by omega⟩
        rw [cover_eq h.good.disj hy hx hc hcx]; exact hck

/-- One operation on a register, whatever the chip has. -/
theorem access_fit {p : Port} (hp : Auto p) {r : Reg} {s : Nat → Cell} (h : Fit w pol addrs s r) (op : RegAccess.Op) :
    ∃ r' s' o, access p (regDev (chip w pol) order w r.nBits addrs) r s op = some (r', s', o) ∧ Fit w pol addrs s' r' ∧
      (∀ a, a ∉ addrs → s' a = s a) ∧ AllOk o ∧
      (∀ b, op = .mirror b → Mirrors w addrs s' r' ∧ ∃ mm, o = .mirrored [true] mm ∧ (mm = true ↔ b = true ∧ Deviates w addrs s r)) ∧
      (op = .read → Mirrors w addrs s' r' ∧ ∃ v e, o = .got v true e ∧ ∀ x ∈ r.fields, ∀ j, j < x.f.size →
        v.testBit (x.lsb + j) = bitOf w addrs s (x.lsb + j)) := by
  have hset : ∀ v : Int, Fit w pol addrs s (Reg.set r v) := by
    intro v
    have hl : (Reg.set r v).fields.map lay = r.fields.map lay := by simp only [Reg.set, List.map_map]; rfl
    refine ⟨good_set h.good v, wired_lay hl h.wired, readable_lay hl h.readable, fun x hx => ?_⟩
    obtain ⟨y, hy, rfl⟩ := List.mem_map.1 hx
    exact h.age y hy
  have hwrite : ∀ v : Nat, ∃ o, write p.cfg p.dflt (regDev (chip w pol) order w r.nBits addrs) p.preW p.postW r s v = some o ∧
      Fit w pol addrs o.dev o.reg ∧ (∀ a, a ∉ addrs → o.dev a = s a) ∧ o.ok = true := by
    intro v
    obtain ⟨o, h1, h2, h3, h4⟩ := write_quiet hp.rw hp.bare p.dflt (regDev (chip w pol) order w r.nBits addrs) hp.preW hp.postW r s v
    obtain ⟨s', e1, e2, _, e4⟩ := chip_write w hw pol ho (r.nBits : Int) (2 ^ w - 1) hne hd s (v % 2 ^ r.nBits)
    have e1' : (regDev (chip w pol) order w r.nBits addrs).wr s (v % 2 ^ r.nBits) = (s', true) := e1
    rw [e1'] at h2 h3
    have hl : ((Reg.set r v).fields.map (predF (v % 2 ^ r.nBits) .write .RW r.busy)).map lay = (Reg.set r v).fields.map lay := by
      rw [List.map_map]; apply List.map_congr_left; intro x _; exact lay_predF _ _ _ _ x
    refine ⟨o, h1, ?_, by rw [h2]; exact e4, h3⟩
    rw [h2, h4, hp.auto, if_pos rfl]
    refine ⟨good_predF (r := Reg.set r v) hp.bare (hset v).good _ .write (by decide) .RW, wired_lay hl (hset v).wired, readable_lay hl (hset v).readable, fun x hx a ha => ?_⟩
    obtain ⟨y, _, rfl⟩ := List.mem_map.1 hx
    rw [e2 a ha]; rfl
  have hread : ∃ o, doRead p.cfg (regDev (chip w pol) order w r.nBits addrs) p.preR p.postR r s = some o ∧
      Fit w pol addrs o.dev o.reg ∧ Mirrors w addrs o.dev o.reg ∧ (∀ a, a ∉ addrs → o.dev a = s a) ∧ o.ok = true ∧
      o.value = getMirrored (synR w addrs s r) ∧ o.reg.fields = r.fields.map (predF o.value .read .RW r.busy) := by
    obtain ⟨o, h1, h2, h3, h4, _, h6⟩ := read_quiet hp.rw hp.bare (regDev (chip w pol) order w r.nBits addrs) hp.preR hp.postR r s
    obtain ⟨s', v, e1, e2, e3, e4⟩ := dev_read_any hw ho hne hd r.nBits h hp.bare
    rw [e1] at h2 h3 h4 h6
    rw [hp.auto, if_pos rfl] at h6
    have hl : (r.fields.map (predF v .read .RW r.busy)).map lay = r.fields.map lay := by
      rw [List.map_map]; apply List.map_congr_left; intro x _; exact lay_predF _ _ _ _ x
    refine ⟨o, h1, ?_, ?_, by rw [h2]; exact e2, h3, by rw [h4]; exact e4, by rw [h6, h4]⟩
    · rw [h2, h6]
      exact ⟨e3.good, e3.wired, readable_lay (r' := { r with fields := r.fields.map (predF v .read .RW r.busy) }) hl h.readable, fun x hx => (e3.mirrors x hx).2⟩
    · rw [h2, h6]; exact e3.mirrors
  cases op with
  | set v => exact ⟨_, _, _, rfl, hset v, fun _ _ => rfl, trivial, nofun, nofun⟩
  | setField k v =>
    have hl : (Reg.step r (.fieldOp k (.set v))).fields.map lay = r.fields.map lay := by
      apply List.ext_getElem?
      intro j
      simp only [Reg.step, List.getElem?_map, List.getElem?_modify]
      cases r.fields[j]? with
      | none => rfl
      | some x =>
        simp only [Option.map_some]
        split <;> rfl
    refine ⟨_, _, _, rfl, ⟨(good_step h.good _).1, wired_lay hl h.wired, readable_lay hl h.readable, fun y hy => ?_⟩, fun _ _ => rfl, trivial, nofun, nofun⟩
    simp only [Reg.step] at hy
    obtain ⟨j, hj⟩ := List.mem_iff_getElem?.1 hy
    rw [List.getElem?_modify] at hj
    obtain ⟨x, hx, rfl⟩ := Option.map_eq_some_iff.1 hj
    have := h.age x (List.mem_of_getElem? hx)
    split
    · exact this
    · exact this
  | write v =>
    obtain ⟨o, h1, h2, h3, h4⟩ := hwrite v
    exact ⟨o.reg, o.dev, .wrote o.ok, by simp only [access, h1]; rfl, h2, h3, h4, nofun, nofun⟩
  | update =>
    cases hn : Reg.needsUpdate r with
    | false => exact ⟨r, s, .updated [], by simp [access, update, hn], h, fun _ _ => rfl, by simp [AllOk], nofun, nofun⟩
    | true =>
      obtain ⟨o, h1, h2, h3, h4⟩ := hwrite (updateValue r)
      exact ⟨o.reg, o.dev, .updated [o.ok], by simp [access, update, hn, h1], h2, h3, by simp [AllOk, h4], nofun, nofun⟩
  | read =>
    obtain ⟨o, h1, h2, h3, h4, h5, h6, h7⟩ := hread
    refine ⟨o.reg, o.dev, .got o.value o.ok o.err, by simp only [access, RegAccess.read, h1]; rfl, h2, h4, h5, nofun, fun _ => ⟨h3, o.value, o.err, by rw [h5], ?_⟩⟩
    intro x hx j hj
    rw [h6, synR_bit h hx hj]
  | mirror b =>
    obtain ⟨o, h1, h2, h3, h4, h5, h6, h7⟩ := hread
    refine ⟨o.reg, o.dev, .mirrored [o.ok] (b && !(doCheck o.reg p.rt (getMirrored r) o.value)), by simp only [access, mirror, hp.rw, h1]; rfl,
      h2, h4, by simp [AllOk, h5], fun b' hb' => ⟨h3, _, by rw [h5], ?_⟩, nofun⟩
    cases hb'
    rw [Bool.and_eq_true, Bool.not_eq_true', h6, check_deviates h p.rt h7]

end

theorem fit_upset {w : Nat} {pol : Nat → Nat → Option Acc} {addrs : List Nat} {s : Nat → Cell} {r : Reg} (h : Fit w pol addrs s r) (a : Nat) (bits : Nat → Bool) :
    Fit w pol addrs (upset s a bits) r := by
  refine ⟨h.good, h.wired, h.readable, fun x hx b hb => ?_⟩
  rw [← h.age x hx b hb]
  unfold upset
  split
  · rename_i e; rw [e]
  · rfl

theorem fit_other {w : Nat} {pol : Nat → Nat → Option Acc} {addrs addrs' : List Nat} {s s' : Nat → Cell} (hA : ∀ a ∈ addrs, a ∉ addrs')
    (hs : ∀ a, a ∉ addrs' → s' a = s a) {r : Reg} (h : Fit w pol addrs s r) : Fit w pol addrs s' r :=
  ⟨h.good, h.wired, h.readable, fun x hx a ha => by rw [hs a (hA a ha)]; exact h.age x hx a ha⟩

theorem mirrors_words {w : Nat} {pol : Nat → Nat → Option Acc} {addrs : List Nat} {s s' : Nat → Cell} {r : Reg} (hw : Wired w pol addrs r)
    (hs : ∀ a ∈ addrs, s' a = s a) (h : Mirrors w addrs s r) : Mirrors w addrs s' r := by
  refine fun x hx => ⟨fun k hk => ?_, fun a ha => by rw [hs a ha]; exact (h x hx).2 a ha⟩
  have hlt : x.lsb + k < 8 * w * addrs.length := Nat.lt_of_lt_of_le (by omega) (hw.fits x hx)
  have hm : wordOf w addrs (x.lsb + k) ∈ addrs := by rw [wordOf_get hlt]; exact List.getElem_mem _
  rw [(h x hx).1 k hk, bitOf, bitOf, hs _ hm]

theorem runU_append {n : Nat} (ports : Fin n → Port) (devs : Fin n → Reg → Dev (Nat → Cell)) (evs evs' : List (Ev n)) (st st' : RegSystem.State n (Nat → Cell)) (outs : List Out)
    (h : runU ports devs st evs = some (st', outs)) :
    runU ports devs st (evs ++ evs') = (runU ports devs st' evs').map fun q => (q.1, outs ++ q.2) := by
  induction evs generalizing st outs with
  | nil =>
    simp only [runU, Option.some.injEq, Prod.mk.injEq] at h
    obtain ⟨rfl, rfl⟩ := h
    simp
  | cons ev evs ih =>
    cases ev with
    | upset a bits => exact ih _ _ h
    | op i o =>
      simp only [runU, List.cons_append] at h ⊢
      cases hs : RegSystem.step ports devs st (i, o) with
      | none => rw [hs] at h; simp at h
      | some q =>
        rw [hs] at h
        simp only at h ⊢
        obtain ⟨q2, h2, e⟩ := Option.map_eq_some_iff.1 h
        cases e
        rw [ih q.1 q2.2 h2]
        cases runU ports devs q2.1 evs' <;> rfl

section
variable {n : Nat} {order : Order} (ho : Reorders order) {w : Nat} (hw : 1 ≤ w) (pol : Nat → Nat → Option Acc) {ports : Fin n → Port}
  (hA : Apart ports) (hp : ∀ i, Auto (ports i))
include ho hw hA hp

theorem stepU_fit (st : RegSystem.State n (Nat → Cell)) (h : ∀ i, Fit w pol (ports i).addrs st.dev (st.regs i)) (i : Fin n) (op : RegAccess.Op) :
    ∃ st' o, RegSystem.step ports (onBus (chip w pol) order w ports) st (i, op) = some (st', o) ∧ (∀ j, Fit w pol (ports j).addrs st'.dev (st'.regs j)) ∧
      (∀ j, j ≠ i → st'.regs j = st.regs j ∧ ∀ a ∈ (ports j).addrs, st'.dev a = st.dev a) ∧ AllOk o ∧
      (∀ b, op = .mirror b → Mirrors w (ports i).addrs st'.dev (st'.regs i) ∧ ∃ mm, o = .mirrored [true] mm ∧ (mm = true ↔ b = true ∧ Deviates w (ports i).addrs st.dev (st.regs i))) ∧
      (op = .read → Mirrors w (ports i).addrs st'.dev (st'.regs i) ∧ ∃ v e, o = .got v true e ∧ ∀ x ∈ (st.regs i).fields, ∀ j, j < x.f.size →
        v.testBit (x.lsb + j) = bitOf w (ports i).addrs st.dev (x.lsb + j)) := by
  obtain ⟨r', s', o, h1, h2, h3, h4, h5, h6⟩ := access_fit hw ho (hA.some i) (hA.once i) (hp i) (h i) op
  have h1' : access (ports i) (onBus (chip w pol) order w ports i (st.regs i)) (st.regs i) st.dev op = some (r', s', o) := h1
  refine ⟨⟨fun j => if j = i then r' else st.regs j, s'⟩, o, by simp only [RegSystem.step, h1', Option.map_some], fun j => ?_, fun j hj => ?_, h4, ?_, ?_⟩
  · by_cases hj : j = i
    · subst hj; simpa using h2
    · simpa [hj] using fit_other (hA.apart j i hj) h3 (h j)
  · exact ⟨if_neg hj, fun a ha => h3 a (hA.apart j i hj a ha)⟩
  · intro b hb; simpa using h5 b hb
  · intro hb; simpa using h6 hb

theorem runU_fit (evs : List (Ev n)) (st : RegSystem.State n (Nat → Cell)) (h : ∀ i, Fit w pol (ports i).addrs st.dev (st.regs i)) :
    ∃ st' outs, runU ports (onBus (chip w pol) order w ports) st evs = some (st', outs) ∧ (∀ i, Fit w pol (ports i).addrs st'.dev (st'.regs i)) ∧
      ∀ o ∈ outs, AllOk o := by
  induction evs generalizing st with
  | nil => exact ⟨st, [], rfl, h, by simp⟩
  | cons ev evs ih =>
    cases ev with
    | upset a bits => exact ih { st with dev := upset st.dev a bits } fun i => fit_upset (h i) a bits
    | op i o =>
      obtain ⟨st1, out, h1, h2, _, h4, _⟩ := stepU_fit ho hw pol hA hp st h i o
      obtain ⟨st', outs, e1, e2, e3⟩ := ih st1 h2
      refine ⟨st', out :: outs, by simp only [runU, h1, e1, Option.map_some], e2, fun x hx => ?_⟩
      rcases List.mem_cons.1 hx with rfl | hx
      · exact h4
      · exact e3 x hx

end

/-- C333. After every history of operations and changes of the chip, a mirror with check reports a mismatch exactly if some bit of a compared field of
that register is not what its mirror says; it leaves the mirror equal to the chip. -/
theorem C333_mirror {n : Nat} (order : Order) (ho : Reorders order) (w : Nat) (hw : 1 ≤ w) (pol : Nat → Nat → Option Acc) (ports : Fin n → Port)
    (hA : Apart ports) (hp : ∀ i, Auto (ports i)) (regs : Fin n → Reg) (hreach : ∀ i, Reachable (regs i)) (hread : ∀ i, AllReadable (regs i))
    (hwired : ∀ i, Wired w pol (ports i).addrs (regs i)) (s : Nat → Cell) (hm : ∀ i, SameAge (ports i).addrs s (regs i))
    (evs : List (Ev n)) (i : Fin n) :
    ∃ st outs st' mm, runU ports (onBus (chip w pol) order w ports) ⟨regs, s⟩ evs = some (st, outs) ∧
      runU ports (onBus (chip w pol) order w ports) ⟨regs, s⟩ (evs ++ [.op i (.mirror true)]) = some (st', outs ++ [.mirrored [true] mm]) ∧
      (mm = true ↔ Deviates w (ports i).addrs st.dev (st.regs i)) ∧ Mirrors w (ports i).addrs st'.dev (st'.regs i) := by
  obtain ⟨st, outs, e1, e2, _⟩ := runU_fit ho hw pol hA hp evs ⟨regs, s⟩ fun i => ⟨reachable_good (hreach i), hwired i, hread i, hm i⟩
  obtain ⟨st', o, h1, _, _, _, h5, _⟩ := stepU_fit ho hw pol hA hp st e2 i (.mirror true)
  obtain ⟨h6, mm, rfl, h7⟩ := h5 true rfl
  refine ⟨st, outs, st', mm, e1, ?_, by simpa using h7, h6⟩
  rw [runU_append _ _ _ _ _ _ _ e1]
  simp only [runU, h1, Option.map_some]

/-- C333. After every such history a read returns the bits the chip has and makes the mirror equal to the chip. -/
theorem C333_read {n : Nat} (order : Order) (ho : Reorders order) (w : Nat) (hw : 1 ≤ w) (pol : Nat → Nat → Option Acc) (ports : Fin n → Port)
    (hA : Apart ports) (hp : ∀ i, Auto (ports i)) (regs : Fin n → Reg) (hreach : ∀ i, Reachable (regs i)) (hread : ∀ i, AllReadable (regs i))
    (hwired : ∀ i, Wired w pol (ports i).addrs (regs i)) (s : Nat → Cell) (hm : ∀ i, SameAge (ports i).addrs s (regs i))
    (evs : List (Ev n)) (i : Fin n) :
    ∃ st outs st' v err, runU ports (onBus (chip w pol) order w ports) ⟨regs, s⟩ evs = some (st, outs) ∧
      runU ports (onBus (chip w pol) order w ports) ⟨regs, s⟩ (evs ++ [.op i .read]) = some (st', outs ++ [.got v true err]) ∧
      (∀ x ∈ (st.regs i).fields, ∀ j, j < x.f.size → v.testBit (x.lsb + j) = bitOf w (ports i).addrs st.dev (x.lsb + j)) ∧
      Mirrors w (ports i).addrs st'.dev (st'.regs i) := by
  obtain ⟨st, outs, e1, e2, _⟩ := runU_fit ho hw pol hA hp evs ⟨regs, s⟩ fun i => ⟨reachable_good (hreach i), hwired i, hread i, hm i⟩
  obtain ⟨st', o, h1, _, _, _, _, h6⟩ := stepU_fit ho hw pol hA hp st e2 i .read
  obtain ⟨h7, v, err, rfl, h8⟩ := h6 rfl
  refine ⟨st, outs, st', v, err, e1, ?_, h8, h7⟩
  rw [runU_append _ _ _ _ _ _ _ e1]
  simp only [runU, h1, Option.map_some]

/-- C333. Once the mirror of a register is equal to the chip it stays so, whatever is done with it and with the other registers, until its own words are
changed by something else. -/
theorem C333_stays {n : Nat} (order : Order) (ho : Reorders order) (w : Nat) (hw : 1 ≤ w) (pol : Nat → Nat → Option Acc) (ports : Fin n → Port)
    (hA : Apart ports) (hp : ∀ i, Auto (ports i)) (regs : Fin n → Reg) (hreach : ∀ i, Reachable (regs i)) (hread : ∀ i, AllReadable (regs i))
    (hwired : ∀ i, Wired w pol (ports i).addrs (regs i)) (s : Nat → Cell) (hm : ∀ i, SameAge (ports i).addrs s (regs i))
    (evs evs' : List (Ev n)) (i : Fin n) (hev : ∀ a bits, Ev.upset a bits ∈ evs' → a ∉ (ports i).addrs) :
    ∃ st outs st' outs', runU ports (onBus (chip w pol) order w ports) ⟨regs, s⟩ evs = some (st, outs) ∧
      runU ports (onBus (chip w pol) order w ports) ⟨regs, s⟩ (evs ++ evs') = some (st', outs ++ outs') ∧
      (Mirrors w (ports i).addrs st.dev (st.regs i) → Mirrors w (ports i).addrs st'.dev (st'.regs i)) := by
  obtain ⟨st, outs, e1, e2, _⟩ := runU_fit ho hw pol hA hp evs ⟨regs, s⟩ fun i => ⟨reachable_good (hreach i), hwired i, hread i, hm i⟩
  have key : ∀ (l : List (Ev n)) (st : RegSystem.State n (Nat → Cell)), (∀ j, Fit w pol (ports j).addrs st.dev (st.regs j)) →
      (∀ a bits, Ev.upset a bits ∈ l → a ∉ (ports i).addrs) →
      ∃ st' outs', runU ports (onBus (chip w pol) order w ports) st l = some (st', outs') ∧
        (Mirrors w (ports i).addrs st.dev (st.regs i) → Mirrors w (ports i).addrs st'.dev (st'.regs i)) := by
    intro l
    induction l with
    | nil => intro st _ _; exact ⟨st, [], rfl, id⟩
    | cons ev l ih =>
      intro st hF hl
      cases ev with
      | upset a bits =>
        obtain ⟨st', outs', q1, q2⟩ := ih { st with dev := upset st.dev a bits } (fun j => fit_upset (hF j) a bits) fun a b hb => hl a b (by simp [hb])
        refine ⟨st', outs', q1, fun hM => q2 ?_⟩
        have ha : a ∉ (ports i).addrs := hl a bits (by simp)
        refine mirrors_words (hF i).wired (fun b hb => ?_) hM
        exact if_neg fun (e : b = a) => ha (e ▸ hb)
      | op k o =>
        obtain ⟨st1, out, h1, h2, h3, _⟩ := stepU_fit ho hw pol hA hp st hF k o
        obtain ⟨st', outs', q1, q2⟩ := ih st1 h2 fun a b hb => hl a b (by simp [hb])
        refine ⟨st', out :: outs', by simp only [runU, h1, q1, Option.map_some], fun hM => q2 ?_⟩
        by_cases hk : i = k
        · subst hk
          obtain ⟨r', s', o', g1, g2, _⟩ := access_sound hw ho (hA.some i) (hA.once i) (hp i) ⟨(hF i).good, (hF i).wired, hM⟩ o
          have g1' : access (ports i) (onBus (chip w pol) order w ports i (st.regs i)) (st.regs i) st.dev o = some (r', s', o') := g1
          simp only [RegSystem.step, g1', Option.map_some, Option.some.injEq, Prod.mk.injEq] at h1
          obtain ⟨rfl, _⟩ := h1
          simpa using g2.mirrors
        · rw [(h3 i hk).1]
          exact mirrors_words (hF i).wired (h3 i hk).2 hM
  obtain ⟨st', outs', q1, q2⟩ := key evs' st e2 hev
  refine ⟨st, outs, st', outs', e1, ?_, q2⟩
  rw [runU_append _ _ _ _ _ _ _ e1, q1]; rfl

/-! ### The case of C330 with a chip that loses bits -/

example : ∀ i, SameAge (egPorts i).addrs egChip (egRegs i) := by
  intro i
  match i with
  | ⟨0, _⟩ => exact (by decide : ∀ x ∈ (egRegs 0).fields, ∀ a ∈ (egPorts 0).addrs, (egChip a).written = x.f.written)
  | ⟨1, _⟩ => exact (by decide : ∀ x ∈ (egRegs 1).fields, ∀ a ∈ (egPorts 1).addrs, (egChip a).written = x.f.written)

example : (runU egPorts (onBus (chip 2 egPol) List.reverse 2 egPorts) ⟨egRegs, egChip⟩
    [.op 0 (.write 0x3f), .op 0 (.mirror true), .upset 0x100 (fun b => b = 4), .op 1 (.mirror true), .op 0 (.mirror true), .op 0 (.mirror true), .op 0 .read]).map (·.2) =
    some [.wrote true, .mirrored [true] false, .mirrored [true] false, .mirrored [true] true, .mirrored [true] false, .got 0x10003f true false] := by
  decide +kernel

end Verif.RegChip
