import Verif.Lemmas.RegWatch
/-!
# C335: explicit prediction with several bus masters

Any number of registers of a chip that follows the documented access policies; operations through the model with automatic prediction off and
bus operations of other masters in any order, the words of different registers interleaved at will: the mirrors are what the chip has.
-/
namespace Verif.RegWatch
open Verif.Reg Verif.RegField Verif.RegAccess Verif.RegMap Verif.RegSystem Verif.RegConc Verif.RegChip
open Verif.RegPredictor (Conf Beat Pend St Transfer Assembles local2 view val about Targets)

/-- What is known of register `r` when the operations `ops` of other masters at its addresses came since it was known to be mirrored. -/
def Mid (c : Conf) (pol : Nat → Nat → Option Acc) (r : Nat) (g0 : Reg) (ev0 : List RegPredictor.Ev) (y : Sys (Nat → Cell)) (ops : List BusOp) : Prop :=
  ∃ s g ev, Sound c.w pol (c.addrs r) s g ∧ g.fields.map lay = g0.fields.map lay ∧
    (AllReadable g0 → ∀ e ∈ ev, e ∈ ev0 ∨ ∃ rd v, e = .predicted r rd v) ∧
    (∀ a ∈ c.addrs r, y.dev a = (traffic (chip c.w pol) (s, []) ops).1 a) ∧
    (traffic (chip c.w pol) (s, []) ops).2.foldlM (local2 c r) (g, none, ev) = some (view r y.st)

theorem sound_congr {w : Nat} {pol : Nat → Nat → Option Acc} {addrs : List Nat} {s s' : Nat → Cell} {g : Reg} (hs : ∀ a ∈ addrs, s' a = s a)
    (h : Sound w pol addrs s g) : Sound w pol addrs s' g := by
  refine ⟨h.good, h.wired, fun x hx => ⟨fun k hk => ?_, fun a ha => ?_⟩⟩
  · have hlt : x.lsb + k < 8 * w * addrs.length := Nat.lt_of_lt_of_le (by omega) (h.wired.fits x hx)
    have hm : wordOf w addrs (x.lsb + k) ∈ addrs := by rw [wordOf_get hlt]; exact List.getElem_mem _
    rw [(h.mirrors x hx).1 k hk, bitOf, bitOf, hs _ hm]
  · rw [hs a ha]; exact (h.mirrors x hx).2 a ha

theorem traffic_congr {w : Nat} {pol : Nat → Nat → Option Acc} {addrs : List Nat} (ops : List BusOp) (ho : ∀ op ∈ ops, op.addr ∈ addrs)
    {s s' : Nat → Cell} (l : List Beat) (hs : ∀ a ∈ addrs, s' a = s a) :
    (∀ a ∈ addrs, (traffic (chip w pol) (s', l) ops).1 a = (traffic (chip w pol) (s, l) ops).1 a) ∧
      (traffic (chip w pol) (s', l) ops).2 = (traffic (chip w pol) (s, l) ops).2 := by
  induction ops generalizing s s' l with
  | nil => exact ⟨hs, rfl⟩
  | cons op ops ih =>
    have hc := hs op.addr (ho op (by simp))
    have e : ∀ s : Nat → Cell, traffic (chip w pol) (s, l) (op :: ops) = traffic (chip w pol) ((watched (chip w pol) (s, l) op).1) ops := fun _ => rfl
    rw [e, e]
    have e2 : (watched (chip w pol) (s', l) op).1.2 = (watched (chip w pol) (s, l) op).1.2 := by
      simp [watched, chip, cellBus, hc]
    have := ih (fun o h => ho o (by simp [h])) (s := (watched (chip w pol) (s, l) op).1.1) (s' := (watched (chip w pol) (s', l) op).1.1)
      (watched (chip w pol) (s, l) op).1.2 (by
        intro a ha
        simp only [watched, chip, cellBus]
        split
        · rw [hc]
        · exact hs a ha)
    rw [← e2] at this
    conv at this => enter [1, a, ha, 2]; rw [e2]
    conv at this => enter [2, 2]; rw [e2]
    exact this

section
variable {c : Conf} {pol : Nat → Nat → Option Acc} {r : Nat} {g0 : Reg} {ev0 : List RegPredictor.Ev} (hw : 1 ≤ c.w) (hn : (c.addrs r).Nodup)
  (hne : c.addrs r ≠ []) (hrt : c.rights r = .RW)
include hw hn hne hrt

/-- Whole transfers leave the register mirrored. -/
theorem settle {l : List Ev} (h : Whole c.w (c.addrs r) l) {ops : List BusOp} (hl : l = ops.map .beat) {y : Sys (Nat → Cell)} (hm : Mid c pol r g0 ev0 y ops) :
    Mid c pol r g0 ev0 y [] := by
  induction h generalizing ops with
  | nil => 
    cases ops with
    | nil => exact hm
    | cons o l => simp at hl
  | op _ _ => cases ops <;> simp at hl
  | @transfer t es ht _ ih =>
    obtain ⟨l1, l2, rfl, h1, h2⟩ := List.map_eq_append_iff.1 hl.symm
    have h1 : l1 = t := by
      have inj : ∀ a b : List BusOp, a.map Ev.beat = b.map Ev.beat → a = b := by
        intro a
        induction a with
        | nil => intro b h; cases b <;> simp_all
        | cons x a ih =>
          intro b h
          cases b with
          | nil => simp at h
          | cons z b =>
            simp only [List.map_cons, List.cons.injEq, Ev.beat.injEq] at h
            rw [h.1, ih b h.2]
      exact inj _ _ h1
    subst h1
    obtain ⟨s, g, ev, i1, i2, i3, i4, i5⟩ := hm
    obtain ⟨g', ev', j1, j2, j3, _, j5⟩ := sound_transfer (pol := pol) hw hn hne hrt i1 l1 ht ev
    refine ih h2.symm ⟨(traffic (chip c.w pol) (s, []) l1).1, g', ev', j2, j3.trans i2, fun hR e he => ?_, ?_, ?_⟩
    · rcases j5 (readable_lay i2 hR) e he with h | h
      · exact i3 hR e h
      · exact .inr h
    · intro a ha
      rw [i4 a ha, traffic_append, show traffic (chip c.w pol) (s, []) l1 = ((traffic (chip c.w pol) (s, []) l1).1, (traffic (chip c.w pol) (s, []) l1).2) from rfl, traffic_log]
    · rw [traffic_append, show traffic (chip c.w pol) (s, []) l1 = ((traffic (chip c.w pol) (s, []) l1).1, (traffic (chip c.w pol) (s, []) l1).2) from rfl, traffic_log,
        List.foldlM_append, j1] at i5
      exact i5
end

theorem whole_split {w : Nat} {addrs : List Nat} {l : List Ev} (h : Whole w addrs l) {A : List BusOp} {r : Nat} {o : RegAccess.Op} {B : List Ev}
    (hl : l = A.map .beat ++ .op r o :: B) : Whole w addrs (A.map .beat) ∧ Whole w addrs B := by
  induction h generalizing A with
  | nil => simp at hl
  | @op r' o' es h ih =>
    cases A with
    | nil => simp only [List.map_nil, List.nil_append, List.cons.injEq] at hl; exact ⟨.nil, hl.2 ▸ h⟩
    | cons a A => simp at hl
  | @transfer t es ht h ih =>
    rcases List.append_eq_append_iff.1 hl with ⟨m, h1, h2⟩ | ⟨m, h1, h2⟩
    · obtain ⟨l1, l2, rfl, h3, h4⟩ := List.map_eq_append_iff.1 h1
      obtain ⟨k1, k2⟩ := ih (A := l2) (by rw [h2, h4])
      rw [List.map_append, h3, h4] at *
      exact ⟨.transfer ht k1, k2⟩
    · cases m with
      | nil =>
        simp only [List.append_nil, List.nil_append] at h1 h2
        obtain ⟨k1, k2⟩ := ih (A := []) h2.symm
        rw [← h1]
        exact ⟨by simpa using Whole.transfer ht .nil, k2⟩
      | cons x m =>
        simp only [List.cons_append, List.cons.injEq] at h2
        obtain ⟨l1, l2, _, _, h4⟩ := List.map_eq_append_iff.1 h1
        cases l2 with
        | nil => simp at h4
        | cons z l2 => 
          rw [List.map_cons, List.cons.injEq] at h4
          rw [← h4.1] at h2
          exact absurd h2.1 nofun

theorem targets_iff {c : Conf} (hM : Mapped c) (r : Nat) (b : Beat) : Targets c r b = true ↔ b.addr ∈ c.addrs r := by
  rw [Targets, beq_iff_eq]; exact hM _ _ _

section
variable {c : Conf} {pol : Nat → Nat → Option Acc} {order : Order} {ports : Nat → Port} (hM : Mapped c)
include hM

/-- The predictor sees beats for other registers only. -/
theorem view_other {r : Nat} {st : St} {bs : List Beat} (hb : ∀ b ∈ bs, b.addr ∉ c.addrs r ∧ b.be = -1) :
    ∃ t, RegPredictor.run c st bs = some t ∧ view r t = view r st := by
  obtain ⟨t, e⟩ := RegPredictor.C134_never_raises c st bs fun b h => (hb b h).2
  refine ⟨t, e, ?_⟩
  have := RegPredictor.view_run r bs e
  rw [List.filter_eq_nil_iff.2 (fun b h hT => (hb b h).1 ((targets_iff hM r b).1 hT))] at this
  simpa using this.symm

/-- The predictor sees beats for register `r` only. -/
theorem view_self {r : Nat} {st : St} {bs : List Beat} (hb : ∀ b ∈ bs, b.addr ∈ c.addrs r ∧ b.be = -1) :
    ∃ t, RegPredictor.run c st bs = some t ∧ bs.foldlM (local2 c r) (view r st) = some (view r t) := by
  obtain ⟨t, e⟩ := RegPredictor.C134_never_raises c st bs fun b h => (hb b h).2
  refine ⟨t, e, ?_⟩
  have := RegPredictor.view_run r bs e
  rwa [List.filter_eq_self.2 (fun b h => (targets_iff hM r b).2 (hb b h).1)] at this

theorem step_other (ho : Reorders order) (hp : ∀ r, Explicit (ports r)) (y : Sys (Nat → Cell)) (e : Ev) (r : Nat) (he : Concerns c r e = false) :
    ∃ y' outs, step c (chip c.w pol) order ports y e = some (y', outs) ∧ view r y'.st = view r y.st ∧ (∀ a ∈ c.addrs r, y'.dev a = y.dev a) ∧
      ∀ q ∈ outs, q.1 ≠ r := by
  cases e with
  | op r' o =>
    have hr : r' ≠ r := by simpa [Concerns] using he
    obtain ⟨g1, ops, out, h1, _, h3, _⟩ := access_ops ho (hp r') c.w pol (c.addrs r') (y.st.regs r') y.dev o
    have haddr : ∀ op ∈ ops, op.addr ∈ c.addrs r' := by
      intro op hop
      rcases h3 with rfl | h3
      · simp at hop
      · exact h3.once.mem_iff.1 (List.mem_map.2 ⟨op, hop, rfl⟩)
    have hno : ∀ a ∈ c.addrs r', a ∉ c.addrs r := by
      intro a h1 h2
      have e1 := (hM a true r').2 h1
      rw [(hM a true r).2 h2] at e1
      exact hr (Option.some.inj e1).symm
    obtain ⟨t, e1, e2⟩ := view_other (r := r) hM (st := { y.st with regs := fun x => if x = r' then g1 else y.st.regs x })
      (bs := (traffic (chip c.w pol) (y.dev, []) ops).2) (by
        intro b hb
        have := traffic_addrs (chip c.w pol) ops (y.dev, []) (c.addrs r') haddr (by simp) b hb
        exact ⟨hno _ this.1, this.2⟩)
    refine ⟨⟨t, (traffic (chip c.w pol) (y.dev, []) ops).1⟩, [(r', out)], by simp only [step, h1, Option.bind_some, e1]; rfl, ?_, ?_, by simpa using hr⟩
    · rw [e2]
      simp [view, Ne.symm hr]
    · intro a ha
      refine traffic_frame (cell := chipCell c.w pol) ops (y.dev, []) a fun hc => ?_
      obtain ⟨op, hop, rfl⟩ := List.mem_map.1 hc
      exact hno _ (haddr op hop) ha
  | beat op =>
    have hr : op.addr ∉ c.addrs r := by simpa [Concerns] using he
    obtain ⟨t, e1, e2⟩ := view_other (r := r) hM (st := y.st) (bs := (watched (chip c.w pol) (y.dev, []) op).1.2) (by
      intro b hb
      simp only [watched, List.nil_append, List.mem_singleton] at hb
      subst hb
      exact ⟨hr, rfl⟩)
    refine ⟨⟨t, (watched (chip c.w pol) (y.dev, []) op).1.1⟩, [], by simp only [step, e1]; rfl, e2, fun a ha => ?_, by simp⟩
    have : a ≠ op.addr := fun h => hr (h ▸ ha)
    simp [watched, chip, cellBus, this]

theorem step_beat {r : Nat} {g0 : Reg} {ev0 : List RegPredictor.Ev} {y : Sys (Nat → Cell)} {ops : List BusOp} (hm : Mid c pol r g0 ev0 y ops)
    (op : BusOp) (hop : op.addr ∈ c.addrs r) :
    ∃ y', step c (chip c.w pol) order ports y (.beat op) = some (y', []) ∧ Mid c pol r g0 ev0 y' (ops ++ [op]) := by
  obtain ⟨s, g, ev, i1, i2, i3, i4, i5⟩ := hm
  obtain ⟨t, e1, e2⟩ := view_self (r := r) hM (st := y.st) (bs := (watched (chip c.w pol) (y.dev, []) op).1.2) (by
    intro b hb
    simp only [watched, List.nil_append, List.mem_singleton] at hb
    subst hb
    exact ⟨hop, rfl⟩)
  refine ⟨⟨t, (watched (chip c.w pol) (y.dev, []) op).1.1⟩, by simp only [step, e1]; rfl, s, g, ev, i1, i2, i3, ?_, ?_⟩
  · intro a ha
    rw [traffic_append]
    simp only [traffic, List.foldl_cons, List.foldl_nil, watched, chip, cellBus]
    have h1 := i4 a ha
    have h2 := i4 op.addr hop
    simp only [traffic, watched, chip, cellBus] at h1 h2
    split
    · rw [h2]
    · exact h1
  · have h2 := i4 op.addr hop
    have hbeat : (watched (chip c.w pol) (y.dev, []) op).1.2 = (watched (chip c.w pol) ((traffic (chip c.w pol) (s, []) ops).1, []) op).1.2 := by
      simp only [watched, chip, cellBus, List.nil_append]
      rw [h2]; rfl
    rw [traffic_append, show traffic (chip c.w pol) (s, []) ops = ((traffic (chip c.w pol) (s, []) ops).1, (traffic (chip c.w pol) (s, []) ops).2) from rfl, traffic_log,
      List.foldlM_append, i5]
    rw [hbeat] at e2
    exact e2

theorem step_op (hw : 1 ≤ c.w) (ho : Reorders order) {r : Nat} (hn : (c.addrs r).Nodup) (hne : c.addrs r ≠ []) (hrt : c.rights r = .RW) (hp : Explicit (ports r))
    {g0 : Reg} {ev0 : List RegPredictor.Ev} {y : Sys (Nat → Cell)} (hm : Mid c pol r g0 ev0 y []) (o : RegAccess.Op) :
    ∃ y' out, step c (chip c.w pol) order ports y (.op r o) = some (y', [(r, out)]) ∧ Mid c pol r g0 ev0 y' [] ∧ AllOk out ∧
      (AllReadable g0 → (∀ st, out ≠ .mirrored st true) ∧ (o = .read → out = .got (getMirrored (y.st.regs r)) true false)) := by
  obtain ⟨s, g, ev, i1, i2, i3, i4, i5⟩ := hm
  simp only [traffic, List.foldl_nil, List.foldlM_nil, Option.pure_def, Option.some.injEq] at i4 i5
  have hg : g = y.st.regs r := congrArg (·.1) i5
  have hpend : y.st.pend.lookup r = none := (congrArg (·.2.1) i5).symm
  have hev : ev = about r y.st.log := congrArg (·.2.2) i5
  subst hg hev
  have hS := sound_congr i4 i1
  obtain ⟨g1, ops, out, h1, h2, h3, h4, h5⟩ := access_ops ho hp c.w pol (c.addrs r) (y.st.regs r) y.dev o
  have hS1 := sound_edited h2 hS
  have haddr : ∀ op ∈ ops, op.addr ∈ c.addrs r := by
    intro op hop
    rcases h3 with rfl | h3
    · simp at hop
    · exact h3.once.mem_iff.1 (List.mem_map.2 ⟨op, hop, rfl⟩)
  obtain ⟨t, e1, e2⟩ := view_self (r := r) hM (st := { y.st with regs := fun x => if x = r then g1 else y.st.regs x })
    (bs := (traffic (chip c.w pol) (y.dev, []) ops).2) (traffic_addrs (chip c.w pol) ops (y.dev, []) (c.addrs r) haddr (by simp))
  have hview : view r { y.st with regs := fun x => if x = r then g1 else y.st.regs x } = (g1, none, about r y.st.log) := by
    simp [view, hpend]
  rw [hview] at e2
  have hdev : ∀ t, ((regDev (chip c.w pol) order c.w (y.st.regs r).nBits (c.addrs r)).wr y.dev t).2 = true := by
    intro t
    obtain ⟨s', k1, _⟩ := dev_write hw ho hne hn (c := (ports r).cfg) (y.st.regs r).nBits hS t hp.bare rfl
    rw [k1]
  obtain ⟨s', v, k1, _, _, _, k2⟩ := dev_read hw ho hne hn (c := (ports r).cfg) (y.st.regs r).nBits hS hp.bare
  refine ⟨⟨t, (traffic (chip c.w pol) (y.dev, []) ops).1⟩, out, by simp only [step, h1, Option.bind_some, e1]; rfl, ?_, h4 hdev (by rw [k1]), fun hR => ?_⟩
  · rcases h3 with rfl | h3
    · simp only [traffic, List.foldl_nil, List.foldlM_nil, Option.pure_def, Option.some.injEq] at e2
      exact ⟨y.dev, g1, about r y.st.log, hS1.1, hS1.2.trans i2, i3, fun _ _ => rfl, by simp [traffic, e2]⟩
    · obtain ⟨g', ev', j1, j2, j3, _, j5⟩ := sound_transfer (pol := pol) hw hn hne hrt hS1.1 ops h3 (about r y.st.log)
      rw [j1, Option.some.injEq] at e2
      refine ⟨_, g', ev', j2, j3.trans (hS1.2.trans i2), fun hR e he => ?_, fun _ _ => rfl, by simp [traffic, e2]⟩
      rcases j5 (readable_lay (hS1.2.trans i2) hR) e he with h | h
      · exact i3 hR e h
      · exact .inr h
  · have := h5 (by rw [k1]; exact k2 (readable_lay i2 hR))
    rw [k1] at this
    exact this

theorem run_mid (hw : 1 ≤ c.w) (ho : Reorders order) {r : Nat} (hn : (c.addrs r).Nodup) (hne : c.addrs r ≠ []) (hrt : c.rights r = .RW) (hp : ∀ r, Explicit (ports r))
    (evs : List Ev) {g0 : Reg} {ev0 : List RegPredictor.Ev} {y : Sys (Nat → Cell)} {ops : List BusOp} (hm : Mid c pol r g0 ev0 y ops)
    (hW : Whole c.w (c.addrs r) (ops.map .beat ++ evs.filter (Concerns c r))) :
    ∃ y' outs, run c (chip c.w pol) order ports y evs = some (y', outs) ∧ Mid c pol r g0 ev0 y' [] ∧
      (∀ q ∈ outs, q.1 = r → AllOk q.2 ∧ (AllReadable g0 → ∀ st, q.2 ≠ .mirrored st true)) := by
  induction evs generalizing y ops with
  | nil =>
    rw [List.filter_nil, List.append_nil] at hW
    exact ⟨y, [], rfl, settle hw hn hne hrt hW rfl hm, by simp⟩
  | cons e evs ih =>
    cases he : Concerns c r e with
    | false =>
      rw [List.filter_cons_of_neg (by simp [he])] at hW
      obtain ⟨y', outs, h1, h2, h3, h4⟩ := step_other (pol := pol) hM ho hp y e r he
      obtain ⟨s, g, ev, i1, i2, i3, i4, i5⟩ := hm
      obtain ⟨z, outs', k1, k2, k3⟩ := ih (y := y') ⟨s, g, ev, i1, i2, i3, fun a ha => (h3 a ha).trans (i4 a ha), h2 ▸ i5⟩ hW
      refine ⟨z, outs ++ outs', by simp [run, h1, k1], k2, fun q hq hr => ?_⟩
      rcases List.mem_append.1 hq with hq | hq
      · exact absurd hr (h4 q hq)
      · exact k3 q hq hr
    | true =>
      rw [List.filter_cons_of_pos (by simp [he])] at hW
      cases e with
      | beat op =>
        obtain ⟨y', h1, h2⟩ := step_beat (pol := pol) (order := order) (ports := ports) hM hm op (by simpa [Concerns] using he)
        obtain ⟨z, outs', k1, k2, k3⟩ := ih h2 (by simpa using hW)
        exact ⟨z, outs', by simp [run, h1, k1], k2, k3⟩
      | op r' o =>
        have hr : r' = r := by simpa [Concerns] using he
        subst hr
        obtain ⟨w1, w2⟩ := whole_split hW rfl
        obtain ⟨y', out, h1, h2, h3, h4⟩ := step_op (pol := pol) hM hw ho hn hne hrt (hp r') (settle hw hn hne hrt w1 rfl hm) o
        obtain ⟨z, outs', k1, k2, k3⟩ := ih (ops := []) h2 (by simpa using w2)
        refine ⟨z, (r', out) :: outs', by simp [run, h1, k1], k2, fun q hq hr => ?_⟩
        rcases List.mem_cons.1 hq with hq | hq
        · subst hq; exact ⟨h3, fun hR => (h4 hR).1⟩
        · exact k3 q hq hr

end

theorem mid_start {c : Conf} {pol : Nat → Nat → Option Acc} {r : Nat} {y : Sys (Nat → Cell)} (hreach : Reachable (y.st.regs r))
    (hwired : Wired c.w pol (c.addrs r) (y.st.regs r)) (hm : Mirrors c.w (c.addrs r) y.dev (y.st.regs r)) (hpend : y.st.pend.lookup r = none) :
    Mid c pol r (y.st.regs r) (about r y.st.log) y [] :=
  ⟨y.dev, y.st.regs r, about r y.st.log, ⟨reachable_good hreach, hwired, hm⟩, rfl, fun _ e he => .inl he, fun _ _ => rfl, by simp [traffic, view, hpend]⟩

theorem mid_end {c : Conf} {pol : Nat → Nat → Option Acc} {r : Nat} {g0 : Reg} {ev0 : List RegPredictor.Ev} {y : Sys (Nat → Cell)} (hm : Mid c pol r g0 ev0 y []) :
    Sound c.w pol (c.addrs r) y.dev (y.st.regs r) ∧ (y.st.regs r).fields.map lay = g0.fields.map lay ∧ y.st.pend.lookup r = none ∧
      (AllReadable g0 → ∀ e ∈ about r y.st.log, e ∈ ev0 ∨ ∃ rd v, e = .predicted r rd v) := by
  obtain ⟨s, g, ev, i1, i2, i3, i4, i5⟩ := hm
  simp only [traffic, List.foldl_nil, List.foldlM_nil, Option.pure_def, Option.some.injEq] at i4 i5
  have hg : g = y.st.regs r := congrArg (·.1) i5
  have hev : ev = about r y.st.log := congrArg (·.2.2) i5
  subst hg hev
  exact ⟨sound_congr i4 i1, i2, (congrArg (·.2.1) i5).symm, i3⟩

/-- C335. Whatever is done through the model and whatever other masters do, as long as they transfer the register as a whole: no exception, the mirror of
the register is what the chip has, and the predictor waits for nothing. -/
theorem C335_mirrors (c : Conf) (hM : Mapped c) (hw : 1 ≤ c.w) (order : Order) (ho : Reorders order) (pol : Nat → Nat → Option Acc) (ports : Nat → Port)
    (hp : ∀ r, Explicit (ports r)) (y : Sys (Nat → Cell)) (r : Nat) (hn : (c.addrs r).Nodup) (hne : c.addrs r ≠ []) (hrt : c.rights r = .RW)
    (hreach : Reachable (y.st.regs r)) (hwired : Wired c.w pol (c.addrs r) (y.st.regs r)) (hm : Mirrors c.w (c.addrs r) y.dev (y.st.regs r))
    (hpend : y.st.pend.lookup r = none) (evs : List Ev) (hW : Whole c.w (c.addrs r) (evs.filter (Concerns c r))) :
    ∃ y' outs, run c (chip c.w pol) order ports y evs = some (y', outs) ∧ Mirrors c.w (c.addrs r) y'.dev (y'.st.regs r) ∧ y'.st.pend.lookup r = none ∧
      ∀ out, (r, out) ∈ outs → AllOk out := by
  obtain ⟨y', outs, h1, h2, h3⟩ := run_mid hM hw ho hn hne hrt hp evs (mid_start hreach hwired hm hpend) (by simpa using hW)
  have := mid_end h2
  exact ⟨y', outs, h1, this.1.mirrors, this.2.2.1, fun out ho => (h3 _ ho rfl).1⟩

/-- C335. If every field can be read: neither the predictor nor a mirror with check reports a mismatch, and all the predictor reports of the register are predictions. -/
theorem C335_no_mismatch (c : Conf) (hM : Mapped c) (hw : 1 ≤ c.w) (order : Order) (ho : Reorders order) (pol : Nat → Nat → Option Acc) (ports : Nat → Port)
    (hp : ∀ r, Explicit (ports r)) (y : Sys (Nat → Cell)) (r : Nat) (hn : (c.addrs r).Nodup) (hne : c.addrs r ≠ []) (hrt : c.rights r = .RW)
    (hreach : Reachable (y.st.regs r)) (hread : AllReadable (y.st.regs r)) (hwired : Wired c.w pol (c.addrs r) (y.st.regs r))
    (hm : Mirrors c.w (c.addrs r) y.dev (y.st.regs r)) (hpend : y.st.pend.lookup r = none) (hlog : about r y.st.log = [])
    (evs : List Ev) (hW : Whole c.w (c.addrs r) (evs.filter (Concerns c r))) :
    ∃ y' outs, run c (chip c.w pol) order ports y evs = some (y', outs) ∧ (∀ status, (r, Out.mirrored status true) ∉ outs) ∧
      ∀ e ∈ about r y'.st.log, ∃ rd v, e = .predicted r rd v := by
  obtain ⟨y', outs, h1, h2, h3⟩ := run_mid hM hw ho hn hne hrt hp evs (mid_start hreach hwired hm hpend) (by simpa using hW)
  refine ⟨y', outs, h1, fun status ho => (h3 _ ho rfl).2 hread status rfl, fun e he => ?_⟩
  rcases (mid_end h2).2.2.2 hread e he with h | h
  · rw [hlog] at h; simp at h
  · exact h

/-- C335. A read through the model at the end returns what the mirror had before the read. -/
theorem C335_read (c : Conf) (hM : Mapped c) (hw : 1 ≤ c.w) (order : Order) (ho : Reorders order) (pol : Nat → Nat → Option Acc) (ports : Nat → Port)
    (hp : ∀ r, Explicit (ports r)) (y : Sys (Nat → Cell)) (r : Nat) (hn : (c.addrs r).Nodup) (hne : c.addrs r ≠ []) (hrt : c.rights r = .RW)
    (hreach : Reachable (y.st.regs r)) (hread : AllReadable (y.st.regs r)) (hwired : Wired c.w pol (c.addrs r) (y.st.regs r))
    (hm : Mirrors c.w (c.addrs r) y.dev (y.st.regs r)) (hpend : y.st.pend.lookup r = none) (evs : List Ev)
    (hW : Whole c.w (c.addrs r) (evs.filter (Concerns c r))) :
    ∃ y' outs, run c (chip c.w pol) order ports y evs = some (y', outs) ∧
      (run c (chip c.w pol) order ports y (evs ++ [.op r .read])).map (·.2) = some (outs ++ [(r, .got (getMirrored (y'.st.regs r)) true false)]) := by
  obtain ⟨y', outs, h1, h2, _⟩ := run_mid hM hw ho hn hne hrt hp evs (mid_start hreach hwired hm hpend) (by simpa using hW)
  refine ⟨y', outs, h1, ?_⟩
  obtain ⟨y2, out, k1, _, _, k4⟩ := step_op (pol := pol) hM hw ho hn hne hrt (hp r) h2 .read
  have happ : ∀ (a b : List Ev) (y y1 : Sys (Nat → Cell)) (o1 : List (Nat × Out)), run c (chip c.w pol) order ports y a = some (y1, o1) →
      run c (chip c.w pol) order ports y (a ++ b) = (run c (chip c.w pol) order ports y1 b).map fun z => (z.1, o1 ++ z.2) := by
    intro a
    induction a with
    | nil => intro b y y1 o1 h; cases h; simp
    | cons e a ih =>
      intro b y y1 o1 h
      simp only [run] at h
      obtain ⟨q, hq, h⟩ := Option.bind_eq_some_iff.1 h
      obtain ⟨z, hz, h⟩ := Option.map_eq_some_iff.1 h
      simp only [Prod.mk.injEq] at h
      obtain ⟨rfl, rfl⟩ := h
      simp only [List.cons_append, run, hq, Option.bind_some, ih b _ _ _ hz, Option.map_map]
      cases run c (chip c.w pol) order ports z.1 b <;> simp
  rw [happ _ _ _ _ _ h1]
  simp [run, k1, (k4 hread).2 rfl]

/-! ### A case: the registers of Props/RegChip, another master writes one of them and reads the other, word by word, interleaved -/

def egConf : Conf where
  rg a _ := if a = 0x102 ∨ a = 0x100 then some 0 else if a = 0x104 then some 1 else none
  addrs r := if r = 0 then [0x102, 0x100] else if r = 1 then [0x104] else []
  w := 2
  rights _ := .RW
  check _ := true

def egSys : Sys (Nat → Cell) := ⟨{ regs := fun r => if r = 0 then egRegs 0 else egRegs 1 }, egChip⟩
def egPort (_ : Nat) : Port := { cfg := { route := .front .RW, auto := false, check := false }, addrs := [] }
def egOp (kind : Dir) (addr data : Nat) : BusOp := { kind := kind, addr := addr, data := data, nBits := 16, byteEn := 3 }

def egEvents : List Ev := [.op 0 (.set 0x300015), .beat (egOp .write 0x100 0x30), .op 1 (.write 0x1234), .beat (egOp .write 0x102 0x3f), .beat (egOp .read 0x102 0),
  .beat (egOp .read 0x104 0), .beat (egOp .read 0x100 0), .op 0 (.mirror true), .op 1 .read, .op 0 .read]

example : Mapped egConf := by
  intro a read r
  by_cases h1 : a = 0x102
  · subst h1; simp only [egConf]; by_cases h : r = 0 <;> by_cases h' : r = 1 <;> simp_all [eq_comm]
  · by_cases h2 : a = 0x100
    · subst h2; simp only [egConf]; by_cases h : r = 0 <;> by_cases h' : r = 1 <;> simp_all [eq_comm]
    · by_cases h3 : a = 0x104
      · subst h3; simp only [egConf]; by_cases h : r = 0 <;> by_cases h' : r = 1 <;> simp_all [eq_comm]
      · simp only [egConf]; by_cases h : r = 0 <;> by_cases h' : r = 1 <;> simp_all

example : ∀ r, Explicit (egPort r) := fun _ => ⟨rfl, rfl, fun _ => rfl, quiet_default, quiet_default, quiet_default, quiet_default⟩

example : Whole 2 (egConf.addrs 0) (egEvents.filter (Concerns egConf 0)) := by
  have h1 : IsTransfer 2 [0x102, 0x100] [egOp .write 0x100 0x30, egOp .write 0x102 0x3f] := ⟨by decide, by decide, by decide⟩
  have h2 : IsTransfer 2 [0x102, 0x100] [egOp .read 0x102 0, egOp .read 0x100 0] := ⟨by decide, by decide, by decide⟩
  exact .op (.transfer h1 (.transfer h2 (.op (.op .nil))))

example : (run egConf (chip 2 egPol) List.reverse egPort egSys egEvents).map (·.2) =
    some [(0, .done), (1, .wrote true), (0, .mirrored [true] false), (1, .got 0x1234 true false), (0, .got 0xc0003f true false)] := by decide +kernel

end Verif.RegWatch
