import Verif.Spec.RegParSet
import Verif.Props.RegPar
/-!
# C340, C341: desired values set while accesses are under way

The mirrors follow the chip whatever is set meanwhile; what is set while a write to the register is on the bus is lost.
-/
namespace Verif.RegPar
open Verif.Reg Verif.RegField Verif.RegAccess Verif.RegMap Verif.RegSystem Verif.RegConc Verif.RegChip

section
variable {order : Order} {w : Nat} {pol : Nat → Nat → Option Acc}

/-- What is known of register `i`, of which `k` operations have been asked for. -/
structure Inv (order : Order) (w : Nat) (pol : Nat → Nat → Option Acc) (p : Port) (r0 : Reg) (k : Nat) (t : Task) (dev : Nat → Cell) : Prop where
  within : Within p t
  alive : t.dead = false
  lay : t.reg.fields.map lay = r0.fields.map lay
  ok : ∀ o ∈ t.log, AllOk o
  agree : AllReadable r0 → ∀ status, Out.mirrored status true ∉ t.log
  count : t.log.length + (if t.cur.isSome then 1 else 0) + t.queue.length = k
  still : t.cur = none → Sound w pol p.addrs dev t.reg
  under : ∀ g, t.cur = some g → Fit g.op g.req ∧ ∃ s0 s1 nb, Sound w pol p.addrs s0 t.reg ∧ Same p dev s1 ∧
    flush (chip w pol) w g.flight s1 = serve (regDev (chip w pol) order w nb p.addrs) s0 g.req ∧
    (AllReadable r0 → g.req = .read → (serve (regDev (chip w pol) order w nb p.addrs) s0 g.req).2 = .got (getMirrored g.seen) true)

theorem sound_same {p : Port} {s s' : Nat → Cell} (hs : Same p s s') {r : Reg} (h : Sound w pol p.addrs s' r) : Sound w pol p.addrs s r := by
  refine ⟨h.good, h.wired, fun x hx => ⟨fun k hk => ?_, fun a ha => ?_⟩⟩
  · have hlt : x.lsb + k < 8 * w * p.addrs.length := Nat.lt_of_lt_of_le (by omega) (h.wired.fits x hx)
    have hm : wordOf w p.addrs (x.lsb + k) ∈ p.addrs := by rw [wordOf_get hlt]; exact List.getElem_mem _
    rw [(h.mirrors x hx).1 k hk, bitOf, bitOf, hs _ hm]
  · rw [hs a ha]; exact (h.mirrors x hx).2 a ha

theorem same_refl {γ} (p : Port) (s : Nat → γ) : Same p s s := fun _ _ => rfl

/-- An operation up to the bus, on a register with automatic prediction and hooks that leave the item alone. -/
theorem begin_auto {p : Port} (hp : Auto p) (r : Reg) (op : RegAccess.Op) :
    (∃ f : Reg → Reg, begin p r op = .done (f r) .done ∧ ((∃ v, f = fun r => Reg.set r v) ∨ ∃ k v, f = fun r => Reg.step r (.fieldOp k (.set v)))) ∨
    begin p r op = .done r (.updated []) ∨ (begin p r op = .ask r .read ∧ Fit op .read) ∨ ∃ (v : Int) (u : Nat), begin p r op = .ask (Reg.set r v) (.write u) ∧ Fit op (.write u) := by
  cases op with
  | set v => exact .inl ⟨_, rfl, .inl ⟨v, rfl⟩⟩
  | setField k v => exact .inl ⟨_, rfl, .inr ⟨k, v, rfl⟩⟩
  | write v => exact .inr (.inr (.inr ⟨v, v % 2 ^ r.nBits, by simp [begin, beginWrite, preWrite_quiet hp.preW]; rfl, trivial⟩))
  | read => exact .inr (.inr (.inl ⟨by simp [begin, beginRead, preRead_quiet hp.preR], trivial⟩))
  | mirror b => exact .inr (.inr (.inl ⟨by simp [begin, beginRead, preRead_quiet hp.preR], trivial⟩))
  | update =>
    cases hn : needsUpdate r with
    | false => exact .inr (.inl (by simp [begin, hn]))
    | true => exact .inr (.inr (.inr ⟨updateValue r, updateValue r % 2 ^ r.nBits, by simp [begin, hn, beginWrite, preWrite_quiet hp.preW]; rfl, trivial⟩))

variable {p : Port}

/-- Setting changes neither the mirror nor the layout. -/
theorem sound_set {r : Reg} {s : Nat → Cell} (h : Sound w pol p.addrs s r) (v : Int) :
    Sound w pol p.addrs s (Reg.set r v) ∧ (Reg.set r v).fields.map Verif.RegChip.lay = r.fields.map Verif.RegChip.lay := by
  have hl : (Reg.set r v).fields.map Verif.RegChip.lay = r.fields.map Verif.RegChip.lay := by simp only [Reg.set, List.map_map]; rfl
  refine ⟨⟨good_set h.good v, wired_lay hl h.wired, fun x hx => ?_⟩, hl⟩
  obtain ⟨y, hy, rfl⟩ := List.mem_map.1 hx
  exact h.mirrors y hy

theorem sound_setField {r : Reg} {s : Nat → Cell} (h : Sound w pol p.addrs s r) (k : Nat) (v : Int) :
    Sound w pol p.addrs s (Reg.step r (.fieldOp k (.set v))) ∧
      (Reg.step r (.fieldOp k (.set v))).fields.map Verif.RegChip.lay = r.fields.map Verif.RegChip.lay := by
  have hl : (Reg.step r (.fieldOp k (.set v))).fields.map Verif.RegChip.lay = r.fields.map Verif.RegChip.lay := by
    apply List.ext_getElem?
    intro j
    simp only [Reg.step, List.getElem?_map, List.getElem?_modify]
    cases r.fields[j]? with
    | none => rfl
    | some x =>
      simp only [Option.map_some]
      split <;> rfl
  refine ⟨⟨(good_step h.good _).1, wired_lay hl h.wired, fun y hy => ?_⟩, hl⟩
  simp only [Reg.step] at hy
  obtain ⟨j, hj⟩ := List.mem_iff_getElem?.1 hy
  rw [List.getElem?_modify] at hj
  obtain ⟨x, hx, rfl⟩ := Option.map_eq_some_iff.1 hj
  have := h.mirrors x (List.mem_of_getElem? hx)
  split
  · exact this
  · exact this

/-- A change that keeps mirror and layout keeps what is known. -/
theorem inv_change {r0 : Reg} {k : Nat} {t : Task} {dev : Nat → Cell} (h : Inv order w pol p r0 k t dev) (f : Reg → Reg)
    (hf : ∀ s r, Sound w pol p.addrs s r → Sound w pol p.addrs s (f r) ∧ (f r).fields.map Verif.RegChip.lay = r.fields.map Verif.RegChip.lay) :
    Inv order w pol p r0 k { t with reg := f t.reg } dev := by
  refine ⟨h.within, h.alive, ?_, h.ok, h.agree, h.count, fun hc => (hf _ _ (h.still hc)).1, fun g hg => ?_⟩
  · cases hc : t.cur with
    | none => exact (hf _ _ (h.still hc)).2.trans h.lay
    | some g =>
      obtain ⟨_, s0, s1, nb, e1, _⟩ := h.under g hc
      exact (hf _ _ e1).2.trans h.lay
  · obtain ⟨e0, s0, s1, nb, e1, e2⟩ := h.under g hg
    exact ⟨e0, s0, s1, nb, (hf _ _ e1).1, e2⟩

variable (ho : Reorders order) (hw : 1 ≤ w) (hp : Auto p) (hne : p.addrs ≠ []) (hn : p.addrs.Nodup)
include ho hw hp hne hn

theorem inv_go {r0 : Reg} {k : Nat} {t : Task} {dev : Nat → Cell} (h : Inv order w pol p r0 k t dev) :
    Inv order w pol p r0 k (t.step (chip w pol) order w p dev).1 (t.step (chip w pol) order w p dev).2 := by
  have hin := within_step (chip w pol) ho w h.within dev
  cases hc : t.cur with
  | none =>
    cases hq : t.queue with
    | nil =>
      have hs : t.step (chip w pol) order w p dev = (t, dev) := by simp [Task.step, h.alive, hc, hq]
      rw [hs]; exact h
    | cons op ops =>
      have hS := h.still hc
      have hcnt := h.count
      rw [hq, hc] at hcnt
      simp only [Option.isSome_none, Bool.false_eq_true, if_false, List.length_cons] at hcnt
      rcases begin_auto hp t.reg op with ⟨f, e, hf⟩ | e | ⟨e, e'⟩ | ⟨v, u, e, e'⟩
      · have hs : t.step (chip w pol) order w p dev = ({ t with reg := f t.reg, queue := ops, log := t.log ++ [.done] }, dev) := by simp [Task.step, h.alive, hc, hq, e]
        rw [hs] at hin ⊢
        have hf' : Sound w pol p.addrs dev (f t.reg) ∧ (f t.reg).fields.map Verif.RegChip.lay = t.reg.fields.map Verif.RegChip.lay := by
          rcases hf with ⟨v, rfl⟩ | ⟨j, v, rfl⟩
          · exact sound_set hS v
          · exact sound_setField hS j v
        refine ⟨hin, h.alive, hf'.2.trans h.lay, ?_, ?_, ?_, fun _ => hf'.1, fun g hg => by simp [hc] at hg⟩
        · intro o ho'
          rcases List.mem_append.1 ho' with ho' | ho'
          · exact h.ok o ho'
          · simp at ho'; subst ho'; trivial
        · intro hR st hm
          rcases List.mem_append.1 hm with hm | hm
          · exact h.agree hR st hm
          · simp at hm
        · simp [hc]; omega
      · have hs : t.step (chip w pol) order w p dev = ({ t with reg := t.reg, queue := ops, log := t.log ++ [.updated []] }, dev) := by simp [Task.step, h.alive, hc, hq, e]
        rw [hs] at hin ⊢
        refine ⟨hin, h.alive, h.lay, ?_, ?_, ?_, fun _ => hS, fun g hg => by simp [hc] at hg⟩
        · intro o ho'
          rcases List.mem_append.1 ho' with ho' | ho'
          · exact h.ok o ho'
          · simp at ho'; subst ho'; simp [AllOk]
        · intro hR st hm
          rcases List.mem_append.1 hm with hm | hm
          · exact h.agree hR st hm
          · simp at hm
        · simp [hc]; omega
      · have hs : t.step (chip w pol) order w p dev = ({ t with reg := t.reg, queue := ops, cur := some ⟨op, t.reg, .read, start ⟨order, w, t.reg.nBits, p.addrs⟩ .read⟩ }, dev) := by simp [Task.step, h.alive, hc, hq, e]
        rw [hs] at hin ⊢
        refine ⟨hin, h.alive, h.lay, h.ok, h.agree, by simp; omega, by simp, fun g hg => ?_⟩
        simp only [Option.some.injEq] at hg
        subst hg
        refine ⟨e', dev, dev, t.reg.nBits, hS, same_refl _ _, flush_start (chip w pol) order w t.reg.nBits p.addrs .read dev, fun hR _ => ?_⟩
        obtain ⟨s', v, d1, _, _, _, d5⟩ := dev_read hw ho hne hn t.reg.nBits hS hp.bare
        simp only [serve, d1, d5 (readable_lay h.lay hR)]
      · have hs : t.step (chip w pol) order w p dev = ({ t with reg := Reg.set t.reg v, queue := ops, cur := some ⟨op, Reg.set t.reg v, .write u, start ⟨order, w, t.reg.nBits, p.addrs⟩ (.write u)⟩ }, dev) := by simp [Task.step, h.alive, hc, hq, e]
        rw [hs] at hin ⊢
        obtain ⟨f1, f2⟩ := sound_set hS v
        refine ⟨hin, h.alive, f2.trans h.lay, h.ok, h.agree, by simp; omega, by simp, fun g hg => ?_⟩
        simp only [Option.some.injEq] at hg
        subst hg
        exact ⟨e', dev, dev, t.reg.nBits, f1, same_refl _ _, flush_start (chip w pol) order w t.reg.nBits p.addrs (.write u) dev, fun _ => nofun⟩
  | some g =>
    obtain ⟨e0, s0, s1, nb, e1, e2, e3, e4⟩ := h.under g hc
    have hcnt := h.count
    rw [hc] at hcnt
    simp only [Option.isSome_some, if_true] at hcnt
    cases ht : g.flight.todo with
    | nil =>
      rw [flush_nil _ _ _ ht] at e3
      have hrt : rights p = .RW := by simp [rights, hp.rw]
      have hW : ∀ v, g.req = .write v → ∃ r', Sound w pol p.addrs dev r' ∧ r'.fields.map Verif.RegChip.lay = t.reg.fields.map Verif.RegChip.lay ∧ g.flight.res = .wrote true ∧
          endWrite p t.reg v true = some (r', true) := by
        intro v hv
        obtain ⟨s', d1, _, d3, d4⟩ := dev_write hw ho hne hn nb e1 v hp.bare (b := t.reg.busy) rfl
        rw [hv] at e3
        simp only [serve, d1, Prod.mk.injEq] at e3
        obtain ⟨rfl, e3⟩ := e3
        refine ⟨_, sound_same e2 d3, d4, e3, ?_⟩
        simp [endWrite, hp.auto, hrt, predict_front hp.bare, postWrite_quiet hp.postW]
      have hR : g.req = .read → ∃ r' v err, Sound w pol p.addrs dev r' ∧ r'.fields.map Verif.RegChip.lay = t.reg.fields.map Verif.RegChip.lay ∧ g.flight.res = .got v true ∧
          endRead p g.seen t.reg v true = some (r', true, err) ∧ (AllReadable r0 → v = getMirrored g.seen) := by
        intro hv
        obtain ⟨s', v, d1, _, d3, d4, _⟩ := dev_read hw ho hne hn nb e1 hp.bare
        rw [hv] at e3 e4
        simp only [serve, d1, Prod.mk.injEq] at e3 e4
        obtain ⟨rfl, e3⟩ := e3
        refine ⟨_, v, p.cfg.check && !(doCheck t.reg .RW (Reg.get g.seen) v), sound_same e2 d3, d4, e3, ?_, fun h => ?_⟩
        · simp [endRead, hp.auto, hrt, predict_front hp.bare, postRead_quiet hp.postR]
        · have := e4 h trivial
          simpa using this
      have hfin : ∃ x, finish p g.seen t.reg g.op g.req g.flight.res = some x ∧ Sound w pol p.addrs dev x.1 ∧ x.1.fields.map Verif.RegChip.lay = t.reg.fields.map Verif.RegChip.lay ∧
          AllOk x.2 ∧ (AllReadable r0 → ∀ st, x.2 ≠ .mirrored st true) := by
        cases hq : g.req with
        | write v =>
          obtain ⟨r', k1, k2, k3, k4⟩ := hW v hq
          rw [hq] at e0
          cases hop : g.op with
          | write u => exact ⟨(r', .wrote true), by simp [finish, k3, k4], k1, k2, rfl, fun _ _ => nofun⟩
          | update => exact ⟨(r', .updated [true]), by simp [finish, k3, k4], k1, k2, by simp [AllOk], fun _ _ => nofun⟩
          | set u => rw [hop] at e0; exact e0.elim
          | setField j u => rw [hop] at e0; exact e0.elim
          | read => rw [hop] at e0; exact e0.elim
          | mirror b => rw [hop] at e0; exact e0.elim
        | read =>
          obtain ⟨r', v, err, k1, k2, k3, k4, k5⟩ := hR hq
          rw [hq] at e0
          cases hop : g.op with
          | write u => rw [hop] at e0; exact e0.elim
          | update => rw [hop] at e0; exact e0.elim
          | set u => rw [hop] at e0; exact e0.elim
          | setField j u => rw [hop] at e0; exact e0.elim
          | read => exact ⟨(r', .got v true err), by simp [finish, k3, k4], k1, k2, rfl, fun _ _ => nofun⟩
          | mirror b =>
            refine ⟨(r', .mirrored [true] (b && !(doCheck r' p.rt (getMirrored g.seen) v))), by simp [finish, k3, k4], k1, k2, by simp [AllOk], fun hA st hst => ?_⟩
            rw [k5 hA] at hst
            simp [doCheck] at hst
      obtain ⟨x, x1, x2, x3, x4, x5⟩ := hfin
      have hs : t.step (chip w pol) order w p dev = ({ t with reg := x.1, cur := none, log := t.log ++ [x.2] }, dev) := by
        simp [Task.step, h.alive, hc, ht, x1]
      rw [hs] at hin ⊢
      refine ⟨hin, h.alive, x3.trans h.lay, ?_, ?_, by simp; omega, fun _ => x2, nofun⟩
      · intro o ho'
        rcases List.mem_append.1 ho' with ho' | ho'
        · exact h.ok o ho'
        · simp at ho'; subst ho'; exact x4
      · intro hA st hm
        rcases List.mem_append.1 hm with hm | hm
        · exact h.agree hA st hm
        · simp at hm; exact x5 hA st hm.symm
    | cons op ops =>
      have hs : t.step (chip w pol) order w p dev =
          ({ t with cur := some { g with flight := (beat (chip w pol) w g.flight op ops dev).1 } }, (beat (chip w pol) w g.flight op ops dev).2) := by
        simp [Task.step, h.alive, hc, ht]
      rw [hs] at hin ⊢
      have hsame := beat_same (chipCell w pol) (p := ⟨order, w, 0, p.addrs⟩) e2 w g.flight op ops (h.within g hc op (by rw [ht]; simp))
      refine ⟨hin, h.alive, h.lay, h.ok, h.agree, by simpa using hcnt, nofun, fun g' hg => ?_⟩
      simp only [Option.some.injEq] at hg
      subst hg
      refine ⟨e0, s0, (beat (chip w pol) w g.flight op ops s1).2, nb, e1, hsame.2, ?_, e4⟩
      show flush (chip w pol) w (beat (chip w pol) w g.flight op ops dev).1 _ = _
      rw [show (beat (chip w pol) w g.flight op ops dev).1 = (beat (chip w pol) w g.flight op ops s1).1 from hsame.1, flush_beat _ _ _ _ _ ht, e3]
end

/-- C340. In a chip that follows the documented access policies, with any process setting desired values of any register at any time, also while the register is being
accessed: no operation raises, all that returned reported OK, no mirror with check reports a mismatch if all fields of its register can be read; and whenever no
operation on a register is under way, its mirror is what the chip has and every operation asked for has returned. -/
theorem C340_mirrors {n : Nat} (order : Order) (ho : Reorders order) (w : Nat) (hw : 1 ≤ w) (pol : Nat → Nat → Option Acc) (ports : Fin n → Port)
    (hA : Apart ports) (hp : ∀ i, Auto (ports i)) (regs : Fin n → Reg) (hreach : ∀ i, Reachable (regs i))
    (hwired : ∀ i, Wired w pol (ports i).addrs (regs i)) (s : Nat → Cell) (hm : ∀ i, Mirrors w (ports i).addrs s (regs i)) (evs : List (Ev2 n)) (i : Fin n) :
    let st := run2 (chip w pol) order w ports ⟨fun i => fresh (regs i), s⟩ evs
    (st.tasks i).dead = false ∧ (∀ o ∈ (st.tasks i).log, AllOk o) ∧
      (AllReadable (regs i) → ∀ status, Out.mirrored status true ∉ (st.tasks i).log) ∧
      ((st.tasks i).idle → Mirrors w (ports i).addrs st.dev (st.tasks i).reg ∧ (st.tasks i).log.length = (asked2 i evs).length) := by
  have key : ∀ (evs : List (Ev2 n)) (st : State n (Nat → Cell)) (k : Fin n → Nat),
      (∀ j, Inv order w pol (ports j) (regs j) (k j) (st.tasks j) st.dev) →
      ∀ j, Inv order w pol (ports j) (regs j) (k j + (asked2 j evs).length) ((run2 (chip w pol) order w ports st evs).tasks j)
        (run2 (chip w pol) order w ports st evs).dev := by
    intro evs
    induction evs with
    | nil => exact fun st k h j => by simpa [asked2, asked, run2] using h j
    | cons e evs ih =>
      intro st k h
      have hch : ∀ (m : Fin n) (f : Reg → Reg), (∀ (p : Port) s r, Sound w pol p.addrs s r →
            Sound w pol p.addrs s (f r) ∧ (f r).fields.map Verif.RegChip.lay = r.fields.map Verif.RegChip.lay) →
          ∀ j, Inv order w pol (ports j) (regs j) (k j) ((change st m f).tasks j) (change st m f).dev := by
        intro m f hf j
        by_cases hj : j = m
        · subst hj; simp only [change, if_true]; exact inv_change (h j) f (hf (ports j))
        · simp only [change, hj, if_false]; exact h j
      cases e with
      | set m v => exact ih _ k (hch m _ fun p s r hr => sound_set hr v)
      | setField m l v => exact ih _ k (hch m _ fun p s r hr => sound_setField hr l v)
      | ev e =>
        cases e with
        | ask m op =>
          intro j
          have := ih (step2 (chip w pol) order w ports st (.ev (.ask m op))) (fun j => if j = m then k j + 1 else k j) (by
            intro j
            by_cases hj : j = m
            · subst hj
              simp only [step2, step, if_true]
              have hI := h j
              exact ⟨hI.within, hI.alive, hI.lay, hI.ok, hI.agree, by simp only [List.length_append, List.length_singleton]; have := hI.count; omega, hI.still, hI.under⟩
            · simp only [step2, step, hj, if_false]; exact h j) j
          by_cases hj : j = m
          · subst hj
            have ha : (asked2 j (Ev2.ev (.ask j op) :: evs)).length = 1 + (asked2 j evs).length := by simp [asked2, asked]; omega
            simp only [if_true] at this
            rw [ha, ← Nat.add_assoc]; exact this
          · have ha : (asked2 j (Ev2.ev (.ask m op) :: evs)) = asked2 j evs := by simp [asked2, asked, Ne.symm hj]
            simp only [hj, if_false] at this
            rw [ha]; exact this
        | go m =>
          intro j
          have ha : (asked2 j (Ev2.ev (.go m) :: evs)) = asked2 j evs := by simp [asked2, asked]
          rw [ha]
          refine ih (step2 (chip w pol) order w ports st (.ev (.go m))) k (fun j => ?_) j
          by_cases hj : j = m
          · subst hj
            simp only [step2, step, if_true]
            exact inv_go ho hw (hp j) (hA.some j) (hA.once j) (h j)
          · simp only [step2, step, hj, if_false]
            have hoth : ∀ a ∈ (ports j).addrs, ((st.tasks m).step (chip w pol) order w (ports m) st.dev).2 a = st.dev a :=
              fun a ha => other_step (chipCell w pol) order w (h m).within st.dev a (hA.apart j m hj a ha)
            have hI := h j
            refine ⟨hI.within, hI.alive, hI.lay, hI.ok, hI.agree, hI.count, fun hc => sound_same hoth (hI.still hc), fun g hg => ?_⟩
            obtain ⟨e0, s0, s1, nb, e1, e2, e3⟩ := hI.under g hg
            exact ⟨e0, s0, s1, nb, e1, fun a ha => (hoth a ha).trans (e2 a ha), e3⟩
  intro st
  have hI := key evs ⟨fun i => fresh (regs i), s⟩ (fun _ => 0) (fun j => ⟨fun g hg => by simp [fresh] at hg, rfl, rfl, by simp [fresh], by simp [fresh], rfl,
    fun _ => ⟨reachable_good (hreach j), hwired j, hm j⟩, fun g hg => by simp [fresh] at hg⟩) i
  refine ⟨hI.alive, hI.ok, hI.agree, fun hi => ⟨(hI.still hi.2).mirrors, ?_⟩⟩
  have := hI.count
  rw [show ((run2 (chip w pol) order w ports ⟨fun i => fresh (regs i), s⟩ evs).tasks i).queue = [] from hi.1,
    show ((run2 (chip w pol) order w ports ⟨fun i => fresh (regs i), s⟩ evs).tasks i).cur = none from hi.2] at this
  simpa using this

/-! ### What is set while a write is on the bus -/

/-- Apart from desired values the registers are the same. -/
def bare (r : Reg) : Reg := { r with fields := r.fields.map fun x => { x with f := { x.f with desired := 0, value := 0 } } }

theorem bare_set (r : Reg) (v : Int) : bare (Reg.set r v) = bare r := by
  simp only [bare, Reg.set, List.map_map]; rfl

theorem bare_setField (r : Reg) (k : Nat) (v : Int) : bare (Reg.step r (.fieldOp k (.set v))) = bare r := by
  simp only [bare, Reg.step]
  congr 1
  apply List.ext_getElem?
  intro j
  simp only [List.getElem?_map, List.getElem?_modify]
  cases r.fields[j]? with
  | none => rfl
  | some x => simp only [Option.map_some]; split <;> rfl

theorem endWrite_bare {p : Port} (ha : p.cfg.auto = true) (hb : ∀ k, p.cfg.bare k = false) {r r' : Reg} (h : bare r = bare r') (v : Nat) (ok : Bool) :
    endWrite p r v ok = endWrite p r' v ok ∧ endWrite p r v ok ≠ none := by
  have key : ∀ r : Reg, { r with fields := r.fields.map (predF v .write (rights p) r.busy) } =
      { bare r with fields := (bare r).fields.map (predF v .write (rights p) (bare r).busy) } := by
    intro r
    simp only [bare, List.map_map]; rfl
  simp only [endWrite, ha, if_true, predict_front hb, ne_eq, reduceCtorEq, not_false_eq_true]
  rw [key r, key r', h]
  simp

/-- Two states that differ in desired values of register `i` only, while an access to it is on the bus. -/
structure Differ {n : Nat} {σ} (Q : Stage → Prop) (len : Nat) (i : Fin n) (a b : State n σ) : Prop where
  dev : a.dev = b.dev
  others : ∀ j, j ≠ i → a.tasks j = b.tasks j
  same : b.tasks i = { a.tasks i with reg := (b.tasks i).reg }
  mirror : bare (a.tasks i).reg = bare (b.tasks i).reg
  alive : (a.tasks i).dead = false
  len : (a.tasks i).log.length = len
  under : ∃ g, (a.tasks i).cur = some g ∧ Q g

theorem fit_finish {p : Port} (ha : p.cfg.auto = true) (hb : ∀ k, p.cfg.bare k = false) {r r' : Reg} (h : bare r = bare r') (seen : Reg) {op : RegAccess.Op} {u : Nat}
    (hf : Fit op (.write u)) (ok : Bool) :
    ∃ x, finish p seen r op (.write u) (.wrote ok) = some x ∧ finish p seen r' op (.write u) (.wrote ok) = some x := by
  obtain ⟨h1, h2⟩ := endWrite_bare ha hb h u ok
  obtain ⟨y, hy⟩ := Option.ne_none_iff_exists'.1 h2
  rw [hy] at h1
  cases op with
  | write v => exact ⟨(y.1, .wrote y.2), by simp [finish, hy], by simp [finish, ← h1]⟩
  | update => exact ⟨(y.1, .updated [y.2]), by simp [finish, hy], by simp [finish, ← h1]⟩
  | set _ => exact hf.elim
  | setField _ _ => exact hf.elim
  | read => exact hf.elim
  | mirror _ => exact hf.elim

theorem state_ext {n : Nat} {σ} {a b : State n σ} (hd : a.dev = b.dev) (ht : ∀ j, a.tasks j = b.tasks j) : a = b := by
  cases a; cases b; simp only [State.mk.injEq]; exact ⟨funext ht, hd⟩

theorem differ_step {n : Nat} {σ} (bus : Bus σ) (order : Order) (w : Nat) (ports : Fin n → Port) {i : Fin n} {Q : Stage → Prop} {len : Nat}
    (hQ : ∀ g op ops s, Q g → Q { g with flight := (beat bus w g.flight op ops s).1 }) {a b : State n σ} (h : Differ Q len i a b) (e : Ev2 n) :
    (e = .ev (.go i) ∧ ∃ g, (a.tasks i).cur = some g ∧ Q g ∧ g.flight.todo = []) ∨ Differ Q len i (step2 bus order w ports a e) (step2 bus order w ports b e) := by
  have hsame := h.same
  have hch : ∀ (m : Fin n) (f : Reg → Reg), (∀ r, bare (f r) = bare r) → Differ Q len i (change a m f) (change b m f) := by
    intro m f hf
    by_cases hm : m = i
    · subst hm
      refine ⟨h.dev, fun j hj => ?_, ?_, ?_, ?_, ?_, ?_⟩
      · simp only [change, hj, if_false]; exact h.others j hj
      · simp only [change, if_true]; rw [hsame]
      · simp only [change, if_true, hf]; exact h.mirror
      · simp only [change, if_true]; exact h.alive
      · simp only [change, if_true]; exact h.len
      · simp only [change, if_true]; exact h.under
    · have hm' : ¬ i = m := fun e => hm e.symm
      refine ⟨h.dev, fun j hj => ?_, ?_, ?_, ?_, ?_, ?_⟩
      · by_cases hjm : j = m
        · subst hjm; simp only [change, if_true, h.others j hj]
        · simp only [change, hjm, if_false]; exact h.others j hj
      · simp only [change, hm', if_false]; exact hsame
      · simp only [change, hm', if_false]; exact h.mirror
      · simp only [change, hm', if_false]; exact h.alive
      · simp only [change, hm', if_false]; exact h.len
      · simp only [change, hm', if_false]; exact h.under
  cases e with
  | set m v => exact .inr (hch m _ fun r => bare_set r v)
  | setField m k v => exact .inr (hch m _ fun r => bare_setField r k v)
  | ev e =>
    cases e with
    | ask m op =>
      right
      by_cases hm : m = i
      · subst hm
        refine ⟨h.dev, fun j hj => ?_, ?_, ?_, ?_, ?_, ?_⟩
        · simp only [step2, step, hj, if_false]; exact h.others j hj
        · simp only [step2, step, if_true]; rw [hsame]
        · simp only [step2, step, if_true]; exact h.mirror
        · simp only [step2, step, if_true]; exact h.alive
        · simp only [step2, step, if_true]; exact h.len
        · simp only [step2, step, if_true]; exact h.under
      · have hm' : ¬ i = m := fun e => hm e.symm
        refine ⟨h.dev, fun j hj => ?_, ?_, ?_, ?_, ?_, ?_⟩
        · by_cases hjm : j = m
          · subst hjm; simp only [step2, step, if_true, h.others j hj]
          · simp only [step2, step, hjm, if_false]; exact h.others j hj
        · simp only [step2, step, hm', if_false]; exact hsame
        · simp only [step2, step, hm', if_false]; exact h.mirror
        · simp only [step2, step, hm', if_false]; exact h.alive
        · simp only [step2, step, hm', if_false]; exact h.len
        · simp only [step2, step, hm', if_false]; exact h.under
    | go m =>
      by_cases hm : m = i
      · subst hm
        obtain ⟨g, g1, g2⟩ := h.under
        have hbc : (b.tasks m).cur = some g := by rw [hsame]; exact g1
        have hbd : (b.tasks m).dead = false := by rw [hsame]; exact h.alive
        cases ht : g.flight.todo with
        | nil => exact .inl ⟨rfl, g, g1, g2, ht⟩
        | cons op ops =>
          right
          have sa : (a.tasks m).step bus order w (ports m) a.dev =
              ({ a.tasks m with cur := some { g with flight := (beat bus w g.flight op ops a.dev).1 } }, (beat bus w g.flight op ops a.dev).2) := by
            simp [Task.step, h.alive, g1, ht]
          have sb : (b.tasks m).step bus order w (ports m) b.dev =
              ({ b.tasks m with cur := some { g with flight := (beat bus w g.flight op ops a.dev).1 } }, (beat bus w g.flight op ops a.dev).2) := by
            simp [Task.step, hbd, hbc, ht, h.dev]
          refine ⟨?_, fun j hj => ?_, ?_, ?_, ?_, ?_, ?_⟩
          · simp only [step2, step, sa, sb]
          · simp only [step2, step, hj, if_false]; exact h.others j hj
          · simp only [step2, step, if_true, sa, sb]; rw [hsame]
          · simp only [step2, step, if_true, sa, sb]; exact h.mirror
          · simp only [step2, step, if_true, sa]; exact h.alive
          · simp only [step2, step, if_true, sa]; exact h.len
          · simp only [step2, step, if_true, sa]
            exact ⟨_, rfl, hQ g op ops a.dev g2⟩
      · have hm' : ¬ i = m := fun e => hm e.symm
        right
        have hs : (a.tasks m).step bus order w (ports m) a.dev = (b.tasks m).step bus order w (ports m) b.dev := by rw [h.others m hm, h.dev]
        refine ⟨by simp only [step2, step, hs], fun j hj => ?_, ?_, ?_, ?_, ?_, ?_⟩
        · by_cases hjm : j = m
          · subst hjm; simp only [step2, step, if_true, hs]
          · simp only [step2, step, hjm, if_false]; exact h.others j hj
        · simp only [step2, step, hm', if_false]; exact hsame
        · simp only [step2, step, hm', if_false]; exact h.mirror
        · simp only [step2, step, hm', if_false]; exact h.alive
        · simp only [step2, step, hm', if_false]; exact h.len
        · simp only [step2, step, hm', if_false]; exact h.under

/-- C341. A value set while a write to the register is on the bus is lost: whatever happens then, once the write is over everything is as if it had not been set. -/
theorem C341_set_survives_fails {n : Nat} {σ} (bus : Bus σ) (order : Order) (w : Nat) (ports : Fin n → Port) (i : Fin n) (ha : (ports i).cfg.auto = true)
    (hb : ∀ k, (ports i).cfg.bare k = false) (st : State n σ) (halive : (st.tasks i).dead = false)
    (hwr : ∃ g u, (st.tasks i).cur = some g ∧ g.req = .write u ∧ Fit g.op g.req ∧ g.flight.dir = .write) (v : Int) (evs : List (Ev2 n)) :
    run2 bus order w ports (step2 bus order w ports st (.set i v)) evs = run2 bus order w ports st evs ∨
      ∃ g u, ((run2 bus order w ports st evs).tasks i).cur = some g ∧ g.req = .write u := by
  let Q : Stage → Prop := fun g => ∃ u, g.req = .write u ∧ Fit g.op g.req ∧ g.flight.dir = .write
  have hQ : ∀ g op ops s, Q g → Q { g with flight := (beat bus w g.flight op ops s).1 } :=
    fun g op ops s ⟨u, h1, h2, h3⟩ => ⟨u, h1, h2, by simp [beat, h3]⟩
  have key : ∀ (evs : List (Ev2 n)) (a b : State n σ), Differ Q (st.tasks i).log.length i a b → run2 bus order w ports b evs = run2 bus order w ports a evs ∨
      ∃ g u, ((run2 bus order w ports a evs).tasks i).cur = some g ∧ g.req = .write u := by
    intro evs
    induction evs with
    | nil => exact fun a b h => by obtain ⟨g, h1, u, h2, _⟩ := h.under; exact .inr ⟨g, u, h1, h2⟩
    | cons e evs ih =>
      intro a b h
      rcases differ_step bus order w ports hQ h e with ⟨rfl, g, g1, ⟨u, g2, g3, g4⟩, ht⟩ | he
      · left
        have hbc : (b.tasks i).cur = some g := by rw [h.same]; exact g1
        have hbd : (b.tasks i).dead = false := by rw [h.same]; exact h.alive
        have hres : g.flight.res = .wrote g.flight.ok := by simp [Flight.res, g4]
        rw [g2] at g3
        obtain ⟨x, x1, x2⟩ := fit_finish ha hb h.mirror g.seen g3 g.flight.ok
        have sa : (a.tasks i).step bus order w (ports i) a.dev = ({ a.tasks i with reg := x.1, cur := none, log := (a.tasks i).log ++ [x.2] }, a.dev) := by
          simp [Task.step, h.alive, g1, ht, g2, hres, x1]
        have sb : (b.tasks i).step bus order w (ports i) b.dev = ({ b.tasks i with reg := x.1, cur := none, log := (b.tasks i).log ++ [x.2] }, b.dev) := by
          simp [Task.step, hbd, hbc, ht, g2, hres, x2]
        have he : step2 bus order w ports a (.ev (.go i)) = step2 bus order w ports b (.ev (.go i)) := by
          refine state_ext ?_ fun j => ?_
          · simp only [step2, step, sa, sb]; exact h.dev
          · by_cases hj : j = i
            · subst hj; simp only [step2, step, if_true, sa, sb]; rw [h.same]
            · simp only [step2, step, hj, if_false]; exact h.others j hj
        simp only [run2, List.foldl_cons, he]
      · exact ih _ _ he
  obtain ⟨g, u, h1, h2, h3, h4⟩ := hwr
  refine key evs st _ ⟨rfl, fun j hj => ?_, ?_, ?_, halive, rfl, g, h1, u, h2, h3, h4⟩
  · simp [step2, change, hj]
  · simp [step2, change]
  · simp only [step2, change, if_true, bare_set]

/-! ### What an access under way returns -/

def plain (x : RF) : RF := { x with f := { x.f with desired := 0, value := 0 } }

theorem bare_fields (r : Reg) : (bare r).fields = r.fields.map plain := rfl

theorem dcMask_bare (r : Reg) (rt : Rights) : dcMask (bare r) rt = dcMask r rt := by
  simp only [dcMask, bare_fields, List.foldl_map]; rfl

theorem doCheck_bare {r r' : Reg} (h : bare r = bare r') (rt : Rights) (e v : Nat) : doCheck r rt e v = doCheck r' rt e v := by
  simp only [doCheck, ← dcMask_bare r, ← dcMask_bare r', h]

theorem plain_predF (v : Nat) (rt : Rights) (busy : Bool) (x : RF) : plain (predF v .read rt busy (plain x)) = plain (predF v .read rt busy x) := by
  have ha : getAccess (plain x).f rt = getAccess x.f rt := rfl
  simp only [predF, RegField.doPredict, ha]
  simp only [Bool.true_eq_false, if_false, if_true]
  cases getAccess x.f rt <;> rfl

theorem bare_predF {r r' : Reg} (h : bare r = bare r') (v : Nat) (rt : Rights) :
    bare { r with fields := r.fields.map (predF v .read rt r.busy) } = bare { r' with fields := r'.fields.map (predF v .read rt r'.busy) } := by
  have key : ∀ r : Reg, bare { r with fields := r.fields.map (predF v .read rt r.busy) } =
      { bare r with fields := (bare r).fields.map fun x => plain (predF v .read rt (bare r).busy x) } := by
    intro r
    have : ∀ l : List RF, (l.map (predF v .read rt r.busy)).map plain = (l.map plain).map fun x => plain (predF v .read rt r.busy x) := by
      intro l
      simp only [List.map_map, Function.comp_def, plain_predF]
    show Reg.mk _ _ _ _ = Reg.mk _ _ _ _
    rw [show (bare r).fields = r.fields.map plain from rfl, show (bare r).busy = r.busy from rfl]
    congr 1
    exact this r.fields
  rw [key, key, h]

theorem finish_returns {p : Port} (hp : Auto p) {r r' : Reg} (h : bare r = bare r') (seen : Reg) (op : RegAccess.Op) (q : Req) (res : Res) :
    (finish p seen r op q res).map (·.2) = (finish p seen r' op q res).map (·.2) := by
  have hR : ∀ v ok, ∃ r1 r1' err, endRead p seen r v ok = some (r1, ok, err) ∧ endRead p seen r' v ok = some (r1', ok, err) ∧ bare r1 = bare r1' := by
    intro v ok
    refine ⟨_, _, p.cfg.check && ok && !(doCheck r (rights p) (Reg.get seen) v), ?_, ?_, bare_predF h v (rights p)⟩
    · simp [endRead, hp.auto, predict_front hp.bare, postRead_quiet hp.postR]
    · simp [endRead, hp.auto, predict_front hp.bare, postRead_quiet hp.postR, doCheck_bare h]
  cases q with
  | write v =>
    cases res with
    | wrote ok =>
      have := (endWrite_bare hp.auto hp.bare h v ok).1
      cases op <;> simp [finish, this]
    | got u ok => cases op <;> rfl
  | read =>
    cases res with
    | wrote ok => cases op <;> rfl
    | got v ok =>
      obtain ⟨r1, r1', err, h1, h2, h3⟩ := hR v ok
      cases op <;> simp [finish, h1, h2, doCheck_bare h3]

theorem log_step {n : Nat} {σ} (bus : Bus σ) (order : Order) (w : Nat) (ports : Fin n → Port) (i : Fin n) (st : State n σ) (e : Ev2 n) :
    ∃ l, ((step2 bus order w ports st e).tasks i).log = (st.tasks i).log ++ l := by
  have hch : ∀ (m : Fin n) (f : Reg → Reg), ((change st m f).tasks i).log = (st.tasks i).log := by
    intro m f; simp only [change]; split
    · next h => subst h; rfl
    · rfl
  cases e with
  | set m v => exact ⟨[], by simp [step2, hch]⟩
  | setField m k v => exact ⟨[], by simp [step2, hch]⟩
  | ev e =>
    cases e with
    | ask m op =>
      refine ⟨[], ?_⟩
      simp only [step2, step, List.append_nil]; split
      · next h => subst h; rfl
      · rfl
    | go m =>
      simp only [step2, step]
      split
      · next h =>
        subst h
        unfold Task.step
        split
        · exact ⟨[], by simp⟩
        · split
          · split
            · exact ⟨[], by simp⟩
            · split
              · exact ⟨_, rfl⟩
              · exact ⟨[], by simp⟩
          · split
            · split
              · exact ⟨[], by simp⟩
              · exact ⟨_, rfl⟩
            · exact ⟨[], by simp⟩
      · exact ⟨[], by simp⟩

theorem log_run {n : Nat} {σ} (bus : Bus σ) (order : Order) (w : Nat) (ports : Fin n → Port) (i : Fin n) (evs : List (Ev2 n)) (st : State n σ) :
    ∃ l, ((run2 bus order w ports st evs).tasks i).log = (st.tasks i).log ++ l := by
  induction evs generalizing st with
  | nil => exact ⟨[], by simp [run2]⟩
  | cons e evs ih =>
    obtain ⟨l1, h1⟩ := log_step bus order w ports i st e
    obtain ⟨l2, h2⟩ := ih (step2 bus order w ports st e)
    exact ⟨l1 ++ l2, by rw [← List.append_assoc, ← h1, ← h2]; rfl⟩

theorem dead_run {n : Nat} {σ} (bus : Bus σ) (order : Order) (w : Nat) (ports : Fin n → Port) (i : Fin n) (evs : List (Ev2 n)) (st : State n σ)
    (hd : (st.tasks i).dead = true) : ((run2 bus order w ports st evs).tasks i).log = (st.tasks i).log := by
  induction evs generalizing st with
  | nil => rfl
  | cons e evs ih =>
    have key : ((step2 bus order w ports st e).tasks i).log = (st.tasks i).log ∧ ((step2 bus order w ports st e).tasks i).dead = true := by
      have hch : ∀ (m : Fin n) (f : Reg → Reg), ((change st m f).tasks i).log = (st.tasks i).log ∧ ((change st m f).tasks i).dead = true := by
        intro m f; simp only [change]; split
        · next h => subst h; exact ⟨rfl, hd⟩
        · exact ⟨rfl, hd⟩
      cases e with
      | set m v => exact hch m fun r => Reg.set r v
      | setField m k v => exact hch m fun r => Reg.step r (.fieldOp k (.set v))
      | ev e =>
        cases e with
        | ask m op =>
          simp only [step2, step]; split
          · next h => subst h; exact ⟨rfl, hd⟩
          · exact ⟨rfl, hd⟩
        | go m =>
          simp only [step2, step]; split
          · next h => subst h; simp [Task.step, hd]
          · exact ⟨rfl, hd⟩
    exact (ih (step2 bus order w ports st e) key.2).trans key.1

/-- C340. What an access under way returns does not depend on what is set meanwhile: whatever happens then, with the value set or not the access is still on the bus,
or it returns the same, or it raises both times. -/
theorem C340_returns {n : Nat} {σ} (bus : Bus σ) (order : Order) (w : Nat) (ports : Fin n → Port) (i : Fin n) (hp : Auto (ports i)) (st : State n σ)
    (halive : (st.tasks i).dead = false) (hunder : (st.tasks i).cur ≠ none) (v : Int) (evs : List (Ev2 n)) :
    ((run2 bus order w ports (step2 bus order w ports st (.set i v)) evs).tasks i).log[(st.tasks i).log.length]? =
      ((run2 bus order w ports st evs).tasks i).log[(st.tasks i).log.length]? := by
  have hQ : ∀ (g : Stage) op ops s, (fun _ => True) g → (fun _ => True) { g with flight := (beat bus w g.flight op ops s).1 } := fun _ _ _ _ _ => trivial
  have key : ∀ (evs : List (Ev2 n)) (a b : State n σ), Differ (fun _ => True) (st.tasks i).log.length i a b →
      ((run2 bus order w ports b evs).tasks i).log[(st.tasks i).log.length]? = ((run2 bus order w ports a evs).tasks i).log[(st.tasks i).log.length]? := by
    intro evs
    induction evs with
    | nil =>
      intro a b h
      have : (b.tasks i).log = (a.tasks i).log := by rw [h.same]
      simp only [run2, List.foldl_nil, this]
    | cons e evs ih =>
      intro a b h
      rcases differ_step bus order w ports hQ h e with ⟨rfl, g, g1, _, ht⟩ | he
      · have hbc : (b.tasks i).cur = some g := by rw [h.same]; exact g1
        have hbd : (b.tasks i).dead = false := by rw [h.same]; exact h.alive
        have hbl : (b.tasks i).log = (a.tasks i).log := by rw [h.same]
        have hf := finish_returns hp h.mirror g.seen g.op g.req g.flight.res
        cases hfa : finish (ports i) g.seen (a.tasks i).reg g.op g.req g.flight.res with
        | none =>
          rw [hfa] at hf
          have hfb := Option.map_eq_none_iff.1 hf.symm
          have sa : (step2 bus order w ports a (.ev (.go i))).tasks i = { a.tasks i with dead := true } := by
            simp [step2, step, Task.step, h.alive, g1, ht, hfa]
          have sb : (step2 bus order w ports b (.ev (.go i))).tasks i = { b.tasks i with dead := true } := by
            simp [step2, step, Task.step, hbd, hbc, ht, hfb]
          have ea := dead_run bus order w ports i evs (step2 bus order w ports a (.ev (.go i))) (by rw [sa])
          have eb := dead_run bus order w ports i evs (step2 bus order w ports b (.ev (.go i))) (by rw [sb])
          rw [sa] at ea
          rw [sb] at eb
          show ((run2 bus order w ports (step2 bus order w ports b (.ev (.go i))) evs).tasks i).log[_]? =
            ((run2 bus order w ports (step2 bus order w ports a (.ev (.go i))) evs).tasks i).log[_]?
          rw [ea, eb, hbl]
        | some x =>
          rw [hfa] at hf
          obtain ⟨y, hfb, hy⟩ := Option.map_eq_some_iff.1 hf.symm
          have sa : ((step2 bus order w ports a (.ev (.go i))).tasks i).log = (a.tasks i).log ++ [x.2] := by
            simp [step2, step, Task.step, h.alive, g1, ht, hfa]
          have sb : ((step2 bus order w ports b (.ev (.go i))).tasks i).log = (a.tasks i).log ++ [x.2] := by
            simp [step2, step, Task.step, hbd, hbc, ht, hfb, hbl, hy]
          obtain ⟨la, ea⟩ := log_run bus order w ports i evs (step2 bus order w ports a (.ev (.go i)))
          obtain ⟨lb, eb⟩ := log_run bus order w ports i evs (step2 bus order w ports b (.ev (.go i)))
          show ((run2 bus order w ports (step2 bus order w ports b (.ev (.go i))) evs).tasks i).log[_]? =
            ((run2 bus order w ports (step2 bus order w ports a (.ev (.go i))) evs).tasks i).log[_]?
          rw [ea, eb, sa, sb, ← h.len]
          simp
      · exact ih _ _ he
  obtain ⟨g, hg⟩ := Option.ne_none_iff_exists'.1 hunder
  refine key evs st _ ⟨rfl, fun j hj => ?_, ?_, ?_, halive, rfl, g, hg, trivial⟩
  · simp [step2, change, hj]
  · simp [step2, change]
  · simp only [step2, change, if_true, bare_set]

/-! ### A case: the registers of Props/RegChip; `egApart`, `egAuto` and the examples after them meet the hypotheses -/

def egSet : List (Ev2 2) := [.ev (.ask 0 (.write 0x30003f)), .ev (.go 0), .ev (.go 0), .set 0 0x155555, .ev (.go 0), .setField 1 0 7, .ev (.go 0), .ev (.ask 1 .update),
  .ev (.go 1), .set 1 9, .ev (.go 1), .ev (.go 1), .ev (.ask 0 (.mirror true)), .ev (.go 0), .set 0 3, .ev (.go 0), .ev (.go 0), .ev (.go 0)]

example : let st := run2 (chip 2 egPol) List.reverse 2 egPorts ⟨fun i => fresh (egRegs i), egChip⟩ egSet
    (st.tasks 0).log = [.wrote true, .mirrored [true] false] ∧ (st.tasks 1).log = [.updated [true]] ∧
    (st.tasks 0).queue = [] ∧ (st.tasks 1).queue = [] := by decide +kernel

/-- After the first two words' steps the write to register 0 is on the bus: the hypotheses of C341 are met; the value set is the desired value until the write ends. -/
example : let st := run2 (chip 2 egPol) List.reverse 2 egPorts ⟨fun i => fresh (egRegs i), egChip⟩ (egSet.take 3)
    ((st.tasks 0).cur.map fun g => (g.op, g.flight.dir, g.flight.todo.length)) = some (.write 0x30003f, .write, 1) ∧ (st.tasks 0).dead = false ∧
    Reg.get ((step2 (chip 2 egPol) List.reverse 2 egPorts st (.set 0 0x155555)).tasks 0).reg ≠ Reg.get (st.tasks 0).reg := by decide +kernel

/-- When the write is over the value set is gone and no update is pending. -/
example : let st := run2 (chip 2 egPol) List.reverse 2 egPorts ⟨fun i => fresh (egRegs i), egChip⟩ (egSet.take 7)
    (st.tasks 0).log = [.wrote true] ∧ needsUpdate (st.tasks 0).reg = false := by decide +kernel

end Verif.RegPar
