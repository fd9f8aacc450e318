import Verif.Props.RegChip
import Verif.Props.RegTests
/-! # A register of a chip is a device that follows the documented access policies -/
namespace Verif.RegChip
open Verif.Reg Verif.RegField Verif.RegAccess Verif.RegMap Verif.RegSystem Verif.RegConc Verif.RegTests

/-- States of the chip in which the words of the register agree on whether it was written (`q`: it has a field). -/
def Even (q : Prop) (addrs : List Nat) (s : Nat → Cell) : Prop := q → ∀ a ∈ addrs, (s a).written = (s (addrs.headD 0)).written

abbrev EvenState (q : Prop) (addrs : List Nat) := { s : Nat → Cell // Even q addrs s }

/-- The fields as the chip has them. -/
def fieldsIn {q : Prop} (w : Nat) (addrs : List Nat) (r : Reg) (s : EvenState q addrs) : List DF := theirs w addrs s.1 r fun _ => (s.1 (addrs.headD 0)).written

theorem head_mem {addrs : List Nat} (h : addrs ≠ []) : addrs.headD 0 ∈ addrs := by
  cases addrs with
  | nil => exact absurd rfl h
  | cons a l => simp

section
variable {w : Nat} (hw : 1 ≤ w) (pol : Nat → Nat → Option Acc) {order : Order} (ho : Reorders order) {addrs : List Nat} (hne : addrs ≠ []) (hd : addrs.Nodup) (nb : Nat) {q : Prop}
include hw ho hne hd

theorem even_wr (s : EvenState q addrs) (v : Nat) : Even q addrs ((regDev (chip w pol) order w nb addrs).wr s.1 v).1 := by
  obtain ⟨s', h1, h2, _⟩ := chip_write w hw pol ho (nb : Int) (2 ^ w - 1) hne hd s.1 v
  have : ((regDev (chip w pol) order w nb addrs).wr s.1 v).1 = s' := by simp only [regDev, h1]
  rw [this]
  intro hq a ha
  rw [h2 a ha, h2 _ (head_mem hne)]

theorem even_rd (s : EvenState q addrs) : Even q addrs ((regDev (chip w pol) order w nb addrs).rd s.1).1 := by
  obtain ⟨s', v, h1, h2, _⟩ := chip_read w hw pol ho (nb : Int) (2 ^ w - 1) hne hd s.1
  have : ((regDev (chip w pol) order w nb addrs).rd s.1).1 = s' := by simp only [regDev, h1]
  rw [this]
  intro hq a ha
  rw [h2 a ha, h2 _ (head_mem hne)]
  exact s.2 hq a ha

/-- The register as a device. -/
def evenDev : Dev (EvenState q addrs) where
  wr s v := (⟨((regDev (chip w pol) order w nb addrs).wr s.1 v).1, even_wr hw pol ho hne hd nb s v⟩, ((regDev (chip w pol) order w nb addrs).wr s.1 v).2)
  rd s := (⟨((regDev (chip w pol) order w nb addrs).rd s.1).1, even_rd hw pol ho hne hd nb s⟩, ((regDev (chip w pol) order w nb addrs).rd s.1).2)

/-- The state of the device is that of the chip; nothing but the words of the register has changed since `s0`. -/
def In {q : Prop} (addrs : List Nat) (s0 : Nat → Cell) (s : Nat → Cell) (t : EvenState q addrs) : Prop := t.1 = s ∧ ∀ a, a ∉ addrs → s a = s0 a

theorem evenDev_alike (s0 : Nat → Cell) : Alike (In (q := q) addrs s0) (regDev (chip w pol) order w nb addrs) (evenDev hw pol ho hne hd nb) where
  wr := by
    rintro s t v ⟨rfl, h2⟩
    refine ⟨rfl, rfl, fun a ha => ?_⟩
    obtain ⟨s', h1, _, _, h4⟩ := chip_write w hw pol ho (nb : Int) (2 ^ w - 1) hne hd t.1 v
    have : ((regDev (chip w pol) order w nb addrs).wr t.1 v).1 = s' := by simp only [regDev, h1]
    rw [this, h4 a ha, h2 a ha]
  rd := by
    rintro s t ⟨rfl, h2⟩
    refine ⟨rfl, rfl, fun a ha => ?_⟩
    obtain ⟨s', v, h1, _, _, h4, _⟩ := chip_read w hw pol ho (nb : Int) (2 ^ w - 1) hne hd t.1
    have : ((regDev (chip w pol) order w nb addrs).rd t.1).1 = s' := by simp only [regDev, h1]
    rw [this, h4 a ha, h2 a ha]

theorem evenDev_follows {r : Reg} (hr : Wired w pol addrs r) : FollowsDoc (evenDev (q := r.fields ≠ []) hw pol ho hne hd nb) (fieldsIn w addrs r) where
  wr := by
    intro s v
    obtain ⟨s', h1, h2, h3, _⟩ := chip_write w hw pol ho (nb : Int) (2 ^ w - 1) hne hd s.1 v
    have e1 : ((regDev (chip w pol) order w nb addrs).wr s.1 v).1 = s' := by simp only [regDev, h1]
    have e2 : ((regDev (chip w pol) order w nb addrs).wr s.1 v).2 = true := by simp only [regDev, h1]
    refine ⟨e2, ?_⟩
    show All2 (DF.Written v) (theirs w addrs s.1 r _) (theirs w addrs ((regDev (chip w pol) order w nb addrs).wr s.1 v).1 r fun _ =>
      (((regDev (chip w pol) order w nb addrs).wr s.1 v).1 (addrs.headD 0)).written)
    rw [e1]
    refine All2.both _ fun x hx => ⟨rfl, rfl, rfl, h2 _ (head_mem hne), ofBits_lt _ _, fun i hi => ?_⟩
    have hc : Covers x (x.lsb + i) := ⟨by omega, by simp only at hi; omega⟩
    have hlt : x.lsb + i < 8 * w * addrs.length := Nat.lt_of_lt_of_le (by simp only at hi; omega) (hr.fits x hx)
    have hm : wordOf w addrs (x.lsb + i) ∈ addrs := by rw [wordOf_get hlt]; exact List.getElem_mem _
    simp only at hi
    simp only [ofBits_aux, hi, decide_true, Bool.true_and, h3 _ hlt, hr.fields x hx _ hc, s.2 (List.ne_nil_of_mem hx) _ hm, Nat.testBit_shiftRight]
  rd := by
    intro s
    obtain ⟨s', v, h1, h2, h3, _⟩ := chip_read w hw pol ho (nb : Int) (2 ^ w - 1) hne hd s.1
    have e1 : ((regDev (chip w pol) order w nb addrs).rd s.1).1 = s' := by simp only [regDev, h1]
    have e2 : ((regDev (chip w pol) order w nb addrs).rd s.1).2.2 = true := by simp only [regDev, h1]
    refine ⟨e2, ?_⟩
    show All2 DF.Read (theirs w addrs s.1 r _) (theirs w addrs ((regDev (chip w pol) order w nb addrs).rd s.1).1 r fun _ =>
      (((regDev (chip w pol) order w nb addrs).rd s.1).1 (addrs.headD 0)).written)
    rw [e1]
    refine All2.both _ fun x hx => ?_
    simp only [DF.Read, DF.mk.injEq, true_and, h2 _ (head_mem hne), and_true]
    apply Nat.eq_of_testBit_eq
    intro j
    rw [ofBits_aux]
    by_cases hj : j < x.f.size
    · have hc : Covers x (x.lsb + j) := ⟨by omega, by omega⟩
      have hlt : x.lsb + j < 8 * w * addrs.length := Nat.lt_of_lt_of_le (by omega) (hr.fits x hx)
      simp only [hj, decide_true, Bool.true_and, h3 _ hlt, hr.fields x hx _ hc, Option.map_some]
      cases hq : (doc x.f.access).2 with
      | clears => simp
      | sets => simp [Nat.testBit_two_pow_sub_one, hj]
      | noEffect => simp [ofBits_aux, hj]
      | error => simp [ofBits_aux, hj]
    · simp only [hj, decide_false, Bool.false_and]
      cases hq : (doc x.f.access).2 with
      | clears => simp
      | sets => simp [Nat.testBit_two_pow_sub_one, hj]
      | noEffect => simp [ofBits_aux, hj]
      | error => simp [ofBits_aux, hj]
  data := by
    intro s y hy hR i hi
    obtain ⟨x, hx, rfl⟩ := List.mem_map.1 hy
    obtain ⟨s', v, h1, _, _, _, h5⟩ := chip_read w hw pol ho (nb : Int) (2 ^ w - 1) hne hd s.1
    have e1 : ((regDev (chip w pol) order w nb addrs).rd s.1).2.1 = v := by simp only [regDev, h1, List.headD_cons]
    show ((regDev (chip w pol) order w nb addrs).rd s.1).2.1.testBit i = _
    have hi1 := hi.1
    have hi2 := hi.2
    simp only at hi1 hi2
    have hlt : i < 8 * w * addrs.length := Nat.lt_of_lt_of_le hi2 (hr.fits x hx)
    have hR' : (doc x.f.access).2 ≠ .error ∧ x.f.access ≠ .NOACCESS := hR
    rw [e1]
    simp [h5, hlt, hr.fields x hx i ⟨hi1, hi2⟩, readable, hR', ofBits_aux, show i - x.lsb < x.f.size by omega, show x.lsb + (i - x.lsb) = i by omega]
  rest := by
    intro s i hi
    obtain ⟨s', v, h1, _, _, _, h5⟩ := chip_read w hw pol ho (nb : Int) (2 ^ w - 1) hne hd s.1
    have e1 : ((regDev (chip w pol) order w nb addrs).rd s.1).2.1 = v := by simp only [regDev, h1, List.headD_cons]
    show ((regDev (chip w pol) order w nb addrs).rd s.1).2.1.testBit i = _
    rw [e1, h5]
    by_cases hlt : i < 8 * w * addrs.length
    · have : readable (pol (wordOf w addrs i) (i % (8 * w))) = false := by
        by_cases hc : ∃ x ∈ r.fields, Covers x i
        · obtain ⟨x, hx, hc⟩ := hc
          rw [hr.fields x hx i hc]
          have := hi _ (List.mem_map.2 ⟨x, hx, rfl⟩)
          simp only [readable, decide_eq_false_iff_not]
          exact fun hR => this hR hc
        · rw [hr.rest i hlt fun x hx h => hc ⟨x, hx, h⟩]; rfl
      simp [this]
    · simp [hlt]
end

theorem agrees_fieldsIn {w : Nat} {pol : Nat → Nat → Option Acc} {addrs : List Nat} (hne : addrs ≠ []) {r : Reg} {q : Prop} {s : EvenState q addrs} (h : Sound w pol addrs s.1 r) :
    Agrees r (fieldsIn w addrs r s) := by
  refine All2.map_right _ fun x hx => ⟨rfl, rfl, rfl, ?_, ?_⟩
  · apply Nat.eq_of_testBit_eq
    intro j
    rw [ofBits_aux]
    by_cases hj : j < x.f.size
    · simp [hj, (h.mirrors x hx).1 j hj]
    · simp only [hj, decide_false, Bool.false_and]
      apply Nat.testBit_lt_two_pow
      exact Nat.lt_of_lt_of_le (h.good.fits x hx).mirrored (Nat.pow_le_pow_right (by omega) (by omega))
  · exact ((h.mirrors x hx).2 _ (head_mem hne)).symm

theorem sound_fieldsIn {w : Nat} {pol : Nat → Nat → Option Acc} {addrs : List Nat} {r r' : Reg} {s : EvenState (r.fields ≠ []) addrs} (hG : Good r') (hw : Wired w pol addrs r)
    (h : Agrees r' (fieldsIn w addrs r s)) : Sound w pol addrs s.1 r' ∧ r'.fields.map lay = r.fields.map lay :=
  sound_theirs hG hw h fun _ hx a ha => s.2 (List.ne_nil_of_mem hx) a ha

theorem even_sound {w : Nat} {pol : Nat → Nat → Option Acc} {addrs : List Nat} {r : Reg} {s : Nat → Cell} (h : Sound w pol addrs s r) (hne : addrs ≠ []) :
    Even (r.fields ≠ []) addrs s := by
  intro hf
  obtain ⟨x, l, hx⟩ : ∃ x l, r.fields = x :: l := by cases hr : r.fields with | nil => exact absurd hr hf | cons x l => exact ⟨x, l, rfl⟩
  have hm : x ∈ r.fields := by rw [hx]; simp
  intro a ha
  rw [(h.mirrors x hm).2 a ha, (h.mirrors x hm).2 _ (head_mem hne)]

end Verif.RegChip
namespace Verif.RegTests
open Verif.Reg Verif.RegField Verif.RegAccess Verif.RegMap Verif.RegSystem

/-! ### The tests on devices that look alike -/

def SRel {σ τ} (R : σ → τ → Prop) (a : St σ) (b : St τ) : Prop := a.reg = b.reg ∧ a.errs = b.errs ∧ R a.dev b.dev

theorem orel_bind {α β γ δ} {Q : α → β → Prop} {P : γ → δ → Prop} {a : Option α} {b : Option β} {f : α → Option γ} {g : β → Option δ}
    (h : ORel Q a b) (hf : ∀ x y, Q x y → ORel P (f x) (g y)) : ORel P (a.bind f) (b.bind g) := by
  cases h with
  | none => exact .none
  | some h => exact hf _ _ h

theorem orel_foldlM {α β γ} {Q : α → β → Prop} (f : α → γ → Option α) (g : β → γ → Option β) (h : ∀ x y c, Q x y → ORel Q (f x c) (g y c)) (l : List γ) :
    ∀ x y, Q x y → ORel Q (l.foldlM f x) (l.foldlM g y) := by
  induction l with
  | nil => exact fun x y hq => .some hq
  | cons c l ih =>
    intro x y hq
    simp only [List.foldlM_cons]
    exact orel_bind (h x y c hq) fun x y => ih x y

section
variable {σ τ : Type} {R : σ → τ → Prop} {d : Dev σ} {e : Dev τ} (ha : Alike R d e) (c : RegAccess.Cfg) (dflt : Rights) (h : Hooks)
include ha

theorem bashOnce_alike (dc k : Nat) {a : St σ} {b : St τ} (hab : SRel R a b) : ORel (SRel R) (bashOnce c dflt d h dc k a) (bashOnce c dflt e h dc k b) := by
  obtain ⟨h1, h2, h3⟩ := hab
  unfold bashOnce
  rw [h1, h2]
  refine orel_bind (doWrite_alike ha c dflt h h _ a.dev b.dev h3 _) fun x y hxy => ?_
  rw [hxy.1]
  refine orel_bind (doRead_alike ha c h h y.reg x.dev y.dev hxy.2.2) fun x' y' hxy' => ?_
  refine .some ⟨hxy'.1, ?_, hxy'.2.2.2.2⟩
  simp only [hxy.2.1, hxy'.2.1, hxy'.2.2.1]

theorem bashMap_alike (rt : Rights) {a : St σ} {b : St τ} (hab : SRel R a b) : ORel (SRel R) (bashMap dflt h a ⟨c, rt, d⟩) (bashMap dflt h b ⟨c, rt, e⟩) := by
  unfold bashMap
  rw [hab.1]
  cases dcBits rt b.reg with
  | none => exact .none
  | some dcs =>
    refine orel_foldlM _ _ (fun x y k hxy => ?_) _ _ _ hab
    unfold bashStep
    split
    · exact .none
    · exact .some hxy
    · exact orel_bind (bashOnce_alike ha c dflt h _ _ hxy) fun x y hxy => bashOnce_alike ha c dflt h _ _ hxy

theorem bashReg_alike (rt : Rights) (r : Reg) {s : σ} {t : τ} (hst : R s t) : ORel (SRel R) (bashReg dflt h [⟨c, rt, d⟩] r s) (bashReg dflt h [⟨c, rt, e⟩] r t) := by
  unfold bashReg
  simp only [List.foldlM_cons, List.foldlM_nil]
  exact orel_bind (bashMap_alike ha c dflt h rt ⟨rfl, rfl, hst⟩) fun x y hxy => .some hxy
end

end Verif.RegTests
