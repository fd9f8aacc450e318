import Verif.Model.CompDomain
import Verif.Lemmas.Phase
import Verif.Spec.CompDomain
/-!
# Lemmas about building schedules next to others

The dictionaries of some phases are shared (`with_phase`), so here each phase that is changed must have its own.
-/
namespace Verif.CompDomain
open Verif.Phase (set set_self set_ne addKey addPred addSucc delSucc preds succs new newTop Same)

abbrev PS := Phase.State

/-- The dictionary of predecessors (successors) of `a` is used by no other phase. -/
def OwnP (p : PS) (a : Nat) : Prop := ∀ b, b < p.next → p.pr b = p.pr a → b = a
def OwnS (p : PS) (a : Nat) : Prop := ∀ b, b < p.next → p.sr b = p.sr a → b = a

structure Good (p : PS) : Prop where
  prlt : ∀ a, a < p.next → p.pr a < p.nref
  srlt : ∀ a, a < p.next → p.sr a < p.nref
  agree : ∀ a b, a < p.next → b < p.next → (b ∈ preds p a ↔ a ∈ succs p b)
  inP : ∀ a, a < p.next → ∀ b ∈ preds p a, b < p.next
  inS : ∀ a, a < p.next → ∀ b ∈ succs p a, b < p.next

theorem new_eff {p : PS} (h : Good p) (k : Phase.Kind) (i par : Option Nat) :
    Good (new p k i par) ∧ (∀ a, a < p.next → preds (new p k i par) a = preds p a ∧ succs (new p k i par) a = succs p a) ∧
    preds (new p k i par) p.next = [] ∧ succs (new p k i par) p.next = [] ∧
    (∀ a, a < p.next → OwnP p a → OwnP (new p k i par) a) ∧ (∀ a, a < p.next → OwnS p a → OwnS (new p k i par) a) ∧
    OwnP (new p k i par) p.next ∧ OwnS (new p k i par) p.next := by
  have hP : ∀ a, a < p.next → preds (new p k i par) a = preds p a := by
    intro a ha
    show set p.pd p.nref [] (set p.pr p.next p.nref a) = _
    rw [set_ne p.pr _ (by omega : a ≠ p.next), set_ne _ _ (by have := h.prlt a ha; omega)]; rfl
  have hS : ∀ a, a < p.next → succs (new p k i par) a = succs p a := by
    intro a ha
    show set p.sd p.nref [] (set p.sr p.next p.nref a) = _
    rw [set_ne p.sr _ (by omega : a ≠ p.next), set_ne _ _ (by have := h.srlt a ha; omega)]; rfl
  have hP' : preds (new p k i par) p.next = [] := by
    show set p.pd p.nref [] (set p.pr p.next p.nref p.next) = _
    rw [set_self, set_self]
  have hS' : succs (new p k i par) p.next = [] := by
    show set p.sd p.nref [] (set p.sr p.next p.nref p.next) = _
    rw [set_self, set_self]
  refine ⟨⟨?_, ?_, ?_, ?_, ?_⟩, fun a ha => ⟨hP a ha, hS a ha⟩, hP', hS', ?_, ?_, ?_, ?_⟩
  · intro a ha
    show set p.pr p.next p.nref a < p.nref + 1
    by_cases e : a = p.next
    · subst e; rw [set_self]; omega
    · rw [set_ne _ _ e]; have := h.prlt a (by have : a < p.next + 1 := ha; omega); omega
  · intro a ha
    show set p.sr p.next p.nref a < p.nref + 1
    by_cases e : a = p.next
    · subst e; rw [set_self]; omega
    · rw [set_ne _ _ e]; have := h.srlt a (by have : a < p.next + 1 := ha; omega); omega
  · intro a b ha hb
    have ha : a < p.next + 1 := ha
    have hb : b < p.next + 1 := hb
    by_cases e : a = p.next
    · subst e
      rw [hP']
      by_cases f : b = p.next
      · subst f; rw [hS']
      · rw [hS b (by omega)]
        exact ⟨fun hm => (nomatch hm), fun hm => (by have := h.inS b (by omega) _ hm; omega)⟩
    · rw [hP a (by omega)]
      by_cases f : b = p.next
      · subst f
        rw [hS']
        exact ⟨fun hm => (by have := h.inP a (by omega) _ hm; omega), fun hm => (nomatch hm)⟩
      · rw [hS b (by omega)]; exact h.agree a b (by omega) (by omega)
  · intro a ha b hb
    have ha : a < p.next + 1 := ha
    show b < p.next + 1
    by_cases e : a = p.next
    · subst e; rw [hP'] at hb; cases hb
    · rw [hP a (by omega)] at hb; have := h.inP a (by omega) b hb; omega
  · intro a ha b hb
    have ha : a < p.next + 1 := ha
    show b < p.next + 1
    by_cases e : a = p.next
    · subst e; rw [hS'] at hb; cases hb
    · rw [hS a (by omega)] at hb; have := h.inS a (by omega) b hb; omega
  · intro a ha ho b hb e
    have hb : b < p.next + 1 := hb
    have e : set p.pr p.next p.nref b = set p.pr p.next p.nref a := e
    rw [set_ne p.pr (a := p.next) _ (by omega : a ≠ p.next)] at e
    by_cases f : b = p.next
    · subst f; rw [set_self] at e; have := h.prlt a ha; omega
    · rw [set_ne _ _ f] at e; exact ho b (by omega) e
  · intro a ha ho b hb e
    have hb : b < p.next + 1 := hb
    have e : set p.sr p.next p.nref b = set p.sr p.next p.nref a := e
    rw [set_ne p.sr (a := p.next) _ (by omega : a ≠ p.next)] at e
    by_cases f : b = p.next
    · subst f; rw [set_self] at e; have := h.srlt a ha; omega
    · rw [set_ne _ _ f] at e; exact ho b (by omega) e
  · intro b hb e
    have hb : b < p.next + 1 := hb
    have e : set p.pr p.next p.nref b = set p.pr p.next p.nref p.next := e
    rw [set_self] at e
    by_cases f : b = p.next
    · exact f
    · rw [set_ne _ _ f] at e; have := h.prlt b (by omega); omega
  · intro b hb e
    have hb : b < p.next + 1 := hb
    have e : set p.sr p.next p.nref b = set p.sr p.next p.nref p.next := e
    rw [set_self] at e
    by_cases f : b = p.next
    · exact f
    · rw [set_ne _ _ f] at e; have := h.srlt b (by omega); omega

/-- Changes of the two dictionaries of links, for phases with their own. -/
theorem addSucc_eff {p : PS} {a : Nat} (ho : OwnS p a) (k : Nat) {q : Nat} (hq : q < p.next) :
    succs (addSucc p a k) q = if q = a then addKey (succs p a) k else succs p q := by
  by_cases e : q = a
  · subst e; simp [addSucc, succs]
  · have : p.sr q ≠ p.sr a := fun h => e (ho q hq h)
    simp [addSucc, succs, e, set_ne _ _ this]

theorem addPred_eff {p : PS} {a : Nat} (ho : OwnP p a) (k : Nat) {q : Nat} (hq : q < p.next) :
    preds (addPred p a k) q = if q = a then addKey (preds p a) k else preds p q := by
  by_cases e : q = a
  · subst e; simp [addPred, preds]
  · have : p.pr q ≠ p.pr a := fun h => e (ho q hq h)
    simp [addPred, preds, e, set_ne _ _ this]

/-- Two chains joined: `b … e` goes between `q` and `x`. -/
theorem linkBefore_one {p : PS} (h : Good p) {b e x q : Nat} (hb : b < p.next) (he : e < p.next) (hx : x < p.next) (hq : q < p.next)
    (hbx : b ≠ x) (hex : e ≠ x) (hqe : q ≠ e) (hqx : q ≠ x) (px : preds p x = [q]) (sq : succs p q = [x]) (pb : preds p b = []) (se : succs p e = [])
    (ox : OwnP p x) (oe : OwnS p e) (oq : OwnS p q) :
    ∃ t, Phase.linkBefore p b e x = (t, .ok) ∧ Same p t ∧ Good t ∧
      (∀ a, a < p.next → preds t a = if a = x then [e] else if a = b then [q] else preds p a) ∧
      (∀ a, a < p.next → succs t a = if a = e then [x] else if a = q then [b] else succs p a) ∧
      (∀ a, a < p.next → OwnP p a → OwnP t a) ∧ (∀ a, OwnS p a → OwnS t a) ∧ OwnP t b := by
  let s0 : PS := { p with pr := set p.pr b (p.pr x) }
  let s1 := addSucc s0 e x
  have e1 : ∀ a, a < p.next → succs s1 a = if a = e then [x] else succs p a := by
    intro a ha
    rw [show succs s1 a = _ from addSucc_eff (p := s0) oe x ha]
    show (if a = e then addKey (succs p e) x else succs p a) = _
    rw [se]; rfl
  have epx : preds s1 x = [q] := by
    show p.pd (set p.pr b (p.pr x) x) = _
    rw [set_ne _ _ hbx.symm]; exact px
  have hmem : x ∈ succs s1 q := by rw [e1 q hq, if_neg hqe, sq]; simp
  let s2 := addSucc (delSucc s1 q x) q b
  have hloop : Phase.loopBefore x b (preds s1 x) s1 = (s2, true) := by
    rw [epx]; simp only [Phase.loopBefore]; rw [if_pos hmem]
  have od : OwnS (delSucc s1 q x) q := oq
  have ed : ∀ a, a < p.next → succs (delSucc s1 q x) a = if a = q then [] else succs s1 a := by
    intro a ha
    by_cases f : a = q
    · subst f
      show set s1.sd (s1.sr a) ((succs s1 a).erase x) (s1.sr a) = _
      rw [set_self, e1 a hq, if_neg hqe, sq]; simp
    · have : s1.sr a ≠ s1.sr q := fun h => f (oq a ha h)
      show set s1.sd (s1.sr q) _ (s1.sr a) = _
      rw [set_ne _ _ this, if_neg f]; rfl
  have e2 : ∀ a, a < p.next → succs s2 a = if a = e then [x] else if a = q then [b] else succs p a := by
    intro a ha
    rw [show succs s2 a = _ from addSucc_eff od b ha, ed q hq, if_pos rfl]
    by_cases f : a = q
    · subst f; rw [if_pos rfl, if_neg hqe, if_pos rfl]; rfl
    · rw [if_neg f, ed a ha, if_neg f, e1 a ha, if_neg f]
  let s3 : PS := { s2 with pr := set s2.pr x s2.nref, pd := set s2.pd s2.nref [], nref := s2.nref + 1 }
  have hpr : s3.pr = set (set p.pr b (p.pr x)) x p.nref := rfl
  have hval : ∀ a, a < p.next → s3.pr a = if a = x then p.nref else if a = b then p.pr x else p.pr a := by
    intro a ha
    rw [hpr]
    by_cases f : a = x
    · subst f; rw [set_self, if_pos rfl]
    · rw [set_ne _ _ f, if_neg f]
      by_cases g : a = b
      · subst g; rw [set_self, if_pos rfl]
      · rw [set_ne _ _ g, if_neg g]
  have e3 : ∀ a, a < p.next → preds s3 a = if a = x then [] else if a = b then [q] else preds p a := by
    intro a ha
    show set p.pd p.nref [] (s3.pr a) = _
    rw [hval a ha]
    by_cases f : a = x
    · rw [if_pos f, if_pos f, set_self]
    · rw [if_neg f, if_neg f]
      by_cases g : a = b
      · rw [if_pos g, if_pos g, set_ne _ _ (by have := h.prlt x hx; omega)]; exact px
      · rw [if_neg g, if_neg g, set_ne _ _ (by have := h.prlt a ha; omega)]; rfl
  have hlt : ∀ a, a < p.next → s3.pr a < p.nref + 1 := by
    intro a ha
    rw [hval a ha]
    have := h.prlt a ha
    have := h.prlt x hx
    split
    · omega
    · split <;> omega
  have o3 : OwnP s3 x := by
    intro a ha hh
    have ha : a < p.next := ha
    rw [hval a ha, hval x hx, if_pos rfl] at hh
    have := h.prlt a ha
    have := h.prlt x hx
    by_cases f : a = x
    · exact f
    · rw [if_neg f] at hh
      split at hh <;> omega
  let t := addPred s3 x e
  have et : ∀ a, a < p.next → preds t a = if a = x then [e] else if a = b then [q] else preds p a := by
    intro a ha
    rw [show preds t a = _ from addPred_eff o3 e ha, e3 x hx, if_pos rfl]
    by_cases f : a = x
    · rw [if_pos f, if_pos f]; rfl
    · rw [if_neg f, if_neg f, e3 a ha, if_neg f]
  have es : ∀ a, a < p.next → succs t a = if a = e then [x] else if a = q then [b] else succs p a := e2
  refine ⟨t, ?_, ⟨rfl, rfl, rfl, rfl, rfl⟩, ⟨hlt, fun a ha => ?_, ?_, ?_, ?_⟩, et, es, ?_, fun a ho => ho, ?_⟩
  · unfold Phase.linkBefore
    simp only []
    rw [show Phase.loopBefore x b (preds (addSucc { p with pr := set p.pr b (p.pr x) } e x) x) (addSucc { p with pr := set p.pr b (p.pr x) } e x) = (s2, true) from hloop]
    rfl
  · have := h.srlt a ha
    show p.sr a < p.nref + 1
    omega
  · intro a c ha hc
    have ha : a < p.next := ha
    have hc : c < p.next := hc
    rw [et a ha, es c hc]
    have ag := h.agree a c ha hc
    have a1 := h.agree x c hx hc
    have a2 := h.agree a q ha hq
    have a3 := h.agree b c hb hc
    have a4 := h.agree a e ha he
    rw [px] at a1; rw [sq] at a2; rw [pb] at a3; rw [se] at a4
    simp only [List.mem_singleton] at a1 a2 a3 a4
    grind
  · intro a ha c hc
    have ha : a < p.next := ha
    show c < p.next
    rw [et a ha] at hc
    split at hc
    · simp at hc; omega
    · split at hc
      · simp at hc; omega
      · exact h.inP a ha c hc
  · intro a ha c hc
    have ha : a < p.next := ha
    show c < p.next
    rw [es a ha] at hc
    split at hc
    · simp at hc; omega
    · split at hc
      · simp at hc; omega
      · exact h.inS a ha c hc
  · intro a ha ho c hc hh
    have hc : c < p.next := hc
    have hh : s3.pr c = s3.pr a := hh
    rw [hval c hc, hval a ha] at hh
    have l1 := h.prlt a ha
    have l2 := h.prlt x hx
    have l3 := h.prlt c hc
    have i1 := ho c hc
    have i2 := ox c hc
    have i3 := ox a ha
    grind
  · intro c hc hh
    have hc : c < p.next := hc
    have hh : s3.pr c = s3.pr b := hh
    rw [hval c hc, hval b hb] at hh
    have l2 := h.prlt x hx
    have l3 := h.prlt c hc
    have i2 := ox c hc
    grind

/-- `d … e` goes in parallel with `w`, which has one predecessor and one successor. -/
theorem linkWith_one {p : PS} (h : Good p) {b e w u v : Nat} (hb : b < p.next) (he : e < p.next) (hw : w < p.next) (hu : u < p.next) (hv : v < p.next)
    (pw : preds p w = [u]) (sw : succs p w = [v]) (pb : preds p b = []) (se : succs p e = []) (hbw : b ≠ w) (hew : e ≠ w) (hue : u ≠ e) (hvb : v ≠ b)
    (huw : u ≠ w) (hvw : v ≠ w) (ou : OwnS p u) (ov : OwnP p v) :
    Same p (Phase.linkWith p b e w) ∧ Good (Phase.linkWith p b e w) ∧
      (∀ a, a < p.next → preds (Phase.linkWith p b e w) a = if a = b then [u] else if a = v then addKey (preds p v) e else preds p a) ∧
      (∀ a, a < p.next → succs (Phase.linkWith p b e w) a = if a = e then [v] else if a = u then addKey (succs p u) b else succs p a) ∧
      (∀ a, a < p.next → a ≠ b → a ≠ w → OwnP p a → OwnP (Phase.linkWith p b e w) a) ∧
      (∀ a, a < p.next → a ≠ e → a ≠ w → OwnS p a → OwnS (Phase.linkWith p b e w) a) := by
  let s1 : PS := { p with pr := set p.pr b (p.pr w), sr := set p.sr e (p.sr w) }
  have p1 : ∀ a, a < p.next → preds s1 a = if a = b then [u] else preds p a := by
    intro a ha
    show p.pd (set p.pr b (p.pr w) a) = _
    by_cases f : a = b
    · subst f; rw [set_self, if_pos rfl]; exact pw
    · rw [set_ne _ _ f, if_neg f]; rfl
  have q1 : ∀ a, a < p.next → succs s1 a = if a = e then [v] else succs p a := by
    intro a ha
    show p.sd (set p.sr e (p.sr w) a) = _
    by_cases f : a = e
    · subst f; rw [set_self, if_pos rfl]; exact sw
    · rw [set_ne _ _ f, if_neg f]; rfl
  have ow : ∀ a, a < p.next → a ≠ e → a ≠ w → OwnS p a → OwnS s1 a := by
    intro a ha h1 h2 ho c hc hh
    have hh : set p.sr e (p.sr w) c = set p.sr e (p.sr w) a := hh
    rw [set_ne _ _ h1] at hh
    by_cases f : c = e
    · subst f; rw [set_self] at hh; exact absurd (ho w hw hh).symm h2
    · rw [set_ne _ _ f] at hh; exact ho c hc hh
  have owp : ∀ a, a < p.next → a ≠ b → a ≠ w → OwnP p a → OwnP s1 a := by
    intro a ha h1 h2 ho c hc hh
    have hh : set p.pr b (p.pr w) c = set p.pr b (p.pr w) a := hh
    rw [set_ne _ _ h1] at hh
    by_cases f : c = b
    · subst f; rw [set_self] at hh; exact absurd (ho w hw hh).symm h2
    · rw [set_ne _ _ f] at hh; exact ho c hc hh
  let s2 := addSucc s1 u b
  have q2 : ∀ a, a < p.next → succs s2 a = if a = e then [v] else if a = u then addKey (succs p u) b else succs p a := by
    intro a ha
    rw [show succs s2 a = _ from addSucc_eff (ow u hu hue huw ou) b ha, q1 u hu, if_neg hue]
    by_cases f : a = u
    · subst f; rw [if_pos rfl, if_neg hue, if_pos rfl]
    · rw [if_neg f, q1 a ha, if_neg f]
  have hsw : succs s2 w = [v] := by rw [q2 w hw, if_neg (Ne.symm hew), if_neg (Ne.symm huw)]; exact sw
  let t := addPred s2 v e
  have hdef : Phase.linkWith p b e w = t := by
    have h1 : preds s1 w = [u] := by rw [p1 w hw, if_neg (Ne.symm hbw)]; exact pw
    show (succs ((preds s1 w).foldl (fun s p => addSucc s p b) s1) w).foldl (fun s p => addPred s p e) ((preds s1 w).foldl (fun s p => addSucc s p b) s1) = _
    rw [h1]
    show (succs s2 w).foldl (fun s p => addPred s p e) s2 = _
    rw [hsw]; rfl
  rw [hdef]
  have ovs : OwnP s2 v := owp v hv hvb hvw ov
  have pt : ∀ a, a < p.next → preds t a = if a = b then [u] else if a = v then addKey (preds p v) e else preds p a := by
    intro a ha
    rw [show preds t a = _ from addPred_eff ovs e ha]
    show (if a = v then addKey (preds s1 v) e else preds s1 a) = _
    rw [p1 v hv, if_neg hvb, p1 a ha]
    by_cases f : a = v
    · subst f; rw [if_pos rfl, if_neg hvb, if_pos rfl]
    · rw [if_neg f, if_neg f]
  have qt : ∀ a, a < p.next → succs t a = if a = e then [v] else if a = u then addKey (succs p u) b else succs p a := q2
  refine ⟨⟨rfl, rfl, rfl, rfl, rfl⟩, ⟨fun a ha => ?_, fun a ha => ?_, ?_, ?_, ?_⟩, pt, qt, owp, ow⟩
  · have ha : a < p.next := ha
    show set p.pr b (p.pr w) a < p.nref
    by_cases f : a = b
    · subst f; rw [set_self]; exact h.prlt w hw
    · rw [set_ne _ _ f]; exact h.prlt a ha
  · have ha : a < p.next := ha
    show set p.sr e (p.sr w) a < p.nref
    by_cases f : a = e
    · subst f; rw [set_self]; exact h.srlt w hw
    · rw [set_ne _ _ f]; exact h.srlt a ha
  · intro a c ha hc
    have ha : a < p.next := ha
    have hc : c < p.next := hc
    rw [pt a ha, qt c hc]
    have ag := h.agree a c ha hc
    have a1 := h.agree v c hv hc
    have a2 := h.agree a u ha hu
    have a3 := h.agree b c hb hc
    have a4 := h.agree a e ha he
    rw [pb] at a3; rw [se] at a4
    have m1 := @Phase.mem_addKey (preds p v) e c
    have m2 := @Phase.mem_addKey (succs p u) b a
    grind
  · intro a ha c hc
    have ha : a < p.next := ha
    show c < p.next
    rw [pt a ha] at hc
    split at hc
    · simp at hc; omega
    · split at hc
      · rcases Phase.mem_addKey.1 hc with hc | hc
        · exact h.inP v hv c hc
        · omega
      · exact h.inP a ha c hc
  · intro a ha c hc
    have ha : a < p.next := ha
    show c < p.next
    rw [qt a ha] at hc
    split at hc
    · simp at hc; omega
    · split at hc
      · rcases Phase.mem_addKey.1 hc with hc | hc
        · exact h.inS u hu c hc
        · omega
      · exact h.inS a ha c hc

theorem own_of_pr {p t : PS} (h : t.pr = p.pr) (hn : t.next = p.next) {a : Nat} (ho : OwnP p a) : OwnP t a := by
  intro b hb e; rw [h] at e; exact ho b (hn ▸ hb) e
theorem own_of_sr {p t : PS} (h : t.sr = p.sr) (hn : t.next = p.next) {a : Nat} (ho : OwnS p a) : OwnS t a := by
  intro b hb e; rw [h] at e; exact ho b (hn ▸ hb) e

/-- What stays: `X`, `Y`, `Z` are the phases whose predecessors, successors or parent may change; `V`, `W` those that may have to share a dictionary. -/
structure Ext (p t : PS) (X Y Z V W : List Nat) : Prop where
  le : p.next ≤ t.next
  kind : ∀ a, a < p.next → t.kind a = p.kind a
  imp : ∀ a, a < p.next → t.imp a = p.imp a
  endN : ∀ a, a < p.next → t.endN a = p.endN a
  parent : ∀ a, a < p.next → a ∉ Z → t.parent a = p.parent a
  preds : ∀ a, a < p.next → a ∉ X → preds t a = preds p a
  succs : ∀ a, a < p.next → a ∉ Y → succs t a = succs p a
  ownP : ∀ a, a < p.next → a ∉ V → OwnP p a → OwnP t a
  ownS : ∀ a, a < p.next → a ∉ W → OwnS p a → OwnS t a

theorem Ext.trans {p t u : PS} {X Y Z V W X' Y' Z' V' W' : List Nat} (h : Ext p t X Y Z V W) (k : Ext t u X' Y' Z' V' W') :
    Ext p u (X ++ X') (Y ++ Y') (Z ++ Z') (V ++ V') (W ++ W') := by
  have l := h.le
  constructor
  · exact Nat.le_trans l k.le
  · intro a ha; rw [k.kind a (by omega), h.kind a ha]
  · intro a ha; rw [k.imp a (by omega), h.imp a ha]
  · intro a ha; rw [k.endN a (by omega), h.endN a ha]
  · intro a ha hm; simp only [List.mem_append, not_or] at hm; rw [k.parent a (by omega) hm.2, h.parent a ha hm.1]
  · intro a ha hm; simp only [List.mem_append, not_or] at hm; rw [k.preds a (by omega) hm.2, h.preds a ha hm.1]
  · intro a ha hm; simp only [List.mem_append, not_or] at hm; rw [k.succs a (by omega) hm.2, h.succs a ha hm.1]
  · intro a ha hm ho; simp only [List.mem_append, not_or] at hm; exact k.ownP a (by omega) hm.2 (h.ownP a ha hm.1 ho)
  · intro a ha hm ho; simp only [List.mem_append, not_or] at hm; exact k.ownS a (by omega) hm.2 (h.ownS a ha hm.1 ho)

/-- The exceptions that do not exist yet do not count. -/
theorem Ext.weaken {p t : PS} {X Y Z V W X' Y' Z' V' W' : List Nat} (h : Ext p t X Y Z V W) (hX : ∀ a ∈ X, a < p.next → a ∈ X')
    (hY : ∀ a ∈ Y, a < p.next → a ∈ Y') (hZ : ∀ a ∈ Z, a < p.next → a ∈ Z') (hV : ∀ a ∈ V, a < p.next → a ∈ V') (hW : ∀ a ∈ W, a < p.next → a ∈ W') :
    Ext p t X' Y' Z' V' W' :=
  ⟨h.le, h.kind, h.imp, h.endN, fun a ha hm => h.parent a ha fun h => hm (hZ a h ha), fun a ha hm => h.preds a ha fun h => hm (hX a h ha),
    fun a ha hm => h.succs a ha fun h => hm (hY a h ha), fun a ha hm => h.ownP a ha fun h => hm (hV a h ha), fun a ha hm => h.ownS a ha fun h => hm (hW a h ha)⟩

/-- A new schedule or domain. -/
theorem newTop_eff {p : PS} (h : Good p) (k : Phase.Kind) :
    Good (newTop p k) ∧ Ext p (newTop p k) [] [] [] [] [] ∧ (newTop p k).next = p.next + 2 ∧
    preds (newTop p k) p.next = [] ∧ succs (newTop p k) p.next = [p.next + 1] ∧ preds (newTop p k) (p.next + 1) = [p.next] ∧
    succs (newTop p k) (p.next + 1) = [] ∧ (newTop p k).kind p.next = k ∧ (newTop p k).kind (p.next + 1) = .terminal ∧
    (newTop p k).parent (p.next + 1) = some p.next ∧ (newTop p k).endN p.next = some (p.next + 1) ∧
    OwnP (newTop p k) p.next ∧ OwnS (newTop p k) p.next ∧ OwnP (newTop p k) (p.next + 1) ∧ OwnS (newTop p k) (p.next + 1) := by
  obtain ⟨g1, f1, p1, s1, oP1, oS1, nP1, nS1⟩ := new_eff h k none none
  obtain ⟨g2, f2, p2, s2, oP2, oS2, nP2, nS2⟩ := new_eff g1 .terminal none (some p.next)
  let q1 := new p k none none
  let q2 := new q1 .terminal none (some p.next)
  have n1 : q1.next = p.next + 1 := rfl
  have n2 : q2.next = p.next + 2 := rfl
  have oS : OwnS q2 p.next := oS2 p.next (by show p.next < p.next + 1; omega) nS1
  have oP : OwnP q2 (p.next + 1) := nP2
  have fS : ∀ a, a < p.next + 2 → succs (newTop p k) a = if a = p.next then [p.next + 1] else succs q2 a := by
    intro a ha
    have := addSucc_eff (p := { q2 with endN := set q2.endN p.next (some (p.next + 1)) }) (a := p.next) oS (p.next + 1) (q := a) ha
    refine this.trans ?_
    have e : succs q2 p.next = [] := by
      rw [show succs q2 p.next = succs q1 p.next from (f2 p.next (by show p.next < p.next + 1; omega)).2]; exact s1
    show (if a = p.next then addKey (succs q2 p.next) (p.next + 1) else succs q2 a) = _
    rw [e]; rfl
  have fP : ∀ a, a < p.next + 2 → preds (newTop p k) a = if a = p.next + 1 then [p.next] else preds q2 a := by
    intro a ha
    have := addPred_eff (p := addSucc { q2 with endN := set q2.endN p.next (some (p.next + 1)) } p.next (p.next + 1)) (a := p.next + 1) oP p.next (q := a) ha
    refine this.trans ?_
    show (if a = p.next + 1 then addKey (preds q2 (p.next + 1)) p.next else preds q2 a) = _
    rw [show preds q2 (p.next + 1) = [] from p2]; rfl
  have kk : (newTop p k).kind = set (set p.kind p.next k) (p.next + 1) .terminal := rfl
  have ii : (newTop p k).imp = set (set p.imp p.next none) (p.next + 1) none := rfl
  have pp : (newTop p k).parent = set (set p.parent p.next none) (p.next + 1) (some p.next) := rfl
  have ee : (newTop p k).endN = set (set (set p.endN p.next none) (p.next + 1) none) p.next (some (p.next + 1)) := rfl
  have old : ∀ {α : Type} (f : Nat → α) (x y : α) (a : Nat), a < p.next → set (set f p.next x) (p.next + 1) y a = f a := by
    intro α f x y a ha; rw [set_ne _ _ (by omega), set_ne _ _ (by omega)]
  refine ⟨⟨g2.prlt, g2.srlt, ?_, ?_, ?_⟩, ⟨by show p.next ≤ p.next + 2; omega, ?_, ?_, ?_, ?_, ?_, ?_, ?_, ?_⟩, rfl, ?_, ?_, ?_, ?_, ?_, ?_, ?_, ?_, ?_, ?_, ?_, ?_⟩
  · intro a b ha hb
    have ha : a < p.next + 2 := ha
    have hb : b < p.next + 2 := hb
    rw [fP a ha, fS b hb]
    have ag := g2.agree a b ha hb
    have a1 := g2.agree (p.next + 1) b (by show _ < p.next + 2; omega) hb
    have a2 := g2.agree a p.next ha (by show _ < p.next + 2; omega)
    rw [show preds q2 (p.next + 1) = [] from p2] at a1
    have e : succs q2 p.next = [] := by
      rw [show succs q2 p.next = succs q1 p.next from (f2 p.next (by show p.next < p.next + 1; omega)).2]; exact s1
    rw [e] at a2
    have ag : b ∈ preds q2 a ↔ a ∈ succs q2 b := ag
    by_cases h1 : a = p.next + 1
    · by_cases h2 : b = p.next
      · simp [h1, h2]
      · rw [if_pos h1, if_neg h2, h1]
        have : ¬ (p.next + 1 ∈ succs q2 b) := fun h => nomatch (a1.2 h)
        simp [h2, this]
    · by_cases h2 : b = p.next
      · rw [if_neg h1, if_pos h2, h2]
        have : ¬ (p.next ∈ preds q2 a) := fun h => nomatch (a2.1 h)
        simp [h1, this]
      · rw [if_neg h1, if_neg h2]; exact ag
  · intro a ha b hb
    have ha : a < p.next + 2 := ha
    show b < p.next + 2
    rw [fP a ha] at hb
    split at hb
    · simp at hb; omega
    · exact g2.inP a ha b hb
  · intro a ha b hb
    have ha : a < p.next + 2 := ha
    show b < p.next + 2
    rw [fS a ha] at hb
    split at hb
    · simp at hb; omega
    · exact g2.inS a ha b hb
  · intro a ha; rw [kk]; exact old _ _ _ a ha
  · intro a ha; rw [ii]; exact old _ _ _ a ha
  · intro a ha; rw [ee, set_ne _ _ (by omega)]; exact old _ _ _ a ha
  · intro a ha _; rw [pp]; exact old _ _ _ a ha
  · intro a ha _
    rw [fP a (by omega), if_neg (by omega)]
    exact ((f2 a (by show a < p.next + 1; omega)).1).trans (f1 a ha).1
  · intro a ha _
    rw [fS a (by omega), if_neg (by omega)]
    exact ((f2 a (by show a < p.next + 1; omega)).2).trans (f1 a ha).2
  · intro a ha _ ho; exact oP2 a (by show a < p.next + 1; omega) (oP1 a ha ho)
  · intro a ha _ ho; exact oS2 a (by show a < p.next + 1; omega) (oS1 a ha ho)
  · rw [fP p.next (by omega), if_neg (by omega)]
    exact ((f2 p.next (by show p.next < p.next + 1; omega)).1).trans p1
  · rw [fS p.next (by omega), if_pos rfl]
  · rw [fP (p.next + 1) (by omega), if_pos rfl]
  · rw [fS (p.next + 1) (by omega), if_neg (by omega)]; exact s2
  · rw [kk, set_ne _ _ (by omega), set_self]
  · rw [kk, set_self]
  · rw [pp, set_self]
  · rw [ee, set_self]
  · exact oP2 p.next (by show p.next < p.next + 1; omega) nP1
  · exact oS
  · exact oP
  · exact nS2

/-- Each phase of the list is the only predecessor of the next. -/
def LinkedP (p : PS) : List Nat → Prop
  | a :: b :: l => preds p b = [a] ∧ LinkedP p (b :: l)
  | _ => True

theorem linkedP_frame {p t : PS} : ∀ (l : List Nat), (∀ b ∈ l.tail, preds t b = preds p b) → LinkedP p l → LinkedP t l
  | [], _, _ => trivial
  | [_], _, _ => trivial
  | a :: b :: l, h, hl => ⟨(h b (by simp)).trans hl.1, linkedP_frame (b :: l) (fun c hc => h c (by simp at hc ⊢; exact .inr hc)) hl.2⟩

/-- A phase at the end of a schedule. -/
theorem append_one {p : PS} (h : Good p) {k i x q : Nat} (hk : k < p.next) (hi : i < p.next) (hik : p.kind i = .imp) (hx : x < p.next) (hq : q < p.next)
    (ek : p.endN k = some x) (px : preds p x = [q]) (sq : succs p q = [x]) (hqx : q ≠ x) (ox : OwnP p x) (oq : OwnS p q) :
    ∃ t, Phase.step p (.add k i none none none) = (t, .ok) ∧ Good t ∧ Ext p t [x] [q] [] [] [] ∧ t.next = p.next + 1 ∧ preds t x = [p.next] ∧
      preds t p.next = [q] ∧ succs t p.next = [x] ∧ succs t q = [p.next] ∧ t.kind p.next = .node ∧ t.imp p.next = some i ∧ t.parent p.next = some k ∧
      OwnS t p.next ∧ OwnP t x := by
  obtain ⟨g1, f1, p1, s1, oP1, oS1, nP1, nS1⟩ := new_eff h .node (some i) (some k)
  have lt : ∀ {a}, a < p.next → a < (new p .node (some i) (some k)).next := fun {a} ha => by show a < p.next + 1; omega
  obtain ⟨t, ht, hs, hg, hP, hS, oP, oS, _⟩ := linkBefore_one g1 (b := p.next) (e := p.next) (x := x) (q := q) (by show _ < p.next + 1; omega)
    (by show _ < p.next + 1; omega) (lt hx) (lt hq) (by omega) (by omega) (by omega) hqx ((f1 x hx).1.trans px) ((f1 q hq).2.trans sq) p1 s1
    (oP1 x hx ox) nS1 (oS1 q hq oq)
  have hn : t.next = p.next + 1 := hs.next
  have kk : t.kind = set p.kind p.next .node := hs.kind
  have ii : t.imp = set p.imp p.next (some i) := hs.imp
  have pp : t.parent = set p.parent p.next (some k) := hs.parent
  have ee : t.endN = set p.endN p.next none := hs.endN
  refine ⟨t, ?_, hg, ⟨by omega, ?_, ?_, ?_, ?_, ?_, ?_, ?_, ?_⟩, hn, ?_, ?_, ?_, ?_, ?_, ?_, ?_, ?_, ?_⟩
  · have : Phase.add p k i none none none = (t, .ok) := by
      simp only [Phase.add, Phase.resolve, Option.isSome_none, Bool.false_and, Bool.false_eq_true, if_false, ek, Phase.place, hik]
      simp only [reduceCtorEq, or_self, if_false, and_self, if_true, Phase.link]
      exact ht
    simp only [Phase.step, Phase.below, hk, hi, and_self, if_true]
    exact this
  · intro a ha; rw [kk, set_ne _ _ (by omega)]
  · intro a ha; rw [ii, set_ne _ _ (by omega)]
  · intro a ha; rw [ee, set_ne _ _ (by omega)]
  · intro a ha _; rw [pp, set_ne _ _ (by omega)]
  · intro a ha hm
    rw [hP a (lt ha), if_neg (by simpa using hm), if_neg (by omega)]; exact (f1 a ha).1
  · intro a ha hm
    rw [hS a (lt ha), if_neg (by omega), if_neg (by simpa using hm)]; exact (f1 a ha).2
  · intro a ha _ ho; exact oP a (lt ha) (oP1 a ha ho)
  · intro a ha _ ho; exact oS a (oS1 a ha ho)
  · rw [hP x (lt hx), if_pos rfl]
  · rw [hP p.next (by show _ < p.next + 1; omega), if_neg (by omega), if_pos rfl]
  · rw [hS p.next (by show _ < p.next + 1; omega), if_pos rfl]
  · rw [hS q (lt hq), if_neg (by omega), if_pos rfl]
  · rw [kk, set_self]
  · rw [ii, set_self]
  · rw [pp, set_self]
  · exact oS p.next nS1
  · exact oP x (lt hx) (oP1 x hx ox)

/-- The phases of a list of names, one after another at the end of a schedule. -/
theorem append_all (s : Domain.State) (k x : Nat) : ∀ (names : List String) (p : PS) (q : Nat), Good p → k < p.next → x < p.next → q < p.next →
    (∀ n ∈ names, ∃ i, Domain.impOf s n = some i ∧ i < p.next ∧ p.kind i = .imp) → p.endN k = some x → preds p x = [q] → succs p q = [x] → q ≠ x →
    OwnP p x → OwnS p q →
    ∃ t, names.foldl (fun r n => addOld r k n) ({ s with ph := p }, true) = ({ s with ph := t }, true) ∧ Good t ∧ Ext p t [x] [q] [] [] [] ∧
      t.next = p.next + names.length ∧ LinkedP t (q :: List.range' p.next names.length ++ [x]) ∧ OwnP t x ∧
      (∀ j (hj : j < names.length), t.kind (p.next + j) = .node ∧ t.imp (p.next + j) = Domain.impOf s names[j] ∧ t.parent (p.next + j) = some k) ∧
      (names ≠ [] → succs t q = [p.next]) := by
  intro names
  induction names with
  | nil =>
    intro p q h hk hx hq _ ek px sq hqx ox oq
    exact ⟨p, rfl, h, ⟨Nat.le_refl _, fun _ _ => rfl, fun _ _ => rfl, fun _ _ => rfl, fun _ _ _ => rfl, fun _ _ _ => rfl, fun _ _ _ => rfl,
      fun _ _ _ h => h, fun _ _ _ h => h⟩, rfl, ⟨px, trivial⟩, ox, fun j hj => absurd hj (Nat.not_lt_zero j), fun h => absurd rfl h⟩
  | cons n names ih =>
    intro p q h hk hx hq hi ek px sq hqx ox oq
    obtain ⟨i, hi1, hi2, hi3⟩ := hi n List.mem_cons_self
    obtain ⟨t, ht, g, e, hn, px', pn, sn, sq', kn, imn, pan, osn, opx⟩ := append_one h hk hi2 hi3 hx hq ek px sq hqx ox oq
    obtain ⟨u, hu, gu, eu, un, ul, ou, uj, us⟩ := ih t p.next g (by omega) (by omega) (by omega)
      (fun m hm => by obtain ⟨j, h1, h2, h3⟩ := hi m (List.mem_cons_of_mem _ hm); exact ⟨j, h1, by omega, by rw [e.kind j h2]; exact h3⟩)
      (by rw [e.endN k hk]; exact ek) px' sn (by omega) opx osn
    have e2 : Ext p u [x] [q] [] [] [] := (e.trans eu).weaken (by simp) (by simp) (by simp) (by simp) (by simp)
    refine ⟨u, ?_, gu, e2, by simp; omega, ?_, ou, ?_, fun _ => ?_⟩
    · rw [List.foldl_cons]
      have : addOld ({ s with ph := p }, true) k n = ({ s with ph := t }, true) := by
        unfold addOld
        rw [show Domain.impOf ({ s with ph := p } : Domain.State) n = some i from hi1]
        simp only [ht, decide_true, Bool.and_self]
      rw [this]; exact hu
    · rw [List.length_cons, List.range'_succ]
      refine ⟨?_, ?_⟩
      · rw [eu.preds p.next (by omega) (by simp; omega)]; exact pn
      · rw [hn] at ul; exact ul
    · intro j hj
      cases j with
      | zero => exact ⟨by rw [Nat.add_zero, eu.kind _ (by omega)]; exact kn, by rw [Nat.add_zero, eu.imp _ (by omega), imn]; exact hi1.symm,
          by rw [Nat.add_zero, eu.parent _ (by omega) (by simp)]; exact pan⟩
      | succ j =>
        have := uj j (by simpa using hj)
        rw [hn] at this
        rw [show p.next + (j + 1) = p.next + 1 + j by omega]
        exact this
    · rw [eu.succs q (by omega) (by simp; omega)]; exact sq'

/-- The standard phases. -/
def base : PS := (Domain.getCommon Domain.init).1.ph

/-- The IMP phases of the run-time phases. -/
def runtimeImps : List Nat := [24, 26, 28, 30, 32, 34, 36, 38, 40, 42, 44, 46]

/-- A domain with its schedule in its place: after `start_of_simulation` (9) and before `extract` (13). -/
structure Cust (p : PS) (d k : Nat) (ns : List Nat) : Prop where
  lt : d + 1 < p.next ∧ k + 1 < p.next
  kd : p.kind d = .domain
  ke : p.kind (d + 1) = .terminal ∧ p.parent (d + 1) = some d
  kk : p.kind k = .schedule ∧ p.parent k = some d
  kt : p.kind (k + 1) = .terminal ∧ p.parent (k + 1) = some k
  pd : preds p d = [9]
  link : LinkedP p (d :: k :: ns ++ [k + 1, d + 1])
  last : d + 1 ∈ preds p 13
  sd : succs p d = [k]
  nodes : ∀ a ∈ ns, a < p.next ∧ p.kind a = .node ∧ p.parent a = some k
  imps : ns.map p.imp = runtimeImps.map some

/-- A new domain. -/
structure Free (p : PS) (d : Nat) : Prop where
  lt : 48 ≤ d ∧ d + 1 < p.next
  kd : p.kind d = .domain
  ke : p.kind (d + 1) = .terminal ∧ p.parent (d + 1) = some d
  en : p.endN d = some (d + 1)
  pd : preds p d = []
  sd : succs p d = [d + 1]
  pe : preds p (d + 1) = [d]
  se : succs p (d + 1) = []
  oP : OwnP p (d + 1)
  oS : OwnS p d

/-- The standard phases are in place. -/
structure Std (p : PS) : Prop where
  le : 48 ≤ p.next
  std : ∀ a, a < 48 → p.kind a = base.kind a ∧ p.imp a = base.imp a ∧ p.endN a = base.endN a ∧ p.parent a = base.parent a
  p48 : ∀ a, a < 48 → a ≠ 13 → preds p a = preds base a
  s48 : ∀ a, a < 48 → a ≠ 9 → succs p a = succs base a
  s9 : ∃ r, succs p 9 = 11 :: r

structure PInv (p : PS) (D : List (Nat × Nat × List Nat)) (F : List Nat) : Prop extends Std p where
  good : Good p
  p13 : 11 ∈ preds p 13
  own9 : OwnS p 9
  own13 : OwnP p 13
  cust : ∀ e ∈ D, Cust p e.1 e.2.1 e.2.2
  free : ∀ d ∈ F, Free p d
  disj : ∀ d ∈ F, ∀ e ∈ D, e.1 ≠ d
  nodes : ∀ a, 48 ≤ a → a < p.next → p.kind a = .node → ∃ e ∈ D, a ∈ e.2.2
  doms : ∀ a, a < p.next → p.kind a = .domain → a = 0 ∨ a ∈ F ∨ ∃ e ∈ D, e.1 = a
  imps : ∀ a, a < p.next → p.kind a = .imp → a < 48
  dn : (D.map (·.1)).Nodup

def uvmDom : Nat × Nat × List Nat := (20, 22, [25, 27, 29, 31, 33, 35, 37, 39, 41, 43, 45, 47])

theorem base_next : base.next = 48 := by decide +kernel

/-- A walk along first successors. -/
def Path (p : PS) : List Nat → Prop
  | a :: b :: l => (∃ r, succs p a = b :: r) ∧ Path p (b :: l)
  | [a] => succs p a = []
  | [] => True

theorem findSucc_miss {p : PS} {stay : Bool} {orig ph : Nat} : ∀ (l : List Nat) (a n : Nat), Path p (a :: l) →
    (∀ b ∈ a :: l, Phase.isPhase p ph b = false ∧ Phase.inScope p stay orig b = true) → l.length < n → Phase.findSucc p stay orig ph n a = some none
  | [], a, n + 1, h, hb, _ => by
    simp only [Phase.findSucc, (hb a (by simp)).1, Bool.false_eq_true, if_false]
    rw [show succs p a = [] from h]; rfl
  | b :: l, a, n + 1, h, hb, hn => by
    obtain ⟨⟨r, hr⟩, h2⟩ := h
    simp only [Phase.findSucc, (hb a (by simp)).1, Bool.false_eq_true, if_false]
    rw [hr, List.find?_cons_of_pos (hb b (by simp)).2]
    exact findSucc_miss l b n h2 (fun c hc => hb c (List.mem_cons_of_mem _ hc)) (by simpa using hn)

/-- … that ends where the phase is found. -/
def Path' (p : PS) : List Nat → Prop
  | a :: b :: l => (∃ r, succs p a = b :: r) ∧ Path' p (b :: l)
  | _ => True

theorem findSucc_hit {p : PS} {stay : Bool} {orig ph z : Nat} (hz : Phase.isPhase p ph z = true) (hs : Phase.inScope p stay orig z = true) :
    ∀ (l : List Nat) (a n : Nat), Path' p (a :: l ++ [z]) →
    (∀ b ∈ a :: l, Phase.isPhase p ph b = false ∧ Phase.inScope p stay orig b = true) → l.length + 1 < n → Phase.findSucc p stay orig ph n a = some (some z)
  | [], a, n + 2, h, hb, _ => by
    obtain ⟨⟨r, hr⟩, _⟩ := h
    simp only [Phase.findSucc, (hb a (by simp)).1, Bool.false_eq_true, if_false]
    rw [hr, List.find?_cons_of_pos hs]
    simp only [hz, if_true]
  | b :: l, a, n + 1, h, hb, hn => by
    obtain ⟨⟨r, hr⟩, h2⟩ := h
    simp only [Phase.findSucc, (hb a (by simp)).1, Bool.false_eq_true, if_false]
    rw [hr, List.find?_cons_of_pos (hb b (by simp)).2]
    exact findSucc_hit hz hs l b n h2 (fun c hc => hb c (List.mem_cons_of_mem _ hc)) (by simpa using hn)

theorem path_facts {p : PS} (h : Std p) :
    Path p [0, 3, 5, 7, 9, 11, 13, 15, 17, 19, 1] ∧ Path' p [0, 3, 5, 7, 9, 11] := by
  have e : ∀ a b, a < 48 → a ≠ 9 → succs base a = [b] → ∃ r, succs p a = b :: r := fun a b ha h9 hb => ⟨[], (h.s48 a ha h9).trans hb⟩
  have e0 := e 0 3 (by omega) (by omega) (by decide +kernel)
  have e3 := e 3 5 (by omega) (by omega) (by decide +kernel)
  have e5 := e 5 7 (by omega) (by omega) (by decide +kernel)
  have e7 := e 7 9 (by omega) (by omega) (by decide +kernel)
  have e11 := e 11 13 (by omega) (by omega) (by decide +kernel)
  have e13 := e 13 15 (by omega) (by omega) (by decide +kernel)
  have e15 := e 15 17 (by omega) (by omega) (by decide +kernel)
  have e17 := e 17 19 (by omega) (by omega) (by decide +kernel)
  have e19 := e 19 1 (by omega) (by omega) (by decide +kernel)
  have e1 : succs p 1 = [] := (h.s48 1 (by omega) (by omega)).trans (by decide +kernel)
  exact ⟨⟨e0, e3, e5, e7, h.s9, e11, e13, e15, e17, e19, e1⟩, ⟨e0, e3, e5, e7, h.s9, trivial⟩⟩

/-- 1043: no domain is found in the common domain. -/
theorem find_miss {p : PS} (h : Std p) {d : Nat} (hd : 48 ≤ d) : Phase.find p 0 d false = some none := by
  have hi : ∀ b ∈ [0, 3, 5, 7, 9, 11, 13, 15, 17, 19, 1], Phase.isPhase p d b = false ∧ Phase.inScope p false 0 b = true := by
    intro b hb
    have hb' : b < 48 := by revert b; decide
    have : base.imp b ≠ some d := by
      have : ∀ b ∈ [0, 3, 5, 7, 9, 11, 13, 15, 17, 19, 1], (base.imp b).getD 0 < 48 := by decide +kernel
      intro e
      have := this b hb
      rw [e] at this
      simp only [Option.getD_some] at this
      omega
    refine ⟨?_, rfl⟩
    unfold Phase.isPhase
    rw [(h.std b hb').2.1]
    have h2 : b ≠ d := by omega
    simp [this, h2]
  have hp : Phase.findPred p false 0 d (p.next + 1) 0 = some none := by
    simp only [Phase.findPred, (hi 0 (by simp)).1, Bool.false_eq_true, if_false]
    rw [h.p48 0 (by omega) (by omega), show preds base 0 = [] from by decide +kernel]; rfl
  have hs := findSucc_miss (p := p) (stay := false) (orig := 0) (ph := d) [3, 5, 7, 9, 11, 13, 15, 17, 19, 1] 0 (p.next + 1) (path_facts h).1 hi
    (by have := h.le; simp; omega)
  unfold Phase.find
  rw [(hi 0 (by simp)).1, hp]
  simpa using hs

/-- 443-447: `with_phase=UVMRunPhase.get()` is the run phase. -/
theorem find_run {p : PS} (h : Std p) : Phase.find p 0 10 true = some (some 11) := by
  have k0 : p.kind 0 = .domain := (h.std 0 (by omega)).1.trans (by decide +kernel)
  have hsch : ∀ b ∈ [0, 3, 5, 7, 9, 11], Phase.inScope p true 0 b = true := by
    intro b hb
    have hb' : b < 48 := by revert b; decide
    have : ∀ b ∈ [0, 3, 5, 7, 9, 11], Phase.getSchedule base b = none := by decide +kernel
    have e : ∀ b, b < 48 → (∀ q, base.parent b = some q → q < 48) → Phase.getSchedule p b = Phase.getSchedule base b := by
      intro b hb hq
      unfold Phase.getSchedule
      rw [(h.std b hb).1, (h.std b hb).2.2.2]
      split <;> try rfl
      cases hp : base.parent b with
      | none => rfl
      | some q => show (if p.kind q = _ then _ else _) = (if base.kind q = _ then _ else _); rw [(h.std q (hq q hp)).1]
    have hpar : ∀ b ∈ [0, 3, 5, 7, 9, 11], (base.parent b).getD 0 < 48 := by decide +kernel
    have hlt : ∀ b ∈ [0, 3, 5, 7, 9, 11], ∀ q, base.parent b = some q → q < 48 := by
      intro b hb q hq
      have := hpar b hb
      rw [hq] at this; exact this
    unfold Phase.inScope
    rw [e b hb' (hlt b hb), e 0 (by omega) (hlt 0 (by simp)), this b hb, this 0 (by simp)]
    simp
  have hi : ∀ b ∈ [0, 3, 5, 7, 9], Phase.isPhase p 10 b = false ∧ Phase.inScope p true 0 b = true := by
    intro b hb
    have hb' : b < 48 := by revert b; decide
    refine ⟨?_, hsch b (by revert b; decide)⟩
    unfold Phase.isPhase
    rw [(h.std b hb').2.1]
    revert b
    decide +kernel
  have hz : Phase.isPhase p 10 11 = true := by
    unfold Phase.isPhase
    rw [(h.std 11 (by omega)).2.1]
    decide +kernel
  have hp : Phase.findPred p true 0 10 (p.next + 1) 0 = some none := by
    simp only [Phase.findPred, (hi 0 (by simp)).1, Bool.false_eq_true, if_false]
    rw [h.p48 0 (by omega) (by omega), show preds base 0 = [] from by decide +kernel]; rfl
  have hs := findSucc_hit (p := p) (stay := true) (orig := 0) (ph := 10) (z := 11) hz (hsch 11 (by simp)) [3, 5, 7, 9] 0 (p.next + 1) (path_facts h).2 hi
    (by have := h.le; simp; omega)
  unfold Phase.find
  rw [(hi 0 (by simp)).1, hp]
  simpa using hs

theorem linkedP_snoc {p : PS} {a b : Nat} (h : preds p b = [a]) : ∀ (l : List Nat), LinkedP p (l ++ [a]) → LinkedP p (l ++ [a, b])
  | [], _ => ⟨h, trivial⟩
  | [c], hl => ⟨hl.1, h, trivial⟩
  | c :: e :: l, hl => ⟨hl.1, linkedP_snoc h (e :: l) hl.2⟩

/-- 1039-1041: what a domain gets. -/
theorem addSched_eff {s : State} {D : List (Nat × Nat × List Nat)} {F : List Nat} {d : Nat} (h : PInv s.dom.ph D F) (hd : d ∈ F)
    (hnames : s.dom.names = start.dom.names) :
    ∃ u, addSched s d = ({ s with dom := { s.dom with ph := u }, tops := upd s.tops s.dom.ph.next (some "uvm_sched") }, true) ∧ Good u ∧
      Ext s.dom.ph u [d + 1] [d] [] [] [] ∧ u.next = s.dom.ph.next + 14 ∧ u.kind s.dom.ph.next = .schedule ∧ u.parent s.dom.ph.next = some d ∧
      u.kind (s.dom.ph.next + 1) = .terminal ∧ u.parent (s.dom.ph.next + 1) = some s.dom.ph.next ∧ succs u d = [s.dom.ph.next] ∧
      LinkedP u (d :: s.dom.ph.next :: List.range' (s.dom.ph.next + 2) 12 ++ [s.dom.ph.next + 1, d + 1]) ∧
      (∀ j, j < 12 → u.kind (s.dom.ph.next + 2 + j) = .node ∧ u.imp (s.dom.ph.next + 2 + j) = runtimeImps[j]? ∧
        u.parent (s.dom.ph.next + 2 + j) = some s.dom.ph.next) := by
  have f := h.free d hd
  generalize hp : s.dom.ph = p at *
  obtain ⟨g1, x1, n1, a1, a2, a3, a4, a5, a6, a7, a8, a9, a10, a11, a12⟩ := newTop_eff h.good .schedule
  have himp : Domain.uvmNames.map (Domain.impOf s.dom) = runtimeImps.map some := by
    unfold Domain.impOf; rw [hnames]; decide +kernel
  have hkind : ∀ i ∈ runtimeImps, i < 48 ∧ base.kind i = .imp := by decide +kernel
  have hle := h.le
  obtain ⟨t, ht, gt, xt, tn, tl, to, tj, _⟩ := append_all s.dom p.next (p.next + 1) Domain.uvmNames (newTop p .schedule) p.next g1 (by omega) (by omega) (by omega)
    (by
      intro n hn
      have : Domain.impOf s.dom n ∈ runtimeImps.map some := himp ▸ List.mem_map_of_mem hn
      obtain ⟨i, hi, e⟩ := List.mem_map.1 this
      refine ⟨i, e.symm, by have := (hkind i hi).1; omega, ?_⟩
      rw [x1.kind i (by have := (hkind i hi).1; omega), (h.std i (hkind i hi).1).1]; exact (hkind i hi).2)
    a8 a3 a2 (by omega) a11 a10
  rw [n1] at tn tl tj
  have hlen : Domain.uvmNames.length = 12 := rfl
  rw [hlen] at tn tl
  have x2 := x1.trans xt
  have x3 : Ext p t [] [] [] [] [] := x2.weaken (by simp) (by simp) (by simp) (by simp) (by simp)
  have fl := f.lt
  have hkt : t.kind p.next = .schedule := by rw [xt.kind _ (by omega)]; exact a5
  let t' : PS := { t with parent := set t.parent p.next (some d) }
  have gt' : Good t' := ⟨gt.prlt, gt.srlt, gt.agree, gt.inP, gt.inS⟩
  obtain ⟨u, hu, su, gu, uP, uS, oP, oS, _⟩ := linkBefore_one gt' (b := p.next) (e := p.next + 1) (x := d + 1) (q := d) (by show _ < t.next; omega)
    (by show _ < t.next; omega) (by show _ < t.next; omega) (by show _ < t.next; omega) (by omega) (by omega) (by omega) (by omega)
    ((x3.preds (d + 1) (by omega) (by simp)).trans f.pe) ((x3.succs d (by omega) (by simp)).trans f.sd)
    ((xt.preds p.next (by omega) (by simp)).trans a1) ((xt.succs (p.next + 1) (by omega) (by simp)).trans a4)
    (x3.ownP (d + 1) (by omega) (by simp) f.oP) (xt.ownS (p.next + 1) (by omega) (by simp) a12) (x3.ownS d (by omega) (by simp) f.oS)
  have un : u.next = p.next + 14 := by rw [su.next]; show t.next = _; omega
  have hadd : Phase.step t (.add d p.next none none none) = (u, .ok) := by
    have e1 : t.endN d = some (d + 1) := (x3.endN d (by omega)).trans f.en
    have e2 : t.endN p.next = some (p.next + 1) := (xt.endN _ (by omega)).trans a8
    have : Phase.add t d p.next none none none = (u, .ok) := by
      simp only [Phase.add, Phase.resolve, Option.isSome_none, Bool.false_and, Bool.false_eq_true, if_false, e1, Phase.place, hkt, e2]
      simp only [reduceCtorEq, or_self, if_false, and_self, if_true, Phase.link]
      exact hu
    have l1 : d < t.next := by omega
    have l2 : p.next < t.next := by omega
    simp only [Phase.step, Phase.below, l1, l2, and_self, if_true]
    exact this
  have lt : ∀ a, a < p.next + 14 → a < t'.next := fun a ha => by show a < t.next; omega
  refine ⟨u, ?_, gu, ⟨by omega, ?_, ?_, ?_, ?_, ?_, ?_, ?_, ?_⟩, un, ?_, ?_, ?_, ?_, ?_, ?_, ?_⟩
  · unfold addSched
    simp only [hp]
    have e : (Phase.step p (.newTop false)).1 = newTop p .schedule := rfl
    rw [e, ht]
    simp only [hadd, decide_true, Bool.and_self]
  · intro a ha; rw [su.kind]; exact x3.kind a ha
  · intro a ha; rw [su.imp]; exact x3.imp a ha
  · intro a ha; rw [su.endN]; exact x3.endN a ha
  · intro a ha _; rw [su.parent]; show set t.parent p.next (some d) a = _; rw [set_ne _ _ (by omega)]; exact x3.parent a ha (by simp)
  · intro a ha hm
    rw [uP a (lt a (by omega)), if_neg (by simpa using hm), if_neg (by omega)]; exact x3.preds a ha (by simp)
  · intro a ha hm
    rw [uS a (lt a (by omega)), if_neg (by omega), if_neg (by simpa using hm)]; exact x3.succs a ha (by simp)
  · intro a ha _ ho; exact oP a (lt a (by omega)) (x3.ownP a ha (by simp) ho)
  · intro a ha _ ho; exact oS a (x3.ownS a ha (by simp) ho)
  · rw [su.kind]; exact hkt
  · rw [su.parent]; show set t.parent p.next (some d) p.next = _; rw [set_self]
  · rw [su.kind]; exact (xt.kind _ (by omega)).trans a6
  · rw [su.parent]; show set t.parent p.next (some d) (p.next + 1) = _; rw [set_ne _ _ (by omega)]; exact (xt.parent _ (by omega) (by simp)).trans a7
  · rw [uS d (lt d (by omega)), if_neg (by omega), if_pos rfl]
  · have hr : ∀ b ∈ List.range' (p.next + 2) 12 ++ [p.next + 1], preds u b = preds t b := by
      intro b hb
      have hb' : p.next < b ∧ b < p.next + 14 := by
        simp only [List.mem_append, List.mem_range'_1, List.mem_singleton] at hb; omega
      rw [uP b (lt b (by omega)), if_neg (by omega), if_neg (by omega)]; rfl
    have l1 : LinkedP u (p.next :: List.range' (p.next + 2) 12 ++ [p.next + 1]) := linkedP_frame _ hr tl
    have l2 : preds u p.next = [d] := by rw [uP _ (lt _ (by omega)), if_neg (by omega), if_pos rfl]
    have l3 : preds u (d + 1) = [p.next + 1] := by rw [uP _ (lt _ (by omega)), if_pos rfl]
    exact ⟨l2, linkedP_snoc l3 _ l1⟩
  · intro j hj
    obtain ⟨t1, t2, t3⟩ := tj j hj
    refine ⟨by rw [su.kind]; exact t1, ?_, by rw [su.parent]; show set t.parent p.next (some d) _ = _; rw [set_ne _ _ (by omega)]; exact t3⟩
    rw [su.imp]
    refine t2.trans ?_
    have := congrArg (fun l => l[j]?) himp
    simp only [List.getElem?_map] at this
    rw [List.getElem?_eq_getElem (by rw [hlen]; exact hj), List.getElem?_eq_getElem (by exact hj)] at this
    simp only [Option.map_some, Option.some.injEq] at this
    rw [List.getElem?_eq_getElem (by exact hj)]
    exact this

theorem std_of_ext {p t : PS} {X Y Z V W : List Nat} (h : Std p) (e : Ext p t X Y Z V W) (hX : ∀ a ∈ X, a < 48 → a = 13) (hY : ∀ a ∈ Y, a < 48 → a = 9)
    (hZ : ∀ a ∈ Z, 48 ≤ a) (h9 : ∃ r, succs t 9 = 11 :: r) : Std t := by
  have hl := h.le
  refine ⟨Nat.le_trans hl e.le, fun a ha => ?_, fun a ha h13 => ?_, fun a ha hn9 => ?_, h9⟩
  · obtain ⟨h1, h2, h3, h4⟩ := h.std a ha
    rw [e.kind a (by omega), e.imp a (by omega), e.endN a (by omega), e.parent a (by omega) (fun hm => by have := hZ a hm; omega)]
    exact ⟨h1, h2, h3, h4⟩
  · rw [e.preds a (by omega) (fun hm => h13 (hX a hm ha))]; exact h.p48 a ha h13
  · rw [e.succs a (by omega) (fun hm => hn9 (hY a hm ha))]; exact h.s48 a ha hn9

/-- 1042-1044: the domain next to the run phase. -/
theorem addToCommon_eff {s : State} {u : PS} (hu : s.dom.ph = u) (hs : Std u) (g : Good u) (hc : s.dom.common = some 0) (hnames : s.dom.names = start.dom.names)
    {d : Nat} (hd : 48 ≤ d) (hd' : d + 1 < u.next) (kd : u.kind d = .domain) (en : u.endN d = some (d + 1)) (pd : preds u d = []) (se : succs u (d + 1) = [])
    (o9 : OwnS u 9) (o13 : OwnP u 13) :
    ∃ v, addToCommon s d = ({ s with dom := { s.dom with ph := v } }, true) ∧ Good v ∧ Ext u v [d, 13] [d + 1, 9] [d] [d, 11] [d + 1, 11] ∧
      v.next = u.next ∧ preds v d = [9] ∧ preds v 13 = addKey (preds u 13) (d + 1) ∧ succs v 9 = addKey (succs u 9) d ∧ v.parent d = some 0 := by
  have p11 : preds u 11 = [9] := (hs.p48 11 (by omega) (by omega)).trans (by decide +kernel)
  have s11 : succs u 11 = [13] := (hs.s48 11 (by omega) (by omega)).trans (by decide +kernel)
  have hle := hs.le
  let u' : PS := { u with parent := set u.parent d (some 0) }
  have gu' : Good u' := ⟨g.prlt, g.srlt, g.agree, g.inP, g.inS⟩
  have lt : ∀ a, a < u.next → a < u'.next := fun a ha => ha
  obtain ⟨sv, gv, vP, vS, oP, oS⟩ := linkWith_one gu' (b := d) (e := d + 1) (w := 11) (u := 9) (v := 13) (lt d (by omega)) (lt _ (by omega)) (lt _ (by omega))
    (lt _ (by omega)) (lt _ (by omega)) p11 s11 pd se (by omega) (by omega) (by omega) (by omega) (by omega) (by omega) o9 o13
  generalize hv : Phase.linkWith u' d (d + 1) 11 = v at *
  have hfind := find_miss hs hd
  have hrun : Domain.impOf s.dom "run" = some 10 := by unfold Domain.impOf; rw [hnames]; decide +kernel
  have k10 : u.kind 10 = .imp := (hs.std 10 (by omega)).1.trans (by decide +kernel)
  have e0 : u.endN 0 = some 1 := (hs.std 0 (by omega)).2.2.1.trans (by decide +kernel)
  have hadd : Phase.step u (.add 0 d (some 10) none none) = (v, .ok) := by
    have : Phase.add u 0 d (some 10) none none = (v, .ok) := by
      simp only [Phase.add, Phase.resolve, k10, find_run hs, if_true, Option.isSome_none, Bool.or_false, Bool.and_false, Bool.false_eq_true, if_false, e0,
        Phase.place, kd, en]
      simp only [reduceCtorEq, or_self, or_false, false_or, if_false, and_false, false_and, Phase.link, Option.some.injEq]
      rw [if_neg (by omega)]
      show (Phase.linkWith u' d (d + 1) 11, _) = _
      rw [hv]
    have l1 : 0 < u.next := by omega
    have l2 : d < u.next := by omega
    have l3 : 10 < u.next := by omega
    simp only [Phase.step, Phase.below, l1, l2, l3, decide_true, and_self, if_true]
    exact this
  refine ⟨v, ?_, gv, ⟨by rw [sv.next]; exact Nat.le_refl _, ?_, ?_, ?_, ?_, ?_, ?_, ?_, ?_⟩, sv.next, ?_, ?_, ?_, ?_⟩
  · unfold addToCommon
    rw [hc]
    simp only [hu, hfind, hrun, hadd, decide_true]
  · intro a ha; rw [sv.kind]
  · intro a ha; rw [sv.imp]
  · intro a ha; rw [sv.endN]
  · intro a ha hm; rw [sv.parent]; show set u.parent d (some 0) a = _; rw [set_ne _ _ (by simpa using hm)]
  · intro a ha hm
    simp only [List.mem_cons, List.not_mem_nil, or_false, not_or] at hm
    rw [vP a (lt a ha), if_neg hm.1, if_neg hm.2]; rfl
  · intro a ha hm
    simp only [List.mem_cons, List.not_mem_nil, or_false, not_or] at hm
    rw [vS a (lt a ha), if_neg hm.1, if_neg hm.2]; rfl
  · intro a ha hm
    simp only [List.mem_cons, List.not_mem_nil, or_false, not_or] at hm
    exact oP a (lt a ha) hm.1 hm.2
  · intro a ha hm
    simp only [List.mem_cons, List.not_mem_nil, or_false, not_or] at hm
    exact oS a (lt a ha) hm.1 hm.2
  · rw [vP d (lt d (by omega)), if_pos rfl]
  · rw [vP 13 (lt _ (by omega)), if_neg (by omega), if_pos rfl]; rfl
  · rw [vS 9 (lt _ (by omega)), if_neg (by omega), if_pos rfl]; rfl
  · rw [sv.parent]; show set u.parent d (some 0) d = _; rw [set_self]

/-- What belongs to a domain stays. -/
theorem cust_frame {p t : PS} {X Y Z V W : List Nat} {d k : Nat} {ns : List Nat} (e : Ext p t X Y Z V W) (h : Cust p d k ns) (hle : 48 ≤ p.next)
    (hX : ∀ a ∈ X, a ≠ d ∧ a ≠ k ∧ a ≠ k + 1 ∧ a ≠ d + 1 ∧ a ∉ ns) (hY : d ∉ Y) (hZ : ∀ a ∈ Z, p.kind a = .domain)
    (h13 : ∀ a ∈ preds p 13, a ∈ preds t 13) : Cust t d k ns := by
  have lt := h.lt
  have hpar : ∀ a, a < p.next → p.kind a ≠ .domain → t.parent a = p.parent a := fun a ha hk => e.parent a ha (fun hm => hk (hZ a hm))
  have hk1 : p.kind k ≠ .domain := by rw [h.kk.1]; decide
  have hk2 : p.kind (k + 1) ≠ .domain := by rw [h.kt.1]; decide
  have hk3 : p.kind (d + 1) ≠ .domain := by rw [h.ke.1]; decide
  refine ⟨?_, ?_, ?_, ?_, ?_, ?_, ?_, h13 _ h.last, ?_, ?_, ?_⟩
  · have := e.le; omega
  · rw [e.kind d (by omega)]; exact h.kd
  · rw [e.kind _ (by omega), hpar _ (by omega) hk3]; exact h.ke
  · rw [e.kind _ (by omega), hpar _ (by omega) hk1]; exact h.kk
  · rw [e.kind _ (by omega), hpar _ (by omega) hk2]; exact h.kt
  · rw [e.preds d (by omega) (fun hm => (hX d hm).1 rfl)]; exact h.pd
  · refine linkedP_frame _ (fun b hb => ?_) h.link
    have hb : b ∈ k :: (ns ++ [k + 1, d + 1]) := hb
    simp only [List.mem_cons, List.mem_append, List.not_mem_nil, or_false] at hb
    refine e.preds b ?_ (fun hm => ?_)
    · rcases hb with rfl | hb | rfl | rfl
      · omega
      · exact (h.nodes b hb).1
      · omega
      · omega
    · have := hX b hm
      rcases hb with rfl | hb | rfl | rfl
      · exact this.2.1 rfl
      · exact this.2.2.2.2 hb
      · exact this.2.2.1 rfl
      · exact this.2.2.2.1 rfl
  · rw [e.succs d (by omega) hY]; exact h.sd
  · intro a ha
    obtain ⟨h1, h2, h3⟩ := h.nodes a ha
    rw [e.kind a h1, hpar a h1 (by rw [h2]; decide)]
    exact ⟨by have := e.le; omega, h2, h3⟩
  · rw [← h.imps]
    exact List.map_congr_left fun a ha => e.imp a (h.nodes a ha).1

theorem free_frame {p t : PS} {X Y Z V W : List Nat} {d : Nat} (e : Ext p t X Y Z V W) (h : Free p d)
    (hX : ∀ a ∈ X, a ≠ d ∧ a ≠ d + 1) (hY : ∀ a ∈ Y, a ≠ d ∧ a ≠ d + 1) (hZ : ∀ a ∈ Z, p.kind a = .domain)
    (hV : ∀ a ∈ V, a ≠ d + 1) (hW : ∀ a ∈ W, a ≠ d) : Free t d := by
  have lt := h.lt
  have hk3 : p.kind (d + 1) ≠ .domain := by rw [h.ke.1]; decide
  refine ⟨?_, ?_, ?_, ?_, ?_, ?_, ?_, ?_, ?_, ?_⟩
  · have := e.le; omega
  · rw [e.kind d (by omega)]; exact h.kd
  · rw [e.kind _ (by omega), e.parent (d + 1) (by omega) (fun hm => hk3 (hZ _ hm))]; exact h.ke
  · rw [e.endN _ (by omega)]; exact h.en
  · rw [e.preds d (by omega) (fun hm => (hX d hm).1 rfl)]; exact h.pd
  · rw [e.succs d (by omega) (fun hm => (hY d hm).1 rfl)]; exact h.sd
  · rw [e.preds _ (by omega) (fun hm => (hX _ hm).2 rfl)]; exact h.pe
  · rw [e.succs _ (by omega) (fun hm => (hY _ hm).2 rfl)]; exact h.se
  · exact e.ownP _ (by omega) (fun hm => hV _ hm rfl) h.oP
  · exact e.ownS _ (by omega) (fun hm => hW _ hm rfl) h.oS

theorem addKey_head {l r : List Nat} {x k : Nat} (h : l = x :: r) : ∃ r', addKey l k = x :: r' := by
  subst h; unfold addKey; split
  · exact ⟨r, rfl⟩
  · exact ⟨r ++ [k], rfl⟩

/-- The domain gets its phases, and the others keep theirs. -/
theorem define_eff {s : State} {D : List (Nat × Nat × List Nat)} {F : List Nat} {d : Nat} (h : PInv s.dom.ph D F) (hd : d ∈ F)
    (hnames : s.dom.names = start.dom.names) (hc : s.dom.common = some 0) :
    ∃ v, addToCommon (addSched s d).1 d =
        ({ s with dom := { s.dom with ph := v }, tops := upd s.tops s.dom.ph.next (some "uvm_sched") }, true) ∧ (addSched s d).2 = true ∧
      PInv v ((d, s.dom.ph.next, List.range' (s.dom.ph.next + 2) 12) :: D) (F.filter (· ≠ d)) ∧ v.next = s.dom.ph.next + 14 ∧
      v.kind s.dom.ph.next = .schedule ∧ (∀ a, a < s.dom.ph.next → v.kind a = s.dom.ph.kind a) ∧
      (∀ a, s.dom.ph.next < a → a < v.next → v.kind a = .terminal ∨ v.kind a = .node) := by
  obtain ⟨u, hu, gu, xu, un, k1, k2, k3, k4, k5, k6, k7⟩ := addSched_eff h hd hnames
  have f := h.free d hd
  generalize hp : s.dom.ph = p at *
  have hle := h.le
  have fl := f.lt
  have s9 : ∃ r, succs u 9 = 11 :: r := by rw [xu.succs 9 (by omega) (by simp; omega)]; exact h.s9
  have su : Std u := std_of_ext h.toStd xu (by simp; omega) (by simp; omega) (by simp) s9
  obtain ⟨v, hv, gv, xv, vn, pd, p13, s9', par⟩ := addToCommon_eff (s := (addSched s d).1) (u := u) (by rw [hu]) su gu (by rw [hu]; exact hc) (by rw [hu]; exact hnames)
    fl.1 (by omega) ((xu.kind d (by omega)).trans f.kd) ((xu.endN d (by omega)).trans f.en) ((xu.preds d (by omega) (by simp)).trans f.pd)
    ((xu.succs (d + 1) (by omega) (by simp)).trans f.se) (xu.ownS 9 (by omega) (by simp) h.own9) (xu.ownP 13 (by omega) (by simp) h.own13)
  have x := xu.trans xv
  simp only [List.nil_append, List.singleton_append, List.cons_append] at x
  have k13 : p.kind 13 = .node ∧ p.parent 13 = some 0 := ⟨(h.std 13 (by omega)).1.trans (by decide +kernel), (h.std 13 (by omega)).2.2.2.trans (by decide +kernel)⟩
  have k9 : p.kind 9 = .node := (h.std 9 (by omega)).1.trans (by decide +kernel)
  have k11 : p.kind 11 = .node := (h.std 11 (by omega)).1.trans (by decide +kernel)
  have k0 : p.kind 0 = .domain := (h.std 0 (by omega)).1.trans (by decide +kernel)
  have h13 : ∀ a ∈ preds p 13, a ∈ preds v 13 := by
    intro a ha
    rw [p13]
    exact Phase.mem_addKey.2 (.inl (by rw [xu.preds 13 (by omega) (by simp; omega)]; exact ha))
  have hZ : ∀ a ∈ [d], p.kind a = .domain := by simp [f.kd]
  have kinds : ∀ a, p.next < a → a < v.next → v.kind a = .terminal ∨ v.kind a = .node := by
    intro a h1 h2
    rw [xv.kind a (by omega)]
    by_cases e : a = p.next + 1
    · subst e; exact .inl k3
    · have := (k7 (a - (p.next + 2)) (by omega)).1
      rw [show p.next + 2 + (a - (p.next + 2)) = a by omega] at this
      exact .inr this
  have ko : ∀ a, a < p.next → v.kind a = p.kind a := x.kind
  have kk : v.kind p.next = .schedule := (xv.kind _ (by omega)).trans k1
  refine ⟨v, ?_, by rw [hu], ⟨std_of_ext h.toStd x (by simp; omega) (by simp; omega) (by simp; omega) ?_, gv, ?_, ?_, ?_, ?_, ?_, ?_, ?_, ?_, ?_, ?_⟩, by omega, kk, ko, kinds⟩
  · rw [hv, hu]
  · obtain ⟨r, hr⟩ := s9
    rw [s9']; exact addKey_head hr
  · exact h13 _ h.p13
  · exact x.ownS 9 (by omega) (by simp; omega) h.own9
  · exact x.ownP 13 (by omega) (by simp; omega) h.own13
  · intro e he
    rcases List.mem_cons.1 he with rfl | he
    · show Cust v d p.next (List.range' (p.next + 2) 12)
      refine ⟨⟨by omega, by omega⟩, (ko d (by omega)).trans f.kd, ?_, ⟨kk, ?_⟩, ⟨(xv.kind _ (by omega)).trans k3, ?_⟩, pd, ?_, ?_, ?_, ?_, ?_⟩
      · exact ⟨(ko _ (by omega)).trans f.ke.1, (x.parent (d + 1) (by omega) (by simp)).trans f.ke.2⟩
      · exact (xv.parent _ (by omega) (by simp; omega)).trans k2
      · exact (xv.parent _ (by omega) (by simp; omega)).trans k4
      · refine linkedP_frame _ (fun b hb => ?_) k6
        have hb : b ∈ p.next :: (List.range' (p.next + 2) 12 ++ [p.next + 1, d + 1]) := hb
        simp only [List.mem_cons, List.mem_append, List.mem_range'_1, List.not_mem_nil, or_false] at hb
        exact xv.preds b (by omega) (by simp; omega)
      · rw [p13]; exact Phase.mem_addKey.2 (.inr rfl)
      · exact (xv.succs d (by omega) (by simp; omega)).trans k5
      · intro a ha
        have ha : a ∈ List.range' (p.next + 2) 12 := ha
        rw [List.mem_range'_1] at ha
        have := k7 (a - (p.next + 2)) (by omega)
        rw [show p.next + 2 + (a - (p.next + 2)) = a by omega] at this
        exact ⟨by omega, (xv.kind a (by omega)).trans this.1, (xv.parent a (by omega) (by simp; omega)).trans this.2.2⟩
      · refine List.ext_getElem (by simp [runtimeImps]) fun j h1 h2 => ?_
        have hj : j < 12 := by simpa using h1
        rw [List.getElem_map, List.getElem_map, List.getElem_range', Nat.one_mul, xv.imp _ (by omega), (k7 j hj).2.1,
          List.getElem?_eq_getElem (by simpa [runtimeImps] using h2)]
    · have c := h.cust e he
      obtain ⟨e1, e2, e3⟩ := e
      have hne := h.disj d hd _ he
      simp only [] at c hne ⊢
      have cl := c.lt
      refine cust_frame x c hle ?_ ?_ hZ h13
      · have hns : d + 1 ∉ e3 ∧ d ∉ e3 ∧ 13 ∉ e3 := by
          refine ⟨fun hm => ?_, fun hm => ?_, fun hm => ?_⟩
          · have := (c.nodes _ hm).2.1; rw [f.ke.1] at this; cases this
          · have := (c.nodes _ hm).2.1; rw [f.kd] at this; cases this
          · have h1 := (c.nodes _ hm).2.2
            rw [k13.2, Option.some.injEq] at h1
            have := c.kk.1; rw [← h1, k0] at this; cases this
        have n1 : d + 1 ≠ e1 := fun e => by have := c.kd; rw [← e, f.ke.1] at this; cases this
        have n2 : d + 1 ≠ e2 := fun e => by have := c.kk.1; rw [← e, f.ke.1] at this; cases this
        have n3 : d ≠ e2 := fun e => by have := c.kk.1; rw [← e, f.kd] at this; cases this
        have n4 : d ≠ e2 + 1 := fun e => by have := c.kt.1; rw [← e, f.kd] at this; cases this
        have n5 : d ≠ e1 + 1 := fun e => by have := c.ke.1; rw [← e, f.kd] at this; cases this
        have n6 : 13 ≠ e1 := fun e => by have := c.kd; rw [← e, k13.1] at this; cases this
        have n7 : 13 ≠ e2 := fun e => by have := c.kk.1; rw [← e, k13.1] at this; cases this
        have n8 : 13 ≠ e2 + 1 := fun e => by have := c.kt.1; rw [← e, k13.1] at this; cases this
        have n9 : 13 ≠ e1 + 1 := fun e => by have := c.ke.1; rw [← e, k13.1] at this; cases this
        intro a ha
        simp only [List.mem_cons, List.not_mem_nil, or_false] at ha
        rcases ha with rfl | rfl | rfl
        · exact ⟨n1, n2, by omega, by omega, hns.1⟩
        · exact ⟨Ne.symm hne, n3, n4, n5, hns.2.1⟩
        · exact ⟨n6, n7, n8, n9, hns.2.2⟩
      · have n1 : d + 1 ≠ e1 := fun e => by have := c.kd; rw [← e, f.ke.1] at this; cases this
        have n2 : 9 ≠ e1 := fun e => by have := c.kd; rw [← e, k9] at this; cases this
        simp only [List.mem_cons, List.not_mem_nil, or_false, not_or]
        exact ⟨hne, Ne.symm n1, Ne.symm n2⟩
  · intro a ha
    obtain ⟨ha, hne⟩ := List.mem_filter.1 ha
    have hne : a ≠ d := by simpa using hne
    have fa := h.free a ha
    have fl' := fa.lt
    have n1 : d + 1 ≠ a := fun e => by have := fa.kd; rw [← e, f.ke.1] at this; cases this
    have n2 : d ≠ a + 1 := fun e => by have := fa.ke.1; rw [← e, f.kd] at this; cases this
    refine free_frame x fa ?_ ?_ hZ ?_ ?_
    all_goals
      intro b hb
      simp only [List.mem_cons, List.not_mem_nil, or_false] at hb
      omega
  · intro a ha e he
    obtain ⟨ha, hne⟩ := List.mem_filter.1 ha
    have hne : a ≠ d := by simpa using hne
    rcases List.mem_cons.1 he with rfl | he
    · exact Ne.symm hne
    · exact h.disj a ha e he
  · intro a h1 h2 hk
    by_cases hlt : a < p.next
    · rw [ko a hlt] at hk
      obtain ⟨e, he, hm⟩ := h.nodes a h1 hlt hk
      exact ⟨e, List.mem_cons_of_mem _ he, hm⟩
    · refine ⟨_, List.mem_cons_self, ?_⟩
      show a ∈ List.range' (p.next + 2) 12
      rw [List.mem_range'_1]
      have n1 : a ≠ p.next := fun e => by rw [e, kk] at hk; cases hk
      have n2 : a ≠ p.next + 1 := fun e => by rw [e, xv.kind _ (by omega), k3] at hk; cases hk
      omega
  · intro a h2 hk
    by_cases hlt : a < p.next
    · rw [ko a hlt] at hk
      rcases h.doms a hlt hk with h0 | hF | ⟨e, he, hm⟩
      · exact .inl h0
      · by_cases had : a = d
        · exact .inr (.inr ⟨_, List.mem_cons_self, had.symm⟩)
        · exact .inr (.inl (List.mem_filter.2 ⟨hF, by simpa using had⟩))
      · exact .inr (.inr ⟨e, List.mem_cons_of_mem _ he, hm⟩)
    · by_cases e : a = p.next
      · rw [e, kk] at hk; cases hk
      · rcases kinds a (by omega) h2 with h3 | h3 <;> rw [h3] at hk <;> cases hk
  · intro a h2 hk
    by_cases hlt : a < p.next
    · rw [ko a hlt] at hk; exact h.imps a hlt hk
    · by_cases e : a = p.next
      · rw [e, kk] at hk; cases hk
      · rcases kinds a (by omega) h2 with h3 | h3 <;> rw [h3] at hk <;> cases hk
  · rw [List.map_cons, List.nodup_cons]
    refine ⟨fun hm => ?_, h.dn⟩
    obtain ⟨e, he, e1⟩ := List.mem_map.1 hm
    exact h.disj d hd e he e1

/-! ## The whole state -/

structure IInv (s : State) (D : List (Nat × Nat × List Nat)) (F : List Nat) : Prop where
  names : s.dom.names = start.dom.names
  common : s.dom.common = some 0
  ph : PInv s.dom.ph D F
  topF : ∀ d ∈ F, ∃ n, s.tops d = some n ∧ n ≠ "uvm_sched"
  topK : ∀ e ∈ D, s.tops e.2.1 = some "uvm_sched"
  topN : ∀ a, a < s.dom.ph.next → s.dom.ph.kind a ≠ .domain → s.dom.ph.kind a ≠ .schedule → s.tops a = none
  topO : ∀ a, s.dom.ph.next ≤ a → s.tops a = none
  uvm : uvmDom ∈ D

/-- Domains that can be given to components. -/
def Known (D : List (Nat × Nat × List Nat)) (F : List Nat) (d : Nat) : Prop := d ∈ F ∨ ∃ e ∈ D, e.1 = d

theorem findByName_old {s : State} {D : List (Nat × Nat × List Nat)} {F : List Nat} (h : IInv s D F) {e : Nat × Nat × List Nat} (he : e ∈ D) :
    ∃ x, PhaseLook.findByName s.dom.ph (nm s) "uvm_sched" true (s.dom.ph.next + 1) e.1 = some x := by
  have c := h.ph.cust e he
  have hle := h.ph.le
  unfold PhaseLook.findByName
  split
  · exact ⟨_, rfl⟩
  · rename_i hn
    split
    · exact ⟨_, rfl⟩
    · obtain ⟨n, hn'⟩ : ∃ n, s.dom.ph.next = n + 2 := ⟨s.dom.ph.next - 2, by omega⟩
      have hk : nm s e.2.1 = "uvm_sched" := by unfold nm; rw [h.topK e he]
      have hsc : Phase.inScope s.dom.ph true e.1 e.2.1 = true := by
        have k2 : Phase.getDomain s.dom.ph (s.dom.ph.next + 1) e.2.1 = some e.1 := by
          rw [hn']; simp [Phase.getDomain, c.kk, c.kd]
        have k1 : Phase.getDomain s.dom.ph (s.dom.ph.next + 1) e.1 = some e.1 := by
          rw [hn']; simp [Phase.getDomain, c.kd]
        unfold Phase.inScope
        rw [k1, k2]; simp
      rw [hn']
      simp only [PhaseLook.findName, hn, if_false, c.sd]
      simp [hsc, hk]

theorem end_name (n : String) : n ++ " end" ≠ "uvm_sched" := by
  intro h
  have := congrArg String.toList h
  rw [String.toList_append] at this
  have h2 : ' ' ∈ "uvm_sched".toList := by rw [← this]; simp
  revert h2; decide

theorem findByName_free {s : State} {D : List (Nat × Nat × List Nat)} {F : List Nat} (h : IInv s D F) {d : Nat} (hd : d ∈ F) :
    PhaseLook.findByName s.dom.ph (nm s) "uvm_sched" true (s.dom.ph.next + 1) d = none := by
  have f := h.ph.free d hd
  have hle := h.ph.le
  obtain ⟨n, hn, hne⟩ := h.topF d hd
  have n1 : nm s d = n := by unfold nm; rw [hn]
  have n2 : nm s (d + 1) = n ++ " end" := by
    unfold nm
    rw [h.topN (d + 1) f.lt.2 (by rw [f.ke.1]; decide) (by rw [f.ke.1]; decide), f.ke.1]
    simp only [f.ke.2, Option.bind_some, hn, Option.getD_some]
  have n3 : nm s d ≠ "uvm_sched" := by rw [n1]; exact hne
  have n4 : nm s (d + 1) ≠ "uvm_sched" := by rw [n2]; exact end_name n
  obtain ⟨m, hm⟩ : ∃ m, s.dom.ph.next = m + 2 := ⟨s.dom.ph.next - 2, by omega⟩
  unfold PhaseLook.findByName
  rw [if_neg n3, hm]
  have e1 : preds s.dom.ph d = [] := f.pd
  have e2 : succs s.dom.ph d = [d + 1] := f.sd
  have e3 : succs s.dom.ph (d + 1) = [] := f.se
  simp only [PhaseLook.findName, n3, n4, if_false, e1, e2, e3, List.findSome?_nil, List.findSome?_cons]
  split
  · rename_i hh; split at hh <;> cases hh
  · rfl

theorem defineDomain_eff {s : State} {D : List (Nat × Nat × List Nat)} {F : List Nat} (h : IInv s D F) {d : Nat} (hd : Known D F d) :
    ∃ s' D' F', defineDomain s d = (s', true) ∧ s'.comps = s.comps ∧ IInv s' D' F' ∧ (∀ e ∈ D, e ∈ D') ∧ (∃ e ∈ D', e.1 = d) ∧ (∀ a, Known D F a → Known D' F' a) := by
  rcases hd with hd | ⟨e, he, hed⟩
  · obtain ⟨v, h1, h2, h3, h4, h5, h6, h7⟩ := define_eff h.ph hd h.names h.common
    refine ⟨{ s with dom := { s.dom with ph := v }, tops := upd s.tops s.dom.ph.next (some "uvm_sched") }, (d, s.dom.ph.next, List.range' (s.dom.ph.next + 2) 12) :: D, F.filter (· ≠ d), ?_, ?_, ?_, fun e he => List.mem_cons_of_mem _ he, ⟨_, List.mem_cons_self, rfl⟩, ?_⟩
    · unfold defineDomain
      rw [findByName_free h hd]
      simp only [h1, h2, Bool.and_self]
    · rfl
    · refine ⟨h.names, h.common, h3, ?_, ?_, ?_, ?_, List.mem_cons_of_mem _ h.uvm⟩
      · intro a ha
        have ha := (List.mem_filter.1 ha).1
        have := (h.ph.free a ha).lt
        show ∃ n, upd s.tops s.dom.ph.next (some "uvm_sched") a = some n ∧ _
        unfold upd
        rw [if_neg (by omega)]
        exact h.topF a ha
      · intro e he
        show upd s.tops s.dom.ph.next (some "uvm_sched") e.2.1 = _
        unfold upd
        rcases List.mem_cons.1 he with rfl | he
        · exact if_pos rfl
        · have := (h.ph.cust e he).lt
          rw [if_neg (by omega)]
          exact h.topK e he
      · intro a ha k1 k2
        have ha : a < v.next := ha
        have k1 : v.kind a ≠ .domain := k1
        have k2 : v.kind a ≠ .schedule := k2
        show upd s.tops s.dom.ph.next (some "uvm_sched") a = _
        unfold upd
        by_cases e : a = s.dom.ph.next
        · rw [e] at k2; exact absurd h5 k2
        · rw [if_neg e]
          by_cases hlt : a < s.dom.ph.next
          · rw [h6 a hlt] at k1 k2; exact h.topN a hlt k1 k2
          · exact h.topO a (by omega)
      · intro a ha
        have ha : v.next ≤ a := ha
        show upd s.tops s.dom.ph.next (some "uvm_sched") a = _
        unfold upd
        rw [if_neg (by omega)]
        exact h.topO a (by omega)
    · intro a ha
      rcases ha with ha | ⟨e, he, ha⟩
      · by_cases ead : a = d
        · exact .inr ⟨_, List.mem_cons_self, ead.symm⟩
        · exact .inl (List.mem_filter.2 ⟨ha, by simpa using ead⟩)
      · exact .inr ⟨e, List.mem_cons_of_mem _ he, ha⟩
  · subst hed
    obtain ⟨x, hx⟩ := findByName_old h he
    refine ⟨s, D, F, ?_, rfl, h, fun _ h => h, ⟨e, he, rfl⟩, fun _ h => h⟩
    unfold defineDomain
    rw [hx]

/-! ## Components -/

/-- The domain `d` is put into the components of `P` and nothing else changes. -/
structure Chg (l l' : List Comp) (d : Nat) (P : Nat → Prop) : Prop where
  len : l'.length = l.length
  par : ∀ k : Nat, l'[k]?.map Comp.parent = l[k]?.map Comp.parent
  hit : ∀ k : Nat, k < l.length → P k → l'[k]?.map Comp.domain = some d
  miss : ∀ k : Nat, ¬ P k → l'[k]? = l[k]?

theorem chg_setDom (d : Nat) : ∀ (l : List Comp) (c : Nat), Chg l (setDom l c d) d (· = c)
  | [], _ => ⟨rfl, fun _ => rfl, fun k hk => absurd hk (Nat.not_lt_zero k), fun _ _ => rfl⟩
  | x :: l, 0 => ⟨rfl, fun k => by cases k <;> rfl, fun k _ e => by subst e; rfl, fun k hk => by
      cases k with
      | zero => exact absurd rfl hk
      | succ k => rfl⟩
  | x :: l, c + 1 => by
    have ih := chg_setDom d l c
    refine ⟨by simp [setDom, ih.len], fun k => ?_, fun k hk e => ?_, fun k hk => ?_⟩
    · cases k with
      | zero => rfl
      | succ k => simpa [setDom] using ih.par k
    · subst e; simpa [setDom] using ih.hit c (by simpa using hk) rfl
    · cases k with
      | zero => rfl
      | succ k => simpa [setDom] using ih.miss k (by omega)

theorem chg_refl (l : List Comp) (d : Nat) : Chg l l d (fun _ => False) := ⟨rfl, fun _ => rfl, fun _ _ h => h.elim, fun _ _ => rfl⟩

theorem Chg.trans {l l' l'' : List Comp} {d : Nat} {P Q R : Nat → Prop} (h : Chg l l' d P) (k : Chg l' l'' d Q) (hR : ∀ x, R x ↔ P x ∨ Q x) : Chg l l'' d R := by
  refine ⟨k.len.trans h.len, fun x => (k.par x).trans (h.par x), fun x hx hr => ?_, fun x hr => ?_⟩
  · by_cases hq : Q x
    · exact k.hit x (by rw [h.len]; exact hx) hq
    · rw [k.miss x hq]
      exact h.hit x hx (((hR x).1 hr).resolve_right hq)
  · rw [k.miss x (fun hq => hr ((hR x).2 (.inr hq))), h.miss x (fun hp => hr ((hR x).2 (.inl hp)))]

/-- Who is whose parent does not change. -/
theorem below_par {l l' : List Comp} (h : ∀ k : Nat, l'[k]?.map Comp.parent = l[k]?.map Comp.parent) {k c : Nat} (hb : Below l k c) : Below l' k c := by
  have key : ∀ {k : Nat} {x : Comp} {q : Nat}, l[k]? = some x → x.parent = some q → ∃ y : Comp, l'[k]? = some y ∧ y.parent = some q := by
    intro k x q h1 h2
    have := h k
    rw [h1, Option.map_some, h2] at this
    cases hy : l'[k]? with
    | none => rw [hy] at this; cases this
    | some y => rw [hy] at this; exact ⟨y, rfl, by simpa using this⟩
  induction hb with
  | child h1 h2 => obtain ⟨y, e1, e2⟩ := key h1 h2; exact .child e1 e2
  | deeper h1 h2 _ ih => obtain ⟨y, e1, e2⟩ := key h1 h2; exact .deeper e1 e2 ih

theorem below_iff {l : List Comp} {k c : Nat} : Below l k c ↔ ∃ j x, l[j]? = some x ∧ x.parent = some c ∧ (k = j ∨ Below l k j) := by
  constructor
  · intro h
    induction h with
    | child h1 h2 => exact ⟨_, _, h1, h2, .inl rfl⟩
    | deeper h1 h2 _ ih =>
      obtain ⟨j, x, e1, e2, e3⟩ := ih
      refine ⟨j, x, e1, e2, .inr ?_⟩
      rcases e3 with rfl | e3
      · exact .child h1 h2
      · exact .deeper h1 h2 e3
  · rintro ⟨j, x, e1, e2, rfl | e3⟩
    · exact .child e1 e2
    · induction e3 with
      | child h1 h2 => exact .deeper h1 h2 (.child e1 e2)
      | deeper h1 h2 _ ih => exact .deeper h1 h2 (ih e1)

/-- Components are created after their parents. -/
def ParOk (l : List Comp) : Prop := ∀ (k : Nat) (x : Comp) (q : Nat), l[k]? = some x → x.parent = some q → q < k

theorem parOk_of {l l' : List Comp} (h : ∀ k : Nat, l'[k]?.map Comp.parent = l[k]?.map Comp.parent) (hl : ParOk l) : ParOk l' := by
  intro k x q h1 h2
  have := h k
  rw [h1, Option.map_some, h2] at this
  cases hy : l[k]? with
  | none => rw [hy] at this; cases this
  | some y => rw [hy] at this; exact hl k y q hy (by simpa using this.symm)

theorem mem_kids {l : List Comp} {c j : Nat} : j ∈ kids l c ↔ ∃ x, l[j]? = some x ∧ x.parent = some c := by
  unfold kids
  rw [List.mem_filter, List.mem_range]
  constructor
  · rintro ⟨hj, h⟩
    rw [List.getElem?_eq_getElem hj] at h
    exact ⟨_, List.getElem?_eq_getElem hj, by simpa using h⟩
  · rintro ⟨x, hx, hp⟩
    refine ⟨?_, by simp [hx, hp]⟩
    exact (List.getElem?_eq_some_iff.1 hx).1

theorem kids_congr {l l' : List Comp} (hl : l'.length = l.length) (h : ∀ k : Nat, l'[k]?.map Comp.parent = l[k]?.map Comp.parent) (c : Nat) : kids l' c = kids l c := by
  unfold kids
  rw [hl]
  refine List.filter_congr fun k _ => ?_
  have := h k
  cases h1 : l'[k]? <;> cases h2 : l[k]? <;> rw [h1, h2] at this <;> simp at this ⊢
  rw [this]

/-- 987-992: the domain goes to the component and, if asked, to all below. -/
theorem setDomain_eff (d : Nat) : ∀ (n c : Nat) (hier : Bool) (s : State) (D : List (Nat × Nat × List Nat)) (F : List Nat), IInv s D F → Known D F d → ParOk s.comps →
    s.comps.length ≤ n + c → c < s.comps.length →
    ∃ s' D' F', setDomain d n c hier s = (s', true) ∧ IInv s' D' F' ∧ (∀ e ∈ D, e ∈ D') ∧ (∃ e ∈ D', e.1 = d) ∧ (∀ a, Known D F a → Known D' F' a) ∧
      Chg s.comps s'.comps d (fun k => k = c ∨ hier = true ∧ Below s.comps k c) := by
  intro n
  induction n with
  | zero => intro c hier s D F _ _ _ h1 h2; omega
  | succ n ih =>
    intro c hier s D F hI hK hP hn hc
    obtain ⟨s1, D1, F1, e1, c1, I1, m1, k1, q1⟩ := defineDomain_eff (s := { s with comps := setDom s.comps c d })
      ⟨hI.names, hI.common, hI.ph, hI.topF, hI.topK, hI.topN, hI.topO, hI.uvm⟩ hK
    have g1 : Chg s.comps s1.comps d (· = c) := by rw [c1]; exact chg_setDom d _ c
    cases hier with
    | false =>
      refine ⟨s1, D1, F1, ?_, I1, m1, k1, q1, g1.trans (chg_refl _ d) (by simp)⟩
      simp only [setDomain, e1, Bool.false_eq_true, if_false]
    | true =>
      have main : ∀ (K : List Nat), (∀ j ∈ K, j ∈ kids s.comps c) → ∀ (s1 : State) (D1 : List (Nat × Nat × List Nat)) (F1 : List Nat) (P : Nat → Prop), IInv s1 D1 F1 → (∃ e ∈ D1, e.1 = d) →
          Chg s.comps s1.comps d P →
          ∃ s2 D2 F2, K.foldl (fun r k => ((setDomain d n k true r.1).1, r.2 && (setDomain d n k true r.1).2)) (s1, true) = (s2, true) ∧ IInv s2 D2 F2 ∧
            (∀ e ∈ D1, e ∈ D2) ∧ (∀ a, Known D1 F1 a → Known D2 F2 a) ∧ Chg s.comps s2.comps d (fun k => P k ∨ ∃ j ∈ K, k = j ∨ Below s.comps k j) := by
        intro K
        induction K with
        | nil => intro _ s1 D1 F1 P I1 _ g; exact ⟨s1, D1, F1, rfl, I1, fun _ h => h, fun _ h => h, by simpa using g⟩
        | cons j K ihK =>
          intro hK s1 D1 F1 P I1 k1 g
          obtain ⟨x, hx, hxp⟩ := mem_kids.1 (hK j List.mem_cons_self)
          have hcj := hP j x c hx hxp
          obtain ⟨s2, D2, F2, e2, I2, m2, k2, q2, g2⟩ := ih j true s1 D1 F1 I1 (.inr k1) (parOk_of g.par hP) (by rw [g.len]; omega)
            (by rw [g.len]; exact (List.getElem?_eq_some_iff.1 hx).1)
          have g3 : Chg s.comps s2.comps d (fun k => P k ∨ (k = j ∨ Below s.comps k j)) := by
            refine g.trans g2 (fun y => ?_)
            have : Below s1.comps y j ↔ Below s.comps y j := ⟨below_par (fun k => (g.par k).symm), below_par g.par⟩
            simp [this]
          obtain ⟨s3, D3, F3, e3, I3, m3, q3, g4⟩ := ihK (fun j hj => hK j (List.mem_cons_of_mem _ hj)) s2 D2 F2 _ I2 k2 g3
          refine ⟨s3, D3, F3, ?_, I3, fun e he => m3 e (m2 e he), fun a ha => q3 a (q2 a ha), ?_⟩
          · rw [List.foldl_cons]
            show K.foldl _ ((setDomain d n j true s1).1, true && (setDomain d n j true s1).2) = _
            rw [e2]; exact e3
          · refine g4.trans (chg_refl _ d) (fun y => ?_)
            simp only [List.mem_cons, exists_eq_or_imp, or_assoc, or_false]
      obtain ⟨s2, D2, F2, e2, I2, m2, q2, g2⟩ := main (kids s.comps c) (fun _ h => h) s1 D1 F1 _ I1 k1 g1
      refine ⟨s2, D2, F2, ?_, I2, fun e he => m2 e (m1 e he), ?_, fun a ha => q2 a (q1 a ha), ?_⟩
      · simp only [setDomain, e1, if_true]
        rw [kids_congr g1.len g1.par]; exact e2
      · obtain ⟨e, he, hd⟩ := k1; exact ⟨e, m2 e he, hd⟩
      · refine g2.trans (chg_refl _ d) (fun y => ?_)
        have : Below s.comps y c ↔ ∃ j ∈ kids s.comps c, y = j ∨ Below s.comps y j := by
          rw [below_iff]
          constructor
          · rintro ⟨j, x, h1, h2, h3⟩; exact ⟨j, mem_kids.2 ⟨x, h1, h2⟩, h3⟩
          · rintro ⟨j, hj, h3⟩; obtain ⟨x, h1, h2⟩ := mem_kids.1 hj; exact ⟨j, x, h1, h2, h3⟩
        simp [this]

/-- Everything. -/
structure Inv (s : State) (D : List (Nat × Nat × List Nat)) (F : List Nat) : Prop extends IInv s D F where
  comps : ∀ x ∈ s.comps, ∃ e ∈ D, e.1 = x.domain
  pars : ParOk s.comps

theorem known_of {s : State} {D : List (Nat × Nat × List Nat)} {F : List Nat} (h : IInv s D F) {d : Nat} (h1 : d < s.dom.ph.next) (h2 : s.dom.ph.kind d = .domain)
    (h0 : d ≠ 0) : Known D F d := (h.ph.doms d h1 h2).resolve_left h0

theorem good_base : Good base := by
  have h1 : ∀ a < 48, base.pr a < base.nref ∧ base.sr a < base.nref ∧ (∀ b ∈ preds base a, b < 48) ∧ (∀ b ∈ succs base a, b < 48) := by decide +kernel
  have h2 : ∀ a < 48, ∀ b < 48, (b ∈ preds base a ↔ a ∈ succs base b) := by decide +kernel
  have n := base_next
  refine ⟨fun a ha => ?_, fun a ha => ?_, fun a b ha hb => ?_, fun a ha b hb => ?_, fun a ha b hb => ?_⟩ <;> rw [n] at *
  · exact (h1 a ha).1
  · exact (h1 a ha).2.1
  · exact h2 a ha b hb
  · exact (h1 a ha).2.2.1 b hb
  · exact (h1 a ha).2.2.2 b hb

theorem inv_start : Inv start [uvmDom] [] := by
  have n := base_next
  have hph : start.dom.ph = base := rfl
  have hk : ∀ a < 48, (base.kind a = .node → a < 48) ∧ (base.kind a = .domain → a = 0 ∨ a = 20) ∧ (base.kind a = .imp → a < 48) ∧
      (base.kind a ≠ .domain → base.kind a ≠ .schedule → start.tops a = none) := by decide +kernel
  refine ⟨⟨rfl, by decide +kernel, ⟨⟨?_, fun _ _ => ⟨rfl, rfl, rfl, rfl⟩, fun _ _ _ => rfl, fun _ _ _ => rfl, ⟨[20], by decide +kernel⟩⟩, good_base, by decide +kernel, ?_, ?_, ?_, ?_, ?_, ?_, ?_, ?_, ?_⟩, ?_, ?_, ?_, ?_, ?_⟩, ?_, ?_⟩
  · rw [hph, n]; exact Nat.le_refl _
  · intro b hb; rw [hph, n] at hb; revert b; rw [hph]; decide +kernel
  · intro b hb; rw [hph, n] at hb; revert b; rw [hph]; decide +kernel
  · intro e he
    rw [List.mem_singleton] at he; subst he
    rw [hph]
    refine ⟨by rw [n]; decide, by decide +kernel, by decide +kernel, by decide +kernel, by decide +kernel, by decide +kernel, ?_, by decide +kernel, by decide +kernel, ?_, by decide +kernel⟩
    · have : ∀ (l : List Nat), (∀ i < l.length - 1, preds base (l.getD (i + 1) 0) = [l.getD i 0]) → LinkedP base l := by
        intro l
        induction l with
        | nil => intro _; trivial
        | cons a l ih =>
          intro h
          cases l with
          | nil => trivial
          | cons b l => exact ⟨h 0 (by simp), ih (fun i hi => h (i + 1) (by simpa using hi))⟩
      exact this _ (by decide +kernel)
    · rw [n]; decide +kernel
  · nofun
  · nofun
  · intro a h1 h2; rw [hph, n] at h2; omega
  · intro a h2 h3
    rw [hph, n] at h2
    rcases (hk a h2).2.1 h3 with h | h
    · exact .inl h
    · exact .inr (.inr ⟨_, List.mem_singleton.2 rfl, h.symm⟩)
  · intro a h2 _; rw [hph, n] at h2; exact h2
  · decide
  · nofun
  · intro e he; rw [List.mem_singleton] at he; subst he; decide +kernel
  · intro a h1 h2 h3; rw [hph, n] at h1; exact (hk a h1).2.2.2 h2 h3
  · intro a ha
    rw [hph, n] at ha
    show upd (upd (upd (fun _ => none) 0 (some "common")) 20 (some "uvm")) 22 (some "uvm_sched") a = none
    unfold upd
    rw [if_neg (by omega), if_neg (by omega), if_neg (by omega)]
  · exact List.mem_singleton.2 rfl
  · intro x hx
    have : start.comps = [⟨none, 20⟩] := by decide +kernel
    rw [this, List.mem_singleton] at hx; subst hx
    exact ⟨_, List.mem_singleton.2 rfl, rfl⟩
  · intro k x q h1 h2
    have : start.comps = [⟨none, 20⟩] := by decide +kernel
    rw [this] at h1
    cases k with
    | zero => simp at h1; subst h1; cases h2
    | succ k => simp at h1

theorem inv_step {s : State} {D : List (Nat × Nat × List Nat)} {F : List Nat} (h : Inv s D F) (o : Op) (hl : Legal s o) : ∃ D' F', Inv (step s o).1 D' F' := by
  cases o with
  | newDomain name =>
    have hname : name ≠ "uvm_sched" := hl
    obtain ⟨g, x, n, a1, a2, a3, a4, a5, a6, a7, a8, a9, a10, a11, a12⟩ := newTop_eff h.ph.good .domain
    have hle := h.ph.le
    refine ⟨D, s.dom.ph.next :: F, ?_⟩
    have hph : (step s (.newDomain name)).1.dom.ph = newTop s.dom.ph .domain := rfl
    have htops : (step s (.newDomain name)).1.tops = upd s.tops s.dom.ph.next (some name) := rfl
    have old : ∀ a, a < (newTop s.dom.ph .domain).next → a < s.dom.ph.next ∨ a = s.dom.ph.next ∨ a = s.dom.ph.next + 1 := by intro a ha; omega
    refine ⟨⟨h.names, h.common, ⟨std_of_ext h.ph.toStd x (by simp) (by simp) (by simp) ?_, g, ?_, ?_, ?_, ?_, ?_, ?_, ?_, ?_, ?_, h.ph.dn⟩, ?_, ?_, ?_, ?_, h.uvm⟩, h.comps, h.pars⟩ <;> try rw [hph]
    · rw [x.succs 9 (by omega) (by simp)]; exact h.ph.s9
    · rw [x.preds 13 (by omega) (by simp)]; exact h.ph.p13
    · exact x.ownS 9 (by omega) (by simp) h.ph.own9
    · exact x.ownP 13 (by omega) (by simp) h.ph.own13
    · intro e he
      exact cust_frame x (h.ph.cust e he) hle (by simp) (by simp) (by simp) (fun a ha => by rw [x.preds 13 (by omega) (by simp)]; exact ha)
    · intro d hd
      rcases List.mem_cons.1 hd with rfl | hd
      · exact ⟨by omega, a5, ⟨a6, a7⟩, a8, a1, a2, a3, a4, a11, a10⟩
      · exact free_frame x (h.ph.free d hd) (by simp) (by simp) (by simp) (by simp) (by simp)
    · intro d hd e he
      rcases List.mem_cons.1 hd with rfl | hd
      · have := (h.ph.cust e he).lt; omega
      · exact h.ph.disj d hd e he
    · intro a h1 h2 hk
      rcases old a h2 with h3 | rfl | rfl
      · rw [x.kind a h3] at hk; exact h.ph.nodes a h1 h3 hk
      · rw [a5] at hk; cases hk
      · rw [a6] at hk; cases hk
    · intro a h2 hk
      rcases old a h2 with h3 | rfl | rfl
      · rw [x.kind a h3] at hk
        rcases h.ph.doms a h3 hk with h4 | h4 | h4
        · exact .inl h4
        · exact .inr (.inl (List.mem_cons_of_mem _ h4))
        · exact .inr (.inr h4)
      · exact .inr (.inl List.mem_cons_self)
      · rw [a6] at hk; cases hk
    · intro a h2 hk
      rcases old a h2 with h3 | rfl | rfl
      · rw [x.kind a h3] at hk; exact h.ph.imps a h3 hk
      · rw [a5] at hk; cases hk
      · rw [a6] at hk; cases hk
    · intro d hd
      rw [htops]; unfold upd
      rcases List.mem_cons.1 hd with rfl | hd
      · exact ⟨name, if_pos rfl, hname⟩
      · have := (h.ph.free d hd).lt
        rw [if_neg (by omega)]; exact h.topF d hd
    · intro e he
      rw [htops]; unfold upd
      have := (h.ph.cust e he).lt
      rw [if_neg (by omega)]; exact h.topK e he
    · intro a h2 k1 k2
      rw [htops]; unfold upd
      rcases old a h2 with h3 | rfl | rfl
      · rw [x.kind a h3] at k1 k2; rw [if_neg (by omega)]; exact h.topN a h3 k1 k2
      · exact absurd a5 k1
      · rw [if_neg (by omega)]; exact h.topO _ (by omega)
    · intro a ha
      rw [htops]; unfold upd
      rw [if_neg (by omega)]; exact h.topO a (by omega)
  | newComp p =>
    have hp : p < s.comps.length := hl
    have e : (step s (.newComp p)).1 = { s with comps := s.comps ++ [⟨some p, s.comps[p].domain⟩] } := by
      show newComp s p = _
      unfold newComp; rw [List.getElem?_eq_getElem hp]
    rw [e]
    refine ⟨D, F, ⟨⟨h.names, h.common, h.ph, h.topF, h.topK, h.topN, h.topO, h.uvm⟩, ?_, ?_⟩⟩
    · intro x hx
      rcases List.mem_append.1 hx with hx | hx
      · exact h.comps x hx
      · rw [List.mem_singleton] at hx; subst hx
        exact h.comps s.comps[p] (List.getElem_mem hp)
    · intro k x q h1 h2
      have h1 : (s.comps ++ [⟨some p, s.comps[p].domain⟩])[k]? = some x := h1
      by_cases hk : k < s.comps.length
      · rw [List.getElem?_append_left hk] at h1; exact h.pars k x q h1 h2
      · rw [List.getElem?_append_right (by omega)] at h1
        have hk0 : k - s.comps.length = 0 := by
          rcases Nat.eq_zero_or_pos (k - s.comps.length) with h | h
          · exact h
          · rw [List.getElem?_eq_none (by simp; omega)] at h1; cases h1
        rw [hk0] at h1
        simp at h1; subst h1
        simp at h2; omega
  | setDomain c d hier =>
    obtain ⟨h1, h2, h3, h4⟩ := hl
    obtain ⟨s', D', F', e, I, m, k, q, g⟩ := setDomain_eff d s.comps.length c hier s D F h.toIInv (known_of h.toIInv h2 h3 h4) h.pars (by omega) h1
    refine ⟨D', F', ?_⟩
    rw [show (step s (.setDomain c d hier)).1 = s' from congrArg Prod.fst e]
    refine ⟨I, ?_, parOk_of g.par h.pars⟩
    intro x hx
    obtain ⟨j, hj, rfl⟩ := List.getElem_of_mem hx
    by_cases hP : j = c ∨ hier = true ∧ Below s.comps j c
    · have := g.hit j (by rw [← g.len]; exact hj) hP
      rw [List.getElem?_eq_getElem hj] at this
      simp only [Option.map_some, Option.some.injEq] at this
      rw [this]; exact k
    · have := g.miss j hP
      rw [List.getElem?_eq_getElem hj] at this
      obtain ⟨e, he, h5⟩ := h.comps _ (List.mem_of_getElem? this.symm)
      exact ⟨e, m e he, h5⟩

theorem inv_reach {s : State} (h : Reach s) : ∃ D F, Inv s D F := by
  induction h with
  | start => exact ⟨_, _, inv_start⟩
  | step o _ hl ih => obtain ⟨D, F, h⟩ := ih; exact inv_step h o hl

end Verif.CompDomain
