import Verif.Spec.Phase
/-! # Lemmas about phase schedules -/
namespace Verif.Phase

@[simp] theorem set_self {α : Type} (f : Nat → α) (a : Nat) (x : α) : set f a x a = x := by simp [set]
theorem set_ne {α : Type} (f : Nat → α) {a b : Nat} (x : α) (h : b ≠ a) : set f a x b = f b := by simp [set, h]

/-- Dictionary numbers are in range and not shared. -/
structure Refs (s : State) : Prop where
  prlt : ∀ a, a < s.next → s.pr a < s.nref
  srlt : ∀ a, a < s.next → s.sr a < s.nref
  prinj : ∀ a b, a < s.next → b < s.next → s.pr a = s.pr b → a = b
  srinj : ∀ a b, a < s.next → b < s.next → s.sr a = s.sr b → a = b

/-- Everything but the links. -/
structure Same (s t : State) : Prop where
  kind : t.kind = s.kind
  imp : t.imp = s.imp
  parent : t.parent = s.parent
  endN : t.endN = s.endN
  next : t.next = s.next

theorem Same.refl (s : State) : Same s s := ⟨rfl, rfl, rfl, rfl, rfl⟩
theorem Same.trans {s t u : State} (h : Same s t) (k : Same t u) : Same s u :=
  ⟨k.kind.trans h.kind, k.imp.trans h.imp, k.parent.trans h.parent, k.endN.trans h.endN, k.next.trans h.next⟩

theorem loopBefore_eff (x k : Nat) : ∀ (l : List Nat) (s : State),
    (∀ a b, a < s.next → b < s.next → s.sr a = s.sr b → a = b) → l.Nodup → (∀ p ∈ l, p < s.next ∧ x ∈ succs s p) →
    ∃ t, loopBefore x k l s = (t, true) ∧ Same s t ∧ t.pr = s.pr ∧ t.sr = s.sr ∧ t.pd = s.pd ∧ t.nref = s.nref ∧
      ∀ q, q < s.next → succs t q = if q ∈ l then addKey ((succs s q).erase x) k else succs s q := by
  intro l
  induction l with
  | nil => intro s _ _ _; exact ⟨s, rfl, .refl s, rfl, rfl, rfl, rfl, fun q _ => by simp⟩
  | cons p l ih =>
    intro s hr hn hl
    obtain ⟨hp, hx⟩ := hl p List.mem_cons_self
    have hn' := List.nodup_cons.mp hn
    let s1 := addSucc (delSucc s p x) p k
    have e1 : ∀ q, q < s.next → succs s1 q = if q = p then addKey ((succs s p).erase x) k else succs s q := by
      intro q hq
      by_cases e : q = p
      · subst e; simp [s1, succs, addSucc, delSucc]
      · have : s.sr q ≠ s.sr p := fun h => e (hr q p hq hp h)
        simp [s1, succs, addSucc, delSucc, e, set_ne _ _ this]
    have hl1 : ∀ q ∈ l, q < s1.next ∧ x ∈ succs s1 q := by
      intro q hq
      have := hl q (List.mem_cons_of_mem _ hq)
      refine ⟨this.1, ?_⟩
      rw [e1 q this.1, if_neg (by rintro rfl; exact hn'.1 hq)]; exact this.2
    obtain ⟨t, h1, h2, h3, h4, h5, h6, h7⟩ := ih s1 hr hn'.2 hl1
    refine ⟨t, ?_, ⟨h2.1, h2.2, h2.3, h2.4, h2.5⟩, h3, h4, h5, h6, ?_⟩
    · rw [loopBefore, if_pos hx]; exact h1
    · intro q hq
      rw [h7 q hq, e1 q hq]
      by_cases e : q = p
      · subst e; simp [hn'.1]
      · simp [e]

theorem loopAfter_eff (x k : Nat) : ∀ (l : List Nat) (s : State),
    (∀ a b, a < s.next → b < s.next → s.pr a = s.pr b → a = b) → l.Nodup → (∀ p ∈ l, p < s.next ∧ x ∈ preds s p) →
    ∃ t, loopAfter x k l s = (t, true) ∧ Same s t ∧ t.pr = s.pr ∧ t.sr = s.sr ∧ t.sd = s.sd ∧ t.nref = s.nref ∧
      ∀ q, q < s.next → preds t q = if q ∈ l then addKey ((preds s q).erase x) k else preds s q := by
  intro l
  induction l with
  | nil => intro s _ _ _; exact ⟨s, rfl, .refl s, rfl, rfl, rfl, rfl, fun q _ => by simp⟩
  | cons p l ih =>
    intro s hr hn hl
    obtain ⟨hp, hx⟩ := hl p List.mem_cons_self
    have hn' := List.nodup_cons.mp hn
    let s1 := addPred (delPred s p x) p k
    have e1 : ∀ q, q < s.next → preds s1 q = if q = p then addKey ((preds s p).erase x) k else preds s q := by
      intro q hq
      by_cases e : q = p
      · subst e; simp [s1, preds, addPred, delPred]
      · have : s.pr q ≠ s.pr p := fun h => e (hr q p hq hp h)
        simp [s1, preds, addPred, delPred, e, set_ne _ _ this]
    have hl1 : ∀ q ∈ l, q < s1.next ∧ x ∈ preds s1 q := by
      intro q hq
      have := hl q (List.mem_cons_of_mem _ hq)
      refine ⟨this.1, ?_⟩
      rw [e1 q this.1, if_neg (by rintro rfl; exact hn'.1 hq)]; exact this.2
    obtain ⟨t, h1, h2, h3, h4, h5, h6, h7⟩ := ih s1 hr hn'.2 hl1
    refine ⟨t, ?_, ⟨h2.1, h2.2, h2.3, h2.4, h2.5⟩, h3, h4, h5, h6, ?_⟩
    · rw [loopAfter, if_pos hx]; exact h1
    · intro q hq
      rw [h7 q hq, e1 q hq]
      by_cases e : q = p
      · subst e; simp [hn'.1]
      · simp [e]

/-- Adding right before `x`. -/
theorem linkBefore_eff {s : State} (hr : Refs s) {b e x : Nat} (hb : b < s.next) (he : e < s.next) (hx : x < s.next)
    (hbx : b ≠ x) (hex : e ≠ x) (hn : (preds s x).Nodup)
    (hp : ∀ p ∈ preds s x, p < s.next ∧ x ∈ succs s p ∧ p ≠ e) :
    ∃ t, linkBefore s b e x = (t, .ok) ∧ Same s t ∧ Refs t ∧
      (∀ q, q < s.next → preds t q = if q = x then [e] else if q = b then preds s x else preds s q) ∧
      (∀ q, q < s.next → succs t q = if q = e then addKey (succs s e) x
        else if q ∈ preds s x then addKey ((succs s q).erase x) b else succs s q) := by
  let s0 : State := { s with pr := set s.pr b (s.pr x) }
  let s1 := addSucc s0 e x
  have e1 : ∀ q, q < s.next → succs s1 q = if q = e then addKey (succs s e) x else succs s q := by
    intro q hq
    by_cases h : q = e
    · subst h; simp [s1, s0, succs, addSucc]
    · have : s.sr q ≠ s.sr e := fun k => h (hr.srinj q e hq he k)
      simp [s1, s0, succs, addSucc, h, set_ne _ _ this]
  have ep : preds s1 x = preds s x := by simp [s1, s0, preds, addSucc, set_ne _ _ hbx.symm]
  have hl : ∀ p ∈ preds s1 x, p < s1.next ∧ x ∈ succs s1 p := by
    intro p h
    rw [ep] at h
    have := hp p h
    exact ⟨this.1, by rw [e1 p this.1, if_neg this.2.2]; exact this.2.1⟩
  have key := loopBefore_eff x b (preds s1 x) s1 hr.srinj (by rw [ep]; exact hn) hl
  obtain ⟨t, h1, h2, h3, h4, h5, h6, h7⟩ := key
  let t1 : State := { t with pr := set t.pr x t.nref, pd := set t.pd t.nref [], nref := t.nref + 1 }
  have hpr : t.pr = set s.pr b (s.pr x) := h3
  have hsr : t.sr = s.sr := h4
  have hpd : t.pd = s.pd := h5
  have hnr : t.nref = s.nref := h6
  have hnx : t.next = s.next := h2.next
  refine ⟨addPred t1 x e, ?_, ⟨h2.kind, h2.imp, h2.parent, h2.endN, h2.next⟩, ?_, ?_, ?_⟩
  · simp only [linkBefore]
    rw [show loopBefore x b (preds (addSucc { s with pr := set s.pr b (s.pr x) } e x) x)
      (addSucc { s with pr := set s.pr b (s.pr x) } e x) = (t, true) from h1]
    simp [t1]
  · constructor
    · intro a ha
      have ha : a < s.next := by rw [← hnx]; exact ha
      show set t.pr x t.nref a < t.nref + 1
      by_cases h : a = x
      · subst h; rw [set_self]; omega
      · rw [set_ne _ _ h, hpr, hnr]
        by_cases k : a = b
        · subst k; rw [set_self]; have := hr.prlt x hx; omega
        · rw [set_ne _ _ k]; have := hr.prlt a ha; omega
    · intro a ha
      have ha : a < s.next := by rw [← hnx]; exact ha
      show t.sr a < t.nref + 1
      rw [hsr, hnr]; have := hr.srlt a ha; omega
    · intro a c ha hc
      have ha : a < s.next := by rw [← hnx]; exact ha
      have hc : c < s.next := by rw [← hnx]; exact hc
      show set t.pr x t.nref a = set t.pr x t.nref c → a = c
      rw [hpr, hnr]
      have l1 := hr.prlt a ha
      have l2 := hr.prlt c hc
      have l3 := hr.prlt x hx
      have i1 := hr.prinj a c ha hc
      have i2 := hr.prinj a x ha hx
      have i3 := hr.prinj x c hx hc
      simp only [set]
      grind
    · intro a c ha hc
      have ha : a < s.next := by rw [← hnx]; exact ha
      have hc : c < s.next := by rw [← hnx]; exact hc
      show t.sr a = t.sr c → a = c
      rw [hsr]; exact hr.srinj a c ha hc
  · intro q hq
    show set (set t.pd t.nref []) (set t.pr x t.nref x) (addKey (preds t1 x) e) (set t.pr x t.nref q) = _
    rw [set_self]
    by_cases h : q = x
    · subst h; simp [preds, t1, addKey]
    · rw [if_neg h, set_ne _ _ h, hpr, hnr, hpd]
      have hlt : set s.pr b (s.pr x) q < s.nref := by
        by_cases k : q = b
        · subst k; rw [set_self]; exact hr.prlt x hx
        · rw [set_ne _ _ k]; exact hr.prlt q hq
      rw [set_ne _ _ (by omega), set_ne _ _ (by omega)]
      by_cases k : q = b
      · subst k; rw [set_self, if_pos rfl]; rfl
      · rw [set_ne _ _ k, if_neg k]; rfl
  · intro q hq
    have : succs (addPred t1 x e) q = succs t q := rfl
    rw [this, h7 q hq, ep, e1 q hq]
    by_cases h : q = e
    · subst h
      have : q ∉ preds s x := fun hm => (hp q hm).2.2 rfl
      simp [this]
    · simp [h]

/-- Adding right after `x`. -/
theorem linkAfter_eff {s : State} (hr : Refs s) {e b x : Nat} (he : e < s.next) (hb : b < s.next) (hx : x < s.next)
    (hex : e ≠ x) (hbx : b ≠ x) (hn : (succs s x).Nodup)
    (hp : ∀ p ∈ succs s x, p < s.next ∧ x ∈ preds s p ∧ p ≠ b) :
    ∃ t, linkAfter s b e x = (t, .ok) ∧ Same s t ∧ Refs t ∧
      (∀ q, q < s.next → succs t q = if q = x then [b] else if q = e then succs s x else succs s q) ∧
      (∀ q, q < s.next → preds t q = if q = b then addKey (preds s b) x
        else if q ∈ succs s x then addKey ((preds s q).erase x) e else preds s q) := by
  let s0 : State := { s with sr := set s.sr e (s.sr x) }
  let s1 := addPred s0 b x
  have e1 : ∀ q, q < s.next → preds s1 q = if q = b then addKey (preds s b) x else preds s q := by
    intro q hq
    by_cases h : q = b
    · subst h; simp [s1, s0, preds, addPred]
    · have : s.pr q ≠ s.pr b := fun k => h (hr.prinj q b hq hb k)
      simp [s1, s0, preds, addPred, h, set_ne _ _ this]
  have ep : succs s1 x = succs s x := by simp [s1, s0, succs, addPred, set_ne _ _ hex.symm]
  have hl : ∀ p ∈ succs s1 x, p < s1.next ∧ x ∈ preds s1 p := by
    intro p h
    rw [ep] at h
    have := hp p h
    exact ⟨this.1, by rw [e1 p this.1, if_neg this.2.2]; exact this.2.1⟩
  have key := loopAfter_eff x e (succs s1 x) s1 hr.prinj (by rw [ep]; exact hn) hl
  obtain ⟨t, h1, h2, h3, h4, h5, h6, h7⟩ := key
  let t1 : State := { t with sr := set t.sr x t.nref, sd := set t.sd t.nref [], nref := t.nref + 1 }
  have hsr : t.sr = set s.sr e (s.sr x) := h4
  have hpr : t.pr = s.pr := h3
  have hsd : t.sd = s.sd := h5
  have hnr : t.nref = s.nref := h6
  have hnx : t.next = s.next := h2.next
  refine ⟨addSucc t1 x b, ?_, ⟨h2.kind, h2.imp, h2.parent, h2.endN, h2.next⟩, ?_, ?_, ?_⟩
  · simp only [linkAfter]
    rw [show loopAfter x e (succs (addPred { s with sr := set s.sr e (s.sr x) } b x) x)
      (addPred { s with sr := set s.sr e (s.sr x) } b x) = (t, true) from h1]
    simp [t1]
  · constructor
    case srlt =>
      intro a ha
      have ha : a < s.next := by rw [← hnx]; exact ha
      show set t.sr x t.nref a < t.nref + 1
      by_cases h : a = x
      · subst h; rw [set_self]; omega
      · rw [set_ne _ _ h, hsr, hnr]
        by_cases k : a = e
        · subst k; rw [set_self]; have := hr.srlt x hx; omega
        · rw [set_ne _ _ k]; have := hr.srlt a ha; omega
    case prlt =>
      intro a ha
      have ha : a < s.next := by rw [← hnx]; exact ha
      show t.pr a < t.nref + 1
      rw [hpr, hnr]; have := hr.prlt a ha; omega
    case srinj =>
      intro a c ha hc
      have ha : a < s.next := by rw [← hnx]; exact ha
      have hc : c < s.next := by rw [← hnx]; exact hc
      show set t.sr x t.nref a = set t.sr x t.nref c → a = c
      rw [hsr, hnr]
      have l1 := hr.srlt a ha
      have l2 := hr.srlt c hc
      have l3 := hr.srlt x hx
      have i1 := hr.srinj a c ha hc
      have i2 := hr.srinj a x ha hx
      have i3 := hr.srinj x c hx hc
      simp only [set]
      grind
    case prinj =>
      intro a c ha hc
      have ha : a < s.next := by rw [← hnx]; exact ha
      have hc : c < s.next := by rw [← hnx]; exact hc
      show t.pr a = t.pr c → a = c
      rw [hpr]; exact hr.prinj a c ha hc
  · intro q hq
    show set (set t.sd t.nref []) (set t.sr x t.nref x) (addKey (succs t1 x) b) (set t.sr x t.nref q) = _
    rw [set_self]
    by_cases h : q = x
    · subst h; simp [succs, t1, addKey]
    · rw [if_neg h, set_ne _ _ h, hsr, hnr, hsd]
      have hlt : set s.sr e (s.sr x) q < s.nref := by
        by_cases k : q = e
        · subst k; rw [set_self]; exact hr.srlt x hx
        · rw [set_ne _ _ k]; exact hr.srlt q hq
      rw [set_ne _ _ (by omega), set_ne _ _ (by omega)]
      by_cases k : q = e
      · subst k; rw [set_self, if_pos rfl]; rfl
      · rw [set_ne _ _ k, if_neg k]; rfl
  · intro q hq
    have : preds (addSucc t1 x b) q = preds t q := rfl
    rw [this, h7 q hq, ep, e1 q hq]
    by_cases h : q = b
    · subst h
      have : q ∉ succs s x := fun hm => (hp q hm).2.2 rfl
      simp [this]
    · simp [h]

/-! ## Chains -/

theorem linked_append (s : State) : ∀ (u : List Nat) (p q : Option Nat) (v : List Nat),
    Linked s p (u ++ v) q ↔ Linked s p u (v.head?.or q) ∧ Linked s (u.getLast?.or p) v q := by
  intro u
  induction u with
  | nil => intro p q v; simp [Linked]
  | cons a u ih =>
    intro p q v
    simp only [List.cons_append, Linked, ih]
    have h1 : (u ++ v).head?.or q = u.head?.or (v.head?.or q) := by cases u <;> simp
    have h2 : u.getLast?.or (some a) = (a :: u).getLast?.or p := by
      cases u with
      | nil => simp
      | cons b u => simp [List.getLast?_cons]
    rw [h1, h2]
    grind

/-- New ends for a chain. -/
theorem linked_chg {s t : State} : ∀ (u : List Nat) (p q p' q' : Option Nat), Linked s p u q → u.Nodup →
    (∀ a ∈ u, preds t a = if u.head? = some a then p'.toList else preds s a) →
    (∀ a ∈ u, succs t a = if u.getLast? = some a then q'.toList else succs s a) → Linked t p' u q' := by
  intro u
  induction u with
  | nil => intros; trivial
  | cons a u ih =>
    intro p q p' q' hl hn h1 h2
    have hn' := List.nodup_cons.mp hn
    refine ⟨?_, ?_, ?_⟩
    · rw [h1 a List.mem_cons_self]; simp
    · rw [h2 a List.mem_cons_self]
      cases u with
      | nil => simp
      | cons b u =>
        rw [if_neg]
        · rw [hl.2.1]; simp
        · intro h
          have : a ∈ b :: u := by
            have h' : (b :: u).getLast? = some a := by
              rw [← h, List.getLast?_cons_cons]
            exact List.mem_of_getLast? h'
          exact hn'.1 this
    · refine ih (some a) q (some a) q' hl.2.2 hn'.2 ?_ ?_
      · intro c hc
        have hca : c ≠ a := by rintro rfl; exact hn'.1 hc
        rw [h1 c (List.mem_cons_of_mem _ hc), if_neg (by simpa using fun e => hca e.symm)]
        split
        · next hh =>
          cases u with
          | nil => cases hc
          | cons b u => simp at hh; subst hh; rw [hl.2.2.1]
        · rfl
      · intro c hc
        rw [h2 c (List.mem_cons_of_mem _ hc)]
        cases u with
        | nil => cases hc
        | cons b u => rw [List.getLast?_cons_cons]

theorem linked_frame {s t : State} {u : List Nat} {p q : Option Nat} (hl : Linked s p u q)
    (h1 : ∀ a ∈ u, preds t a = preds s a) (h2 : ∀ a ∈ u, succs t a = succs s a) : Linked t p u q := by
  induction u generalizing p with
  | nil => trivial
  | cons a u ih =>
    exact ⟨(h1 a List.mem_cons_self).trans hl.1, (h2 a List.mem_cons_self).trans hl.2.1,
      ih hl.2.2 (fun b hb => h1 b (List.mem_cons_of_mem _ hb)) (fun b hb => h2 b (List.mem_cons_of_mem _ hb))⟩

theorem insBefore_not (x : Nat) (d : List Nat) : ∀ c : List Nat, x ∉ c → insBefore x d c = c := by
  intro c
  induction c with
  | nil => intro _; rfl
  | cons a c ih =>
    intro h
    rw [insBefore, if_neg (by rintro rfl; exact h List.mem_cons_self), ih (fun k => h (List.mem_cons_of_mem _ k))]

theorem insBefore_split (x : Nat) (d v : List Nat) : ∀ u : List Nat, x ∉ u → insBefore x d (u ++ x :: v) = u ++ (d ++ x :: v) := by
  intro u
  induction u with
  | nil => intro _; simp [insBefore]
  | cons a u ih =>
    intro h
    rw [List.cons_append, insBefore, if_neg (by rintro rfl; exact h List.mem_cons_self), ih (fun k => h (List.mem_cons_of_mem _ k))]
    rfl

theorem insAfter_not (x : Nat) (d : List Nat) : ∀ c : List Nat, x ∉ c → insAfter x d c = c := by
  intro c
  induction c with
  | nil => intro _; rfl
  | cons a c ih =>
    intro h
    rw [insAfter, if_neg (by rintro rfl; exact h List.mem_cons_self), ih (fun k => h (List.mem_cons_of_mem _ k))]

theorem insAfter_split (x : Nat) (d v : List Nat) : ∀ u : List Nat, x ∉ u → insAfter x d (u ++ x :: v) = u ++ x :: (d ++ v) := by
  intro u
  induction u with
  | nil => intro _; simp [insAfter]
  | cons a u ih =>
    intro h
    rw [List.cons_append, insAfter, if_neg (by rintro rfl; exact h List.mem_cons_self), ih (fun k => h (List.mem_cons_of_mem _ k))]
    rfl

/-- The chain with `x`, taken out. -/
theorem chain_split {cs : List (List Nat)} {x : Nat} (hn : cs.flatten.Nodup) (hx : x ∈ cs.flatten) :
    ∃ cs1 u v cs2, cs = cs1 ++ (u ++ x :: v) :: cs2 ∧ x ∉ u ∧ (∀ c ∈ cs1, x ∉ c) ∧ (∀ c ∈ cs2, x ∉ c) := by
  obtain ⟨c, hc, hxc⟩ := List.mem_flatten.mp hx
  obtain ⟨cs1, cs2, rfl⟩ := List.append_of_mem hc
  obtain ⟨u, v, rfl⟩ := List.append_of_mem hxc
  refine ⟨cs1, u, v, cs2, rfl, ?_, ?_, ?_⟩
  all_goals
    simp only [List.flatten_append, List.flatten_cons, List.nodup_append, List.mem_append, List.mem_cons,
      List.mem_flatten, List.nodup_cons] at hn
    grind

theorem map_split {cs1 cs2 : List (List Nat)} {c : List Nat} (f : List Nat → List Nat) (h1 : ∀ c ∈ cs1, f c = c)
    (h2 : ∀ c ∈ cs2, f c = c) : (cs1 ++ c :: cs2).map f = cs1 ++ f c :: cs2 := by
  rw [List.map_append, List.map_cons]
  congr 1
  · induction cs1 with
    | nil => rfl
    | cons a l ih => rw [List.map_cons, h1 a List.mem_cons_self, ih (fun c hc => h1 c (List.mem_cons_of_mem _ hc))]
  · congr 1
    induction cs2 with
    | nil => rfl
    | cons a l ih => rw [List.map_cons, h2 a List.mem_cons_self, ih (fun c hc => h2 c (List.mem_cons_of_mem _ hc))]

theorem linked_head {s : State} {u : List Nat} {p q : Option Nat} {a : Nat} (hl : Linked s p u q) (h : u.head? = some a) :
    preds s a = p.toList := by
  cases u with
  | nil => cases h
  | cons b u => cases h; exact hl.1

theorem linked_last {s : State} {u : List Nat} {p q : Option Nat} {a : Nat} (hl : Linked s p u q) (h : u.getLast? = some a) :
    succs s a = q.toList := by
  obtain ⟨v, rfl⟩ := List.getLast?_eq_some_iff.mp h
  have := ((linked_append s v p q [a]).mp hl).2.2.1
  simpa using this

theorem core_before {s : State} {d : List Nat} {cs : List (List Nat)} (hr : Refs s) (hc : Chains s (d :: cs)) {b e x : Nat}
    (hb : d.head? = some b) (he : d.getLast? = some e) (hx : x ∈ cs.flatten) :
    ∃ t, linkBefore s b e x = (t, .ok) ∧ Same s t ∧ Refs t ∧ Chains t (cs.map (insBefore x d)) ∧
      ∀ a, a < s.next → a ∉ (d :: cs).flatten → preds t a = preds s a ∧ succs t a = succs s a := by
  have hnd := hc.nodup
  rw [List.flatten_cons] at hnd
  have hnd' := List.nodup_append.mp hnd
  obtain ⟨cs1, u, v, cs2, rfl, hxu, hx1, hx2⟩ := chain_split hnd'.2.1 hx
  have hbd : b ∈ d := List.mem_of_head? hb
  have hed : e ∈ d := List.mem_of_getLast? he
  have hall : ∀ a, a ∈ d ∨ a ∈ (cs1 ++ (u ++ x :: v) :: cs2).flatten → a < s.next := by
    intro a ha
    exact ((hc.mem a).mp (by rw [List.flatten_cons]; exact List.mem_append.mpr ha)).1
  have hdis : ∀ a ∈ d, a ∉ (cs1 ++ (u ++ x :: v) :: cs2).flatten := fun a ha h => hnd'.2.2 a ha a h rfl
  have hcl := hc.linked (u ++ x :: v) (by simp)
  have hcl' := (linked_append s u none none (x :: v)).mp hcl
  have hdl := hc.linked d List.mem_cons_self
  have hpx : preds s x = u.getLast?.toList := by rw [hcl'.2.1]; simp
  have hlast : ∀ p, u.getLast? = some p → succs s p = [x] := fun p hp => by
    simpa using linked_last hcl'.1 hp
  have hux : ∀ a ∈ u, a ∈ (cs1 ++ (u ++ x :: v) :: cs2).flatten := fun a ha => by simp [ha]
  have hvx : ∀ a ∈ v, a ∈ (cs1 ++ (u ++ x :: v) :: cs2).flatten := fun a ha => by simp [ha]
  have hcn : (u ++ x :: v).Nodup := by
    have := hnd'.2.1
    rw [List.flatten_append, List.flatten_cons] at this
    exact (List.nodup_append.mp (List.nodup_append.mp this).2.1).1
  have hcn' := List.nodup_append.mp hcn
  have hxv : x ∉ v := (List.nodup_cons.mp hcn'.2.1).1
  obtain ⟨t, ht, hs, hrt, hpt, hst⟩ := linkBefore_eff hr (hall b (.inl hbd)) (hall e (.inl hed)) (hall x (.inr hx))
    (by rintro rfl; exact hdis _ hbd hx) (by rintro rfl; exact hdis _ hed hx)
    (by rw [hpx]; cases u.getLast? <;> simp)
    (by
      intro p hp
      rw [hpx] at hp
      have hp : u.getLast? = some p := by cases hh : u.getLast? <;> simp_all
      have hpu := List.mem_of_getLast? hp
      refine ⟨hall p (.inr (hux p hpu)), by rw [hlast p hp]; simp, ?_⟩
      rintro rfl
      exact hdis _ hed (hux _ hpu))
  have hpm : ∀ a, a ∈ preds s x ↔ u.getLast? = some a := by
    intro a
    rw [hpx]; cases u.getLast? <;> simp [eq_comm]
  have hse : succs s e = [] := by simpa using linked_last hdl he
  have frame : ∀ a, a < s.next → a ∉ d → a ≠ x → a ∉ u → preds t a = preds s a ∧ succs t a = succs s a := by
    intro a ha h1 h2 h3
    rw [hpt a ha, hst a ha, if_neg h2, if_neg (by rintro rfl; exact h1 hbd), if_neg (by rintro rfl; exact h1 hed), if_neg]
    · exact ⟨rfl, rfl⟩
    · intro h; exact h3 (List.mem_of_getLast? ((hpm a).mp h))
  refine ⟨t, ht, hs, hrt, ?_, ?_⟩
  · have hmap : (cs1 ++ (u ++ x :: v) :: cs2).map (insBefore x d) = cs1 ++ (u ++ (d ++ x :: v)) :: cs2 := by
      rw [map_split _ (fun c h => insBefore_not x d c (hx1 c h)) (fun c h => insBefore_not x d c (hx2 c h)),
        insBefore_split x d v u hxu]
    rw [hmap]
    have hperm : (cs1 ++ (u ++ (d ++ x :: v)) :: cs2).flatten.Perm (d :: (cs1 ++ (u ++ x :: v) :: cs2)).flatten := by
      simp only [List.flatten_append, List.flatten_cons, List.append_assoc]
      calc cs1.flatten ++ (u ++ (d ++ (x :: v ++ cs2.flatten))) 
          = (cs1.flatten ++ u) ++ (d ++ (x :: v ++ cs2.flatten)) := by simp
        _ |>.Perm (d ++ ((cs1.flatten ++ u) ++ (x :: v ++ cs2.flatten))) := by
            exact List.perm_append_comm_assoc _ _ _
        _ = d ++ (cs1.flatten ++ (u ++ (x :: v ++ cs2.flatten))) := by simp
    refine ⟨hperm.nodup_iff.mpr hc.nodup, ?_, ?_⟩
    · intro a
      rw [hperm.mem_iff, hc.mem a, hs.next, hs.kind]
    · intro c hcm
      rcases List.mem_append.mp hcm with h | h
      · have hl := hc.linked c (List.mem_cons_of_mem _ (List.mem_append_left _ h))
        have hf : ∀ a ∈ c, preds t a = preds s a ∧ succs t a = succs s a := by
          intro a ha
          have hac : a ∈ (cs1 ++ (u ++ x :: v) :: cs2).flatten := by
            simp only [List.flatten_append, List.mem_append]; exact .inl (List.mem_flatten.mpr ⟨c, h, ha⟩)
          refine frame a (hall a (.inr hac)) (fun k => hdis a k hac) (fun k => hx1 c h (k ▸ ha)) ?_
          intro k
          have := hnd'.2.1
          rw [List.flatten_append, List.flatten_cons] at this
          exact (List.nodup_append.mp this).2.2 a (List.mem_flatten.mpr ⟨c, h, ha⟩) a (by simp [k]) rfl
        exact linked_frame hl (fun a ha => (hf a ha).1) (fun a ha => (hf a ha).2)
      · rcases List.mem_cons.mp h with rfl | h
        · rw [linked_append, linked_append]
          refine ⟨?_, ?_, ?_⟩
          · refine linked_chg u none (some x) none _ (by simpa using hcl'.1) hcn'.1 ?_ ?_
            · intro a ha
              have hlt := hall a (.inr (hux a ha))
              rw [hpt a hlt, if_neg (by rintro rfl; exact hxu ha), if_neg (by rintro rfl; exact hdis _ hbd (hux _ ha))]
              split
              · next hh => exact linked_head hcl'.1 hh
              · rfl
            · intro a ha
              have hlt := hall a (.inr (hux a ha))
              rw [hst a hlt, if_neg (by rintro rfl; exact hdis _ hed (hux _ ha))]
              by_cases hh : u.getLast? = some a
              · rw [if_pos ((hpm a).mpr hh), if_pos hh, hlast a hh]
                have : (d ++ x :: v).head? = some b := by cases d <;> simp_all
                simp [this, addKey]
              · rw [if_neg (fun k => hh ((hpm a).mp k)), if_neg hh]
          · refine linked_chg d none none _ _ hdl hnd'.1 ?_ ?_
            · intro a ha
              have hlt := hall a (.inl ha)
              have hne : a ≠ x := by rintro rfl; exact hdis _ ha hx
              rw [hpt a hlt, if_neg hne, hb]
              by_cases hh : a = b
              · subst hh; simp [hpx]
              · rw [if_neg hh, if_neg (by simpa using fun k => hh k.symm)]
            · intro a ha
              have hlt := hall a (.inl ha)
              rw [hst a hlt, he]
              by_cases hh : a = e
              · subst hh; simp [hse, addKey]
              · have hnp : a ∉ preds s x := fun k => hdis a ha (hux a (List.mem_of_getLast? ((hpm a).mp k)))
                rw [if_neg hh, if_neg hnp, if_neg (by simpa using fun k => hh k.symm)]
          · have : d.getLast?.or (u.getLast?.or none) = some e := by rw [he]; rfl
            rw [this]
            have hxt : preds t x = [e] := by rw [hpt x (hall x (.inr hx)), if_pos rfl]
            have hxs : succs t x = succs s x := by
              rw [hst x (hall x (.inr hx)), if_neg (by rintro rfl; exact hdis _ hed hx), if_neg]
              intro k; exact hxu (List.mem_of_getLast? ((hpm x).mp k))
            refine ⟨hxt, hxs.trans hcl'.2.2.1, ?_⟩
            have hf : ∀ a ∈ v, preds t a = preds s a ∧ succs t a = succs s a := by
              intro a ha
              refine frame a (hall a (.inr (hvx a ha))) (fun k => hdis a k (hvx a ha)) (fun k => hxv (k ▸ ha)) ?_
              intro k; exact hcn'.2.2 a k a (List.mem_cons_of_mem _ ha) rfl
            exact linked_frame hcl'.2.2.2 (fun a ha => (hf a ha).1) (fun a ha => (hf a ha).2)
        · have hl := hc.linked c (List.mem_cons_of_mem _ (List.mem_append_right _ (List.mem_cons_of_mem _ h)))
          have hf : ∀ a ∈ c, preds t a = preds s a ∧ succs t a = succs s a := by
            intro a ha
            have hac : a ∈ (cs1 ++ (u ++ x :: v) :: cs2).flatten := by
              simp only [List.flatten_append, List.mem_append, List.flatten_cons]
              exact .inr (.inr (List.mem_flatten.mpr ⟨c, h, ha⟩))
            refine frame a (hall a (.inr hac)) (fun k => hdis a k hac) (fun k => hx2 c h (k ▸ ha)) ?_
            intro k
            have := hnd'.2.1
            rw [List.flatten_append, List.flatten_cons] at this
            exact (List.nodup_append.mp (List.nodup_append.mp this).2.1).2.2 a (by simp [k]) a
              (List.mem_flatten.mpr ⟨c, h, ha⟩) rfl
          exact linked_frame hl (fun a ha => (hf a ha).1) (fun a ha => (hf a ha).2)
  · intro a ha hm
    rw [List.flatten_cons, List.mem_append] at hm
    exact frame a ha (fun k => hm (.inl k)) (fun k => hm (.inr (k ▸ hx))) (fun k => hm (.inr (hux a k)))

theorem core_after {s : State} {d : List Nat} {cs : List (List Nat)} (hr : Refs s) (hc : Chains s (d :: cs)) {b e x : Nat}
    (hb : d.head? = some b) (he : d.getLast? = some e) (hx : x ∈ cs.flatten) :
    ∃ t, linkAfter s b e x = (t, .ok) ∧ Same s t ∧ Refs t ∧ Chains t (cs.map (insAfter x d)) ∧
      ∀ a, a < s.next → a ∉ (d :: cs).flatten → preds t a = preds s a ∧ succs t a = succs s a := by
  have hnd := hc.nodup
  rw [List.flatten_cons] at hnd
  have hnd' := List.nodup_append.mp hnd
  obtain ⟨cs1, u, v, cs2, rfl, hxu, hx1, hx2⟩ := chain_split hnd'.2.1 hx
  have hbd : b ∈ d := List.mem_of_head? hb
  have hed : e ∈ d := List.mem_of_getLast? he
  have hall : ∀ a, a ∈ d ∨ a ∈ (cs1 ++ (u ++ x :: v) :: cs2).flatten → a < s.next := by
    intro a ha
    exact ((hc.mem a).mp (by rw [List.flatten_cons]; exact List.mem_append.mpr ha)).1
  have hdis : ∀ a ∈ d, a ∉ (cs1 ++ (u ++ x :: v) :: cs2).flatten := fun a ha h => hnd'.2.2 a ha a h rfl
  have hcl := hc.linked (u ++ x :: v) (by simp)
  have hcl' := (linked_append s u none none (x :: v)).mp hcl
  have hdl := hc.linked d List.mem_cons_self
  have hpx : succs s x = v.head?.toList := by rw [hcl'.2.2.1]; simp
  have hfirst : ∀ p, v.head? = some p → preds s p = [x] := fun p hp => by
    simpa using linked_head hcl'.2.2.2 hp
  have hux : ∀ a ∈ u, a ∈ (cs1 ++ (u ++ x :: v) :: cs2).flatten := fun a ha => by simp [ha]
  have hvx : ∀ a ∈ v, a ∈ (cs1 ++ (u ++ x :: v) :: cs2).flatten := fun a ha => by simp [ha]
  have hcn : (u ++ x :: v).Nodup := by
    have := hnd'.2.1
    rw [List.flatten_append, List.flatten_cons] at this
    exact (List.nodup_append.mp (List.nodup_append.mp this).2.1).1
  have hcn' := List.nodup_append.mp hcn
  have hxv : x ∉ v := (List.nodup_cons.mp hcn'.2.1).1
  obtain ⟨t, ht, hs, hrt, hst, hpt⟩ := linkAfter_eff hr (hall e (.inl hed)) (hall b (.inl hbd)) (hall x (.inr hx))
    (by rintro rfl; exact hdis _ hed hx) (by rintro rfl; exact hdis _ hbd hx)
    (by rw [hpx]; cases v.head? <;> simp)
    (by
      intro p hp
      rw [hpx] at hp
      have hp : v.head? = some p := by cases hh : v.head? <;> simp_all
      have hpu := List.mem_of_head? hp
      refine ⟨hall p (.inr (hvx p hpu)), by rw [hfirst p hp]; simp, ?_⟩
      rintro rfl
      exact hdis _ hbd (hvx _ hpu))
  have hpm : ∀ a, a ∈ succs s x ↔ v.head? = some a := by
    intro a
    rw [hpx]; cases v.head? <;> simp [eq_comm]
  have hse : preds s b = [] := by simpa using linked_head hdl hb
  have frame : ∀ a, a < s.next → a ∉ d → a ≠ x → a ∉ v → preds t a = preds s a ∧ succs t a = succs s a := by
    intro a ha h1 h2 h3
    have k1 : a ≠ e := by rintro rfl; exact h1 hed
    have k2 : a ≠ b := by rintro rfl; exact h1 hbd
    have k3 : a ∉ succs s x := fun h => h3 (List.mem_of_head? ((hpm a).mp h))
    rw [hpt a ha, hst a ha, if_neg h2, if_neg k1, if_neg k2, if_neg k3]
    exact ⟨rfl, rfl⟩
  refine ⟨t, ht, hs, hrt, ?_, ?_⟩
  · have hmap : (cs1 ++ (u ++ x :: v) :: cs2).map (insAfter x d) = cs1 ++ (u ++ x :: (d ++ v)) :: cs2 := by
      rw [map_split _ (fun c h => insAfter_not x d c (hx1 c h)) (fun c h => insAfter_not x d c (hx2 c h)),
        insAfter_split x d v u hxu]
    rw [hmap]
    have hperm : (cs1 ++ (u ++ x :: (d ++ v)) :: cs2).flatten.Perm (d :: (cs1 ++ (u ++ x :: v) :: cs2)).flatten := by
      have e1 : (cs1 ++ (u ++ x :: (d ++ v)) :: cs2).flatten = (cs1.flatten ++ u ++ [x]) ++ (d ++ (v ++ cs2.flatten)) := by
        simp
      have e2 : (d :: (cs1 ++ (u ++ x :: v) :: cs2)).flatten = d ++ ((cs1.flatten ++ u ++ [x]) ++ (v ++ cs2.flatten)) := by
        simp
      rw [e1, e2]
      exact List.perm_append_comm_assoc _ _ _
    refine ⟨hperm.nodup_iff.mpr hc.nodup, ?_, ?_⟩
    · intro a
      rw [hperm.mem_iff, hc.mem a, hs.next, hs.kind]
    · intro c hcm
      rcases List.mem_append.mp hcm with h | h
      · have hl := hc.linked c (List.mem_cons_of_mem _ (List.mem_append_left _ h))
        have hf : ∀ a ∈ c, preds t a = preds s a ∧ succs t a = succs s a := by
          intro a ha
          have hac : a ∈ (cs1 ++ (u ++ x :: v) :: cs2).flatten := by
            simp only [List.flatten_append, List.mem_append]; exact .inl (List.mem_flatten.mpr ⟨c, h, ha⟩)
          refine frame a (hall a (.inr hac)) (fun k => hdis a k hac) (fun k => hx1 c h (k ▸ ha)) ?_
          intro k
          have := hnd'.2.1
          rw [List.flatten_append, List.flatten_cons] at this
          exact (List.nodup_append.mp this).2.2 a (List.mem_flatten.mpr ⟨c, h, ha⟩) a (by simp [k]) rfl
        exact linked_frame hl (fun a ha => (hf a ha).1) (fun a ha => (hf a ha).2)
      · rcases List.mem_cons.mp h with rfl | h
        · have hxlt := hall x (.inr hx)
          rw [linked_append]
          refine ⟨?_, ?_, ?_, ?_⟩
          · have hf : ∀ a ∈ u, preds t a = preds s a ∧ succs t a = succs s a := by
              intro a ha
              refine frame a (hall a (.inr (hux a ha))) (fun k => hdis a k (hux a ha)) (fun k => hxu (k ▸ ha)) ?_
              intro k; exact hcn'.2.2 a ha a (List.mem_cons_of_mem _ k) rfl
            exact linked_frame hcl'.1 (fun a ha => (hf a ha).1) (fun a ha => (hf a ha).2)
          · rw [hpt x hxlt, if_neg (by rintro rfl; exact hdis _ hbd hx), if_neg]
            · exact hcl'.2.1
            · intro k; exact hxv (List.mem_of_head? ((hpm x).mp k))
          · have : (d ++ v).head? = some b := by cases d <;> simp_all
            rw [hst x hxlt, if_pos rfl, this]; rfl
          · rw [linked_append]
            refine ⟨?_, ?_⟩
            · refine linked_chg d none none _ _ hdl hnd'.1 ?_ ?_
              · intro a ha
                have hlt := hall a (.inl ha)
                rw [hpt a hlt, hb]
                by_cases hh : a = b
                · subst hh; simp [hse, addKey]
                · have hnp : a ∉ succs s x := fun k => hdis a ha (hvx a (List.mem_of_head? ((hpm a).mp k)))
                  rw [if_neg hh, if_neg hnp, if_neg (by simpa using fun k => hh k.symm)]
              · intro a ha
                have hlt := hall a (.inl ha)
                have hne : a ≠ x := by rintro rfl; exact hdis _ ha hx
                rw [hst a hlt, if_neg hne, he]
                by_cases hh : a = e
                · subst hh; simp [hpx]
                · rw [if_neg hh, if_neg (by simpa using fun k => hh k.symm)]
            · refine linked_chg v (some x) none _ none hcl'.2.2.2 (List.nodup_cons.mp hcn'.2.1).2 ?_ ?_
              · intro a ha
                have hlt := hall a (.inr (hvx a ha))
                rw [hpt a hlt, if_neg (by rintro rfl; exact hdis _ hbd (hvx _ ha))]
                by_cases hh : v.head? = some a
                · rw [if_pos ((hpm a).mpr hh), if_pos hh, hfirst a hh, he]
                  simp [addKey]
                · rw [if_neg (fun k => hh ((hpm a).mp k)), if_neg hh]
              · intro a ha
                have hlt := hall a (.inr (hvx a ha))
                rw [hst a hlt, if_neg (by rintro rfl; exact hxv ha), if_neg (by rintro rfl; exact hdis _ hed (hvx _ ha))]
                split
                · next hh => simpa using linked_last hcl'.2.2.2 hh
                · rfl
        · have hl := hc.linked c (List.mem_cons_of_mem _ (List.mem_append_right _ (List.mem_cons_of_mem _ h)))
          have hf : ∀ a ∈ c, preds t a = preds s a ∧ succs t a = succs s a := by
            intro a ha
            have hac : a ∈ (cs1 ++ (u ++ x :: v) :: cs2).flatten := by
              simp only [List.flatten_append, List.mem_append, List.flatten_cons]
              exact .inr (.inr (List.mem_flatten.mpr ⟨c, h, ha⟩))
            refine frame a (hall a (.inr hac)) (fun k => hdis a k hac) (fun k => hx2 c h (k ▸ ha)) ?_
            intro k
            have := hnd'.2.1
            rw [List.flatten_append, List.flatten_cons] at this
            exact (List.nodup_append.mp (List.nodup_append.mp this).2.1).2.2 a (by simp [k]) a
              (List.mem_flatten.mpr ⟨c, h, ha⟩) rfl
          exact linked_frame hl (fun a ha => (hf a ha).1) (fun a ha => (hf a ha).2)
  · intro a ha hm
    rw [List.flatten_cons, List.mem_append] at hm
    exact frame a ha (fun k => hm (.inl k)) (fun k => hm (.inr (k ▸ hx))) (fun k => hm (.inr (hvx a k)))

/-! ## Histories -/

structure Inv (s : State) (cs : List (List Nat)) : Prop where
  chains : Chains s cs
  refs : Refs s
  ends : ∀ a e, a < s.next → s.endN a = some e → (s.kind a = .schedule ∨ s.kind a = .domain) ∧ Earlier cs a e
  imps : ∀ a, a < s.next → s.kind a = .imp → preds s a = [] ∧ succs s a = []

theorem new_preds {s : State} (hr : Refs s) (k : Kind) (i p : Option Nat) {a : Nat} (ha : a < s.next) :
    preds (new s k i p) a = preds s a ∧ succs (new s k i p) a = succs s a := by
  have h1 := hr.prlt a ha
  have h2 := hr.srlt a ha
  simp only [preds, succs, new]
  rw [set_ne s.pr _ (by omega), set_ne s.sr _ (by omega), set_ne _ _ (by omega), set_ne _ _ (by omega)]
  exact ⟨rfl, rfl⟩

theorem new_self (s : State) (k : Kind) (i p : Option Nat) :
    preds (new s k i p) s.next = [] ∧ succs (new s k i p) s.next = [] := by
  simp [preds, succs, new]

theorem new_refs {s : State} (hr : Refs s) (k : Kind) (i p : Option Nat) : Refs (new s k i p) := by
  constructor
  · intro a ha
    have ha : a < s.next + 1 := ha
    show set s.pr s.next s.nref a < s.nref + 1
    by_cases e : a = s.next
    · subst e; simp
    · rw [set_ne _ _ e]; have := hr.prlt a (by omega); omega
  · intro a ha
    have ha : a < s.next + 1 := ha
    show set s.sr s.next s.nref a < s.nref + 1
    by_cases e : a = s.next
    · subst e; simp
    · rw [set_ne _ _ e]; have := hr.srlt a (by omega); omega
  · intro a b ha hb
    have ha : a < s.next + 1 := ha
    have hb : b < s.next + 1 := hb
    show set s.pr s.next s.nref a = set s.pr s.next s.nref b → a = b
    have h1 := hr.prlt a
    have h2 := hr.prlt b
    have h3 := hr.prinj a b
    simp only [set]
    grind
  · intro a b ha hb
    have ha : a < s.next + 1 := ha
    have hb : b < s.next + 1 := hb
    show set s.sr s.next s.nref a = set s.sr s.next s.nref b → a = b
    have h1 := hr.srlt a
    have h2 := hr.srlt b
    have h3 := hr.srinj a b
    simp only [set]
    grind

theorem new_chains {s : State} {cs : List (List Nat)} (hc : Chains s cs) (hr : Refs s) (k : Kind) (hk : k ≠ .imp)
    (i p : Option Nat) : Chains (new s k i p) ([s.next] :: cs) := by
  have hnot : s.next ∉ cs.flatten := fun h => by have := ((hc.mem _).mp h).1; omega
  refine ⟨?_, ?_, ?_⟩
  · simp only [List.flatten_cons, List.cons_append, List.nil_append, List.nodup_cons]
    exact ⟨hnot, hc.nodup⟩
  · intro a
    simp only [List.flatten_cons, List.cons_append, List.nil_append, List.mem_cons]
    show a = s.next ∨ _ ↔ a < s.next + 1 ∧ set s.kind s.next k a ≠ .imp
    by_cases e : a = s.next
    · subst e; simp [hk]
    · rw [set_ne _ _ e, hc.mem a]; constructor
      · rintro (h | h)
        · exact absurd h e
        · exact ⟨by omega, h.2⟩
      · intro h; exact .inr ⟨by omega, h.2⟩
  · intro c hm
    rcases List.mem_cons.mp hm with rfl | hm
    · exact ⟨(new_self s k i p).1, (new_self s k i p).2, trivial⟩
    · have hf : ∀ a ∈ c, a < s.next := fun a ha => ((hc.mem a).mp (List.mem_flatten.mpr ⟨c, hm, ha⟩)).1
      exact linked_frame (hc.linked c hm) (fun a ha => (new_preds hr k i p (hf a ha)).1)
        (fun a ha => (new_preds hr k i p (hf a ha)).2)

theorem earlier_mem {cs : List (List Nat)} {a b : Nat} (h : Earlier cs a b) : a ∈ cs.flatten ∧ b ∈ cs.flatten := by
  obtain ⟨c, hc, hs⟩ := h
  exact ⟨List.mem_flatten.mpr ⟨c, hc, hs.subset (by simp)⟩, List.mem_flatten.mpr ⟨c, hc, hs.subset (by simp)⟩⟩

theorem insBefore_sub (x : Nat) (d : List Nat) : ∀ c : List Nat, c.Sublist (insBefore x d c) := by
  intro c
  induction c with
  | nil => exact .slnil
  | cons a c ih =>
    rw [insBefore]
    split
    · exact List.sublist_append_right _ _
    · exact ih.cons_cons a

theorem insAfter_sub (x : Nat) (d : List Nat) : ∀ c : List Nat, c.Sublist (insAfter x d c) := by
  intro c
  induction c with
  | nil => exact .slnil
  | cons a c ih =>
    rw [insAfter]
    split
    · exact (List.sublist_append_right _ _).cons_cons a
    · exact ih.cons_cons a

theorem insBefore_d (x : Nat) (d : List Nat) : ∀ c : List Nat, x ∈ c → d.Sublist (insBefore x d c) := by
  intro c
  induction c with
  | nil => intro h; cases h
  | cons a c ih =>
    intro h
    rw [insBefore]
    split
    · exact List.sublist_append_left _ _
    · next hne =>
      rcases List.mem_cons.mp h with rfl | h
      · exact absurd rfl hne
      · exact (ih h).cons a

theorem insAfter_d (x : Nat) (d : List Nat) : ∀ c : List Nat, x ∈ c → d.Sublist (insAfter x d c) := by
  intro c
  induction c with
  | nil => intro h; cases h
  | cons a c ih =>
    intro h
    rw [insAfter]
    split
    · exact (List.sublist_append_left _ _).cons a
    · next hne =>
      rcases List.mem_cons.mp h with rfl | h
      · exact absurd rfl hne
      · exact (ih h).cons a

/-- Order in the chains is kept when `d` is put into one of the others by `f`. -/
theorem earlier_ins {cs : List (List Nat)} {d : List Nat} {x a b : Nat} (f : List Nat → List Nat)
    (h1 : ∀ c : List Nat, c.Sublist (f c)) (h2 : ∀ c : List Nat, x ∈ c → d.Sublist (f c)) (hx : x ∈ cs.flatten)
    (h : Earlier (d :: cs) a b) : Earlier (cs.map f) a b := by
  obtain ⟨c, hc, hs⟩ := h
  rcases List.mem_cons.mp hc with rfl | hc
  · obtain ⟨c', hc', hxc⟩ := List.mem_flatten.mp hx
    exact ⟨f c', List.mem_map_of_mem hc', hs.trans (h2 c' hxc)⟩
  · exact ⟨f c, List.mem_map_of_mem hc, hs.trans (h1 c)⟩

theorem chains_perm {s : State} {cs ds : List (List Nat)} (h : cs.Perm ds) (hc : Chains s cs) : Chains s ds :=
  ⟨h.flatten.nodup_iff.mp hc.nodup, fun a => by rw [← h.flatten.mem_iff]; exact hc.mem a,
    fun c hm => hc.linked c (h.mem_iff.mpr hm)⟩

theorem earlier_perm {cs ds : List (List Nat)} {a b : Nat} (h : cs.Perm ds) (he : Earlier cs a b) : Earlier ds a b := by
  obtain ⟨c, hc, hs⟩ := he
  exact ⟨c, h.mem_iff.mp hc, hs⟩

theorem inv_perm {s : State} {cs ds : List (List Nat)} (h : cs.Perm ds) (hc : Inv s cs) : Inv s ds :=
  ⟨chains_perm h hc.chains, hc.refs, fun a e ha he => ⟨(hc.ends a e ha he).1, earlier_perm h (hc.ends a e ha he).2⟩, hc.imps⟩

theorem inv_new {s : State} {cs : List (List Nat)} (h : Inv s cs) (k : Kind) (hk : k ≠ .imp) (i p : Option Nat) :
    Inv (new s k i p) ([s.next] :: cs) := by
  refine ⟨new_chains h.chains h.refs k hk i p, new_refs h.refs k i p, ?_, ?_⟩
  · intro a e ha he
    have ha : a < s.next + 1 := ha
    have he : set s.endN s.next none a = some e := he
    show (set s.kind s.next k a = _ ∨ set s.kind s.next k a = _) ∧ _
    by_cases hh : a = s.next
    · subst hh; simp at he
    · rw [set_ne _ _ hh] at he
      obtain ⟨h1, c, hc, hs⟩ := h.ends a e (by omega) he
      exact ⟨by rw [set_ne _ _ hh]; exact h1, c, List.mem_cons_of_mem _ hc, hs⟩
  · intro a ha hi
    have ha : a < s.next + 1 := ha
    have hi : set s.kind s.next k a = .imp := hi
    by_cases hh : a = s.next
    · subst hh; simp at hi; exact absurd hi hk
    · rw [set_ne _ _ hh] at hi
      have := new_preds h.refs k i p (show a < s.next by omega)
      rw [this.1, this.2]
      exact h.imps a (by omega) hi

theorem inv_newImp {s : State} {cs : List (List Nat)} (h : Inv s cs) : Inv (new s .imp none none) cs := by
  have hr := h.refs
  refine ⟨⟨h.chains.nodup, ?_, ?_⟩, new_refs hr _ _ _, ?_, ?_⟩
  · intro a
    rw [h.chains.mem a]
    show _ ↔ a < s.next + 1 ∧ set s.kind s.next .imp a ≠ .imp
    by_cases e : a = s.next
    · subst e; simp
    · rw [set_ne _ _ e]; constructor
      · intro h; exact ⟨by omega, h.2⟩
      · intro h; exact ⟨by omega, h.2⟩
  · intro c hm
    have hf : ∀ a ∈ c, a < s.next := fun a ha => ((h.chains.mem a).mp (List.mem_flatten.mpr ⟨c, hm, ha⟩)).1
    exact linked_frame (h.chains.linked c hm) (fun a ha => (new_preds hr _ _ _ (hf a ha)).1)
        (fun a ha => (new_preds hr _ _ _ (hf a ha)).2)
  · intro a e ha he
    have ha : a < s.next + 1 := ha
    have he : set s.endN s.next none a = some e := he
    show (set s.kind s.next .imp a = _ ∨ set s.kind s.next .imp a = _) ∧ _
    by_cases hh : a = s.next
    · subst hh; simp at he
    · rw [set_ne _ _ hh] at he
      rw [set_ne _ _ hh]
      exact h.ends a e (by omega) he
  · intro a ha hi
    have ha : a < s.next + 1 := ha
    have hi : set s.kind s.next .imp a = .imp := hi
    by_cases hh : a = s.next
    · subst hh; exact new_self s _ _ _
    · rw [set_ne _ _ hh] at hi
      have := new_preds hr .imp none none (show a < s.next by omega)
      rw [this.1, this.2]
      exact h.imps a (by omega) hi

/-- Linking does not change what an invariant says about ends and IMP phases. -/
theorem inv_link {s t : State} {d : List Nat} {cs cs' : List (List Nat)} (h : Inv s (d :: cs)) (hs : Same s t)
    (hr : Refs t) (hc : Chains t cs') (he : ∀ a b, Earlier (d :: cs) a b → Earlier cs' a b)
    (hf : ∀ a, a < s.next → a ∉ (d :: cs).flatten → preds t a = preds s a ∧ succs t a = succs s a) : Inv t cs' := by
  refine ⟨hc, hr, ?_, ?_⟩
  · intro a e ha hen
    rw [hs.next] at ha
    rw [hs.endN] at hen
    rw [hs.kind]
    exact ⟨(h.ends a e ha hen).1, he a e (h.ends a e ha hen).2⟩
  · intro a ha hi
    rw [hs.next] at ha
    rw [hs.kind] at hi
    have hnot : a ∉ (d :: cs).flatten := fun k => ((h.chains.mem a).mp k).2 hi
    rw [(hf a ha hnot).1, (hf a ha hnot).2]
    exact h.imps a ha hi

theorem inv_newTop {s : State} {cs : List (List Nat)} (h : Inv s cs) (k : Kind) (hk : k = .schedule ∨ k = .domain) :
    Inv (newTop s k) (cs ++ [[s.next, s.next + 1]]) := by
  have hk' : k ≠ .imp := by rcases hk with rfl | rfl <;> decide
  have h1 := inv_new h k hk' none none
  let s1 := new s k none none
  have h2 : Inv (new s1 .terminal none (some s.next)) ([s.next + 1] :: [s.next] :: cs) := inv_new h1 .terminal (by decide) none (some s.next)
  let s2 := new s1 .terminal none (some s.next)
  let a := s.next
  let e := s.next + 1
  let t := newTop s k
  have hae : a < s2.next := by show s.next < s.next + 1 + 1; omega
  have hee : e < s2.next := by show s.next + 1 < s.next + 1 + 1; omega
  have hne : a ≠ e := by show s.next ≠ s.next + 1; omega
  have z1 : preds s2 a = [] ∧ succs s2 a = [] := by
    have := h2.chains.linked [s.next] (by simp)
    exact ⟨this.1, this.2.1⟩
  have z2 : preds s2 e = [] ∧ succs s2 e = [] := by
    have := h2.chains.linked [s.next + 1] (by simp)
    exact ⟨this.1, this.2.1⟩
  have ht : t = addPred (addSucc { s2 with endN := set s2.endN a (some e) } a e) e a := rfl
  have hp : ∀ q, q < s2.next → preds t q = if q = e then [a] else preds s2 q := by
    intro q hq
    rw [ht]
    by_cases hh : q = e
    · subst hh
      have : preds (addSucc { s2 with endN := set s2.endN a (some e) } a e) e = [] := z2.1
      simp only [addPred, this, if_pos, addKey, List.not_mem_nil, if_false, List.nil_append]
      simp [preds, addSucc]
    · have : s2.pr q ≠ s2.pr e := fun k => hh (h2.refs.prinj q e hq hee k)
      rw [if_neg hh]
      show set s2.pd (s2.pr e) _ (s2.pr q) = _
      rw [set_ne _ _ this]; rfl
  have hsu : ∀ q, q < s2.next → succs t q = if q = a then [e] else succs s2 q := by
    intro q hq
    rw [ht]
    show set s2.sd (s2.sr a) (addKey (succs s2 a) e) (s2.sr q) = _
    by_cases hh : q = a
    · subst hh; rw [z1.2]; simp [addKey]
    · have : s2.sr q ≠ s2.sr a := fun k => hh (h2.refs.srinj q a hq hae k)
      rw [if_neg hh, set_ne _ _ this]; rfl
  have hnext : t.next = s2.next := rfl
  have hkind : t.kind = s2.kind := rfl
  have hmem : ∀ q, q ∈ (cs ++ [[s.next, s.next + 1]]).flatten ↔ q ∈ ([s.next + 1] :: [s.next] :: cs).flatten := by
    intro q; simp; grind
  refine ⟨⟨?_, ?_, ?_⟩, ⟨h2.refs.prlt, h2.refs.srlt, h2.refs.prinj, h2.refs.srinj⟩, ?_, ?_⟩
  · have := h2.chains.nodup
    simp only [List.flatten_cons, List.flatten_append, List.flatten_nil, List.append_nil, List.nodup_append] at this ⊢
    grind
  · intro q
    rw [hmem q]; exact h2.chains.mem q
  · intro c hc
    rcases List.mem_append.mp hc with hc | hc
    · have hcm : c ∈ [s.next + 1] :: [s.next] :: cs := by simp [hc]
      have hlt : ∀ q ∈ c, q < s.next := fun q hq => ((h.chains.mem q).mp (List.mem_flatten.mpr ⟨c, hc, hq⟩)).1
      refine linked_frame (h2.chains.linked c hcm) ?_ ?_
      · intro q hq
        have := hlt q hq
        exact (hp q (show q < s.next + 1 + 1 by omega)).trans (if_neg (show q ≠ s.next + 1 by omega))
      · intro q hq
        have := hlt q hq
        exact (hsu q (show q < s.next + 1 + 1 by omega)).trans (if_neg (show q ≠ s.next by omega))
    · simp only [List.mem_cons, List.not_mem_nil, or_false] at hc
      subst hc
      refine ⟨(hp a hae).trans ?_, (hsu a hae).trans (if_pos rfl), (hp e hee).trans (if_pos rfl), (hsu e hee).trans ?_, trivial⟩
      · rw [if_neg hne]; exact z1.1
      · rw [if_neg hne.symm]; exact z2.2
  · intro q x hq hx
    have hx : set s2.endN a (some e) q = some x := hx
    by_cases hh : q = a
    · subst hh
      rw [set_self] at hx
      cases hx
      refine ⟨?_, [a, e], by simp [a, e], List.Sublist.refl _⟩
      have : t.kind a = k := by
        show set (set s.kind s.next k) (s.next + 1) .terminal s.next = k
        rw [set_ne _ _ (by omega), set_self]
      rw [show (newTop s k).kind = t.kind from rfl, this]; exact hk
    · rw [set_ne _ _ hh] at hx
      obtain ⟨g1, c, g2, g3⟩ := h2.ends q x hq hx
      refine ⟨g1, ?_⟩
      rcases List.mem_cons.mp g2 with rfl | g2
      · exact absurd g3.length_le (by simp)
      · rcases List.mem_cons.mp g2 with rfl | g2
        · exact absurd g3.length_le (by simp)
        · exact ⟨c, List.mem_append_left _ g2, g3⟩
  · intro q hq hi
    have hi : s2.kind q = .imp := hi
    have hi' := h2.imps q hq hi
    have n1 : q ≠ a := by
      rintro rfl
      have := ((h2.chains.mem a).mp (by simp [a])).2
      exact this hi
    have n2 : q ≠ e := by
      rintro rfl
      have := ((h2.chains.mem e).mp (by simp [e])).2
      exact this hi
    exact ⟨(hp q hq).trans ((if_neg n2).trans hi'.1), (hsu q hq).trans ((if_neg n1).trans hi'.2)⟩

/-- The state in which the begin and end nodes are linked: with the new node, or the new parent. -/
def prep (s : State) (self phase : Nat) : State :=
  if s.kind phase = .imp then new s .node (some phase) (some self)
  else { s with parent := set s.parent phase (some self) }

theorem item_prep {s : State} {cs cs' : List (List Nat)} {self phase : Nat} {d : List Nat} (h : Inv s cs)
    (hi : Item s cs phase d cs') : Inv (prep s self phase) (d :: cs') ∧ phase < s.next ∧
      ∃ b e, d.head? = some b ∧ d.getLast? = some e ∧
      ∀ (a b' : Option Nat), place s self phase none a b' =
        link (prep s self phase) b e none a b' := by
  cases hi with
  | imp hp hk =>
    refine ⟨?_, hp, s.next, s.next, rfl, rfl, ?_⟩
    · rw [prep, if_pos hk]; exact inv_new h .node (by decide) _ _
    · intro a b'; rw [place, if_pos hk, prep, if_pos hk]
  | sched hcs hh hl hk =>
    rename_i cs1 cs2
    have hk' : s.kind phase ≠ .imp := by rcases hk with hk | hk <;> rw [hk] <;> decide
    have hperm : cs.Perm (d :: (cs1 ++ cs2)) := by rw [hcs]; exact List.perm_middle
    have hi' := inv_perm hperm h
    have hmem : phase ∈ cs.flatten := by
      rw [hcs]; simp [List.mem_of_head? hh]
    refine ⟨?_, ((h.chains.mem phase).mp hmem).1, phase, ?_⟩
    · rw [prep, if_neg hk']
      exact ⟨⟨hi'.chains.nodup, hi'.chains.mem, fun c hc => linked_frame (hi'.chains.linked c hc) (fun _ _ => rfl) (fun _ _ => rfl)⟩,
        ⟨hi'.refs.prlt, hi'.refs.srlt, hi'.refs.prinj, hi'.refs.srinj⟩, hi'.ends, hi'.imps⟩
    · cases hd : d.getLast? with
      | none =>
        rw [List.getLast?_eq_none_iff] at hd
        subst hd; cases hh
      | some e =>
        refine ⟨e, hh, rfl, ?_⟩
        intro a b'
        rw [place, if_neg hk', hl, hd, prep, if_neg hk']

theorem link_before_inv {s : State} {d : List Nat} {cs : List (List Nat)} {b e x : Nat} (h : Inv s (d :: cs))
    (hb : d.head? = some b) (he : d.getLast? = some e) (hx : x ∈ cs.flatten) :
    (link s b e none none (some x)).2 = .ok ∧ Inv (link s b e none none (some x)).1 (cs.map (insBefore x d)) := by
  obtain ⟨t, h1, h2, h3, h4, h5⟩ := core_before h.refs h.chains hb he hx
  rw [link, h1]
  exact ⟨rfl, inv_link h h2 h3 h4 (fun a c hh => earlier_ins _ (insBefore_sub x d) (insBefore_d x d) hx hh) h5⟩

theorem link_after_inv {s : State} {d : List Nat} {cs : List (List Nat)} {b e x : Nat} (h : Inv s (d :: cs))
    (hb : d.head? = some b) (he : d.getLast? = some e) (hx : x ∈ cs.flatten) :
    (link s b e none (some x) none).2 = .ok ∧ Inv (link s b e none (some x) none).1 (cs.map (insAfter x d)) := by
  obtain ⟨t, h1, h2, h3, h4, h5⟩ := core_after h.refs h.chains hb he hx
  rw [link, h1]
  exact ⟨rfl, inv_link h h2 h3 h4 (fun a c hh => earlier_ins _ (insAfter_sub x d) (insAfter_d x d) hx hh) h5⟩

theorem inv_init : Inv init [] :=
  ⟨⟨List.nodup_nil, fun a => by simp [init], by simp⟩, ⟨by simp [init], by simp [init], by simp [init], by simp [init]⟩,
    by simp [init], by simp [init]⟩

theorem add_append {s : State} {cs cs' : List (List Nat)} {self phase x : Nat} {d : List Nat} (h : Inv s cs)
    (hi : Item s cs phase d cs') (hs : self < s.next) (he : s.endN self = some x) (hx : x ∈ cs'.flatten) :
    (step s (.add self phase none none none)).2 = .ok ∧
    Inv (step s (.add self phase none none none)).1 (cs'.map (insBefore x d)) := by
  obtain ⟨h1, h2, b, e, hb, hl, heq⟩ := item_prep (self := self) h hi
  have : step s (.add self phase none none none) = link (prep s self phase) b e none none (some x) := by
    rw [← heq none (some x)]
    simp only [step, hs, h2, below, and_self, if_true, add, resolve, Option.isSome_none, Bool.false_and, Bool.false_eq_true,
      if_false, he]
    simp
  rw [this]
  exact link_before_inv h1 hb hl hx

theorem add_before {s : State} {cs cs' : List (List Nat)} {self phase x : Nat} {d : List Nat} {b : Option Nat} (h : Inv s cs)
    (hi : Item s cs phase d cs') (hs : self < s.next) (he : s.endN self ≠ none) (hbl : below s.next b)
    (hr : resolve s self b = some (some x)) (hxs : x ≠ self) (hx : x ∈ cs'.flatten) :
    (step s (.add self phase none none b)).2 = .ok ∧
    Inv (step s (.add self phase none none b)).1 (cs'.map (insBefore x d)) := by
  obtain ⟨h1, h2, b0, e, hb, hl, heq⟩ := item_prep (self := self) h hi
  have : step s (.add self phase none none b) = link (prep s self phase) b0 e none none (some x) := by
    rw [← heq none (some x)]
    have he' : ¬ (none = s.endN self) := fun k => he k.symm
    simp only [step, hs, h2, hbl, and_self, if_true, add, hr]
    simp [below, resolve, hxs, he']
  rw [this]
  exact link_before_inv h1 hb hl hx

theorem add_after {s : State} {cs cs' : List (List Nat)} {self phase x : Nat} {d : List Nat} {a : Option Nat} (h : Inv s cs)
    (hi : Item s cs phase d cs') (hs : self < s.next) (he : s.endN self ≠ none) (hbl : below s.next a)
    (hr : resolve s self a = some (some x)) (hxs : some x ≠ s.endN self) (hx : x ∈ cs'.flatten) :
    (step s (.add self phase none a none)).2 = .ok ∧
    Inv (step s (.add self phase none a none)).1 (cs'.map (insAfter x d)) := by
  obtain ⟨h1, h2, b0, e, hb, hl, heq⟩ := item_prep (self := self) h hi
  have : step s (.add self phase none a none) = link (prep s self phase) b0 e none (some x) none := by
    rw [← heq (some x) none]
    have he' : ¬ (none = s.endN self) := fun k => he k.symm
    simp only [step, hs, h2, hbl, and_self, if_true, add, hr]
    simp [below, resolve, hxs, he']
  rw [this]
  exact link_after_inv h1 hb hl hx

theorem runS_snoc (ops : List Op) (o : Op) : runS step init (ops ++ [o]) = (step (runS step init ops) o).1 := by
  rw [runS_append]; rfl

theorem sched_inv {ops : List Op} {cs : List (List Nat)} (h : Sched ops cs) : Inv (runS step init ops) cs := by
  induction h with
  | nil => exact inv_init
  | newImp _ ih => rw [runS_snoc]; exact inv_newImp ih
  | newTop d _ ih => rw [runS_snoc]; cases d <;> exact inv_newTop ih _ (by simp)
  | append _ hi hs he hx ih => rw [runS_snoc]; exact (add_append ih hi hs he hx).2
  | before _ hi hs he hb hr hxs hx ih => rw [runS_snoc]; exact (add_before ih hi hs he hb hr hxs hx).2
  | after _ hi hs he hb hr hxs hx ih => rw [runS_snoc]; exact (add_after ih hi hs he hb hr hxs hx).2

/-! ## Searching -/

theorem nodup_bound : ∀ (n : Nat) (l : List Nat), l.Nodup → (∀ a ∈ l, a < n) → l.length ≤ n := by
  intro n
  induction n with
  | zero =>
    intro l _ h
    cases l with
    | nil => simp
    | cons a l => exact absurd (h a List.mem_cons_self) (by omega)
  | succ n ih =>
    intro l hn h
    by_cases hm : n ∈ l
    · have := ih (l.erase n) (hn.erase n) (by
        intro a ha
        have h1 := h a (List.mem_of_mem_erase ha)
        have h2 : a ≠ n := by rintro rfl; exact (List.Nodup.not_mem_erase hn) ha
        omega)
      rw [List.length_erase_of_mem hm] at this
      omega
    · have := ih l hn (by
        intro a ha
        have h1 := h a ha
        have h2 : a ≠ n := by rintro rfl; exact hm ha
        omega)
      omega

theorem findSucc_chain (s : State) (stay : Bool) (orig phase : Nat) : ∀ (v : List Nat) (p : Option Nat) (a n : Nat),
    Linked s p (a :: v) none → v.length < n →
    findSucc s stay orig phase n a = some ((a :: v.takeWhile (inScope s stay orig)).find? (isPhase s phase)) := by
  intro v
  induction v with
  | nil =>
    intro p a n hl hn
    obtain _ | n := n
    · omega
    · rw [findSucc, hl.2.1]
      by_cases h : isPhase s phase a = true
      · simp [h]
      · simp [h]
  | cons b v ih =>
    intro p a n hl hn
    obtain _ | n := n
    · omega
    · rw [findSucc, hl.2.1]
      by_cases h : isPhase s phase a = true
      · simp [h]
      · by_cases hsc : inScope s stay orig b = true
        · have := ih (some a) b n hl.2.2 (by simp at hn; omega)
          simp [h, hsc, this]
        · simp [h, hsc]

theorem findPred_chain (s : State) (stay : Bool) (orig phase : Nat) : ∀ (n : Nat) (u : List Nat) (q : Option Nat) (a : Nat),
    Linked s none (u ++ [a]) q → u.length < n →
    findPred s stay orig phase n a = some ((a :: u.reverse.takeWhile (inScope s stay orig)).find? (isPhase s phase)) := by
  intro n
  induction n with
  | zero => intro u q a hl hn; omega
  | succ n ih =>
    intro u q a hl hn
    have hla := (linked_append s u none q [a]).mp hl
    have hpa : preds s a = u.getLast?.toList := by simpa using hla.2.1
    rw [findPred, hpa]
    by_cases h : isPhase s phase a = true
    · simp [h]
    · rcases List.eq_nil_or_concat u with rfl | ⟨u', b, rfl⟩
      · simp [h]
      · simp only [h, Bool.false_eq_true, if_false, List.getLast?_concat, Option.toList_some, List.concat_eq_append,
          List.reverse_append, List.reverse_cons, List.reverse_nil, List.nil_append, List.cons_append]
        by_cases hsc : inScope s stay orig b = true
        · have hl' : Linked s none (u' ++ [b]) (some a) := by
            have := hla.1
            simpa using this
          have := ih u' (some a) b hl' (by simp at hn; omega)
          simp [h, hsc, this]
        · simp [h, hsc]

theorem chain_len {s : State} {cs : List (List Nat)} (h : Chains s cs) {c : List Nat} (hc : c ∈ cs) : c.length ≤ s.next := by
  refine nodup_bound s.next c ?_ (fun a ha => ((h.mem a).mp (List.mem_flatten.mpr ⟨c, hc, ha⟩)).1)
  obtain ⟨l1, l2, rfl⟩ := List.append_of_mem hc
  have := h.nodup
  rw [List.flatten_append, List.flatten_cons] at this
  exact (List.nodup_append.mp (List.nodup_append.mp this).2.1).1

theorem findSucc_in {s : State} {cs : List (List Nat)} (h : Chains s cs) {u v : List Nat} {a : Nat} (hc : u ++ a :: v ∈ cs)
    (stay : Bool) (orig phase : Nat) :
    findSucc s stay orig phase (s.next + 1) a =
      some ((a :: v.takeWhile (inScope s stay orig)).find? (isPhase s phase)) := by
  have hl := chain_len h hc
  have := ((linked_append s u none none (a :: v)).mp (h.linked _ hc)).2
  refine findSucc_chain s stay orig phase v _ a _ this ?_
  simp at hl; omega

theorem findPred_in {s : State} {cs : List (List Nat)} (h : Chains s cs) {u v : List Nat} {a : Nat} (hc : u ++ a :: v ∈ cs)
    (stay : Bool) (orig phase : Nat) :
    findPred s stay orig phase (s.next + 1) a =
      some ((a :: u.reverse.takeWhile (inScope s stay orig)).find? (isPhase s phase)) := by
  have hl := chain_len h hc
  have h1 := h.linked _ hc
  rw [show u ++ a :: v = (u ++ [a]) ++ v by simp] at h1
  have := ((linked_append s (u ++ [a]) none none v).mp h1).1
  refine findPred_chain s stay orig phase _ u _ a this ?_
  simp at hl; omega

theorem inScope_false (s : State) (orig : Nat) : inScope s false orig = fun _ => true := by
  funext a; simp [inScope]

theorem takeWhile_true (l : List Nat) : l.takeWhile (fun _ => true) = l := by
  induction l with
  | nil => rfl
  | cons a l ih => simp [ih]

theorem cons_sub {a x : Nat} {l m : List Nat} : (a :: l).Sublist (x :: m) ↔ (a :: l).Sublist m ∨ a = x ∧ l.Sublist m := by
  constructor
  · intro h
    cases h with
    | cons _ h => exact .inl h
    | cons_cons _ h => exact .inr ⟨rfl, h⟩
  · rintro (h | ⟨rfl, h⟩)
    · exact h.cons x
    · exact h.cons_cons a

theorem earlier_iff {s : State} {cs : List (List Nat)} (h : Chains s cs) {u v : List Nat} {a b : Nat} (hc : u ++ a :: v ∈ cs) :
    (Earlier cs a b ↔ b ∈ v) ∧ (Earlier cs b a ↔ b ∈ u) := by
  have huniq : ∀ c ∈ cs, a ∈ c → c = u ++ a :: v := by
    intro c hcm ha
    obtain ⟨l1, l2, rfl⟩ := List.append_of_mem hc
    have := h.nodup
    rw [List.flatten_append, List.flatten_cons] at this
    have n1 := List.nodup_append.mp this
    have n2 := List.nodup_append.mp n1.2.1
    rcases List.mem_append.mp hcm with k | k
    · exact absurd rfl (n1.2.2 a (List.mem_flatten.mpr ⟨c, k, ha⟩) a (by simp))
    · rcases List.mem_cons.mp k with rfl | k
      · rfl
      · exact absurd rfl (n2.2.2 a (by simp) a (List.mem_flatten.mpr ⟨c, k, ha⟩))
  have hnd : (u ++ a :: v).Nodup := by
    obtain ⟨l1, l2, rfl⟩ := List.append_of_mem hc
    have := h.nodup
    rw [List.flatten_append, List.flatten_cons] at this
    exact (List.nodup_append.mp (List.nodup_append.mp this).2.1).1
  have hn := List.nodup_append.mp hnd
  have hav : a ∉ v := (List.nodup_cons.mp hn.2.1).1
  have hau : a ∉ u := fun k => hn.2.2 a k a List.mem_cons_self rfl
  constructor
  · constructor
    · rintro ⟨c, hcm, hs⟩
      rw [huniq c hcm (hs.subset (by simp))] at hs
      have : [b].Sublist v := by
        clear huniq hcm hc hnd hn
        induction u with
        | nil =>
          rw [List.nil_append, cons_sub] at hs
          rcases hs with hs | hs
          · exact absurd (hs.subset (by simp)) hav
          · exact hs.2
        | cons x u ih =>
          rw [List.cons_append, cons_sub] at hs
          rcases hs with hs | hs
          · exact ih (fun k => hau (List.mem_cons_of_mem _ k)) hs
          · exact absurd (by rw [hs.1]; exact List.mem_cons_self) hau
      exact this.subset (by simp)
    · intro hb
      refine ⟨_, hc, ?_⟩
      have : [b].Sublist v := List.singleton_sublist.mpr hb
      exact (this.cons_cons a).trans (List.sublist_append_right _ _)
  · constructor
    · rintro ⟨c, hcm, hs⟩
      rw [huniq c hcm (hs.subset (by simp))] at hs
      clear huniq hcm hc hnd hn
      induction u with
      | nil =>
        rw [List.nil_append, cons_sub] at hs
        rcases hs with hs | hs
        · exact absurd (hs.subset (by simp)) hav
        · exact absurd (hs.2.subset (by simp)) hav
      | cons x u ih =>
        rw [List.cons_append, cons_sub] at hs
        rcases hs with hs | hs
        · exact List.mem_cons_of_mem _ (ih (fun k => hau (List.mem_cons_of_mem _ k)) hs)
        · rw [hs.1]; exact List.mem_cons_self
    · intro hb
      refine ⟨_, hc, ?_⟩
      exact (List.singleton_sublist.mpr hb).append (show [a].Sublist (a :: v) from List.singleton_sublist.mpr List.mem_cons_self)

theorem chain_of {s : State} {cs : List (List Nat)} (h : Chains s cs) {a : Nat} (ha : a < s.next) (hk : s.kind a ≠ .imp) :
    ∃ u v, u ++ a :: v ∈ cs := by
  obtain ⟨c, hc, hac⟩ := List.mem_flatten.mp ((h.mem a).mpr ⟨ha, hk⟩)
  obtain ⟨u, v, rfl⟩ := List.append_of_mem hac
  exact ⟨u, v, hc⟩

theorem mutual_inv {s : State} {cs : List (List Nat)} (h : Inv s cs) : Mutual s := by
  intro a b ha hb
  constructor
  · intro hm
    by_cases hk : s.kind a = .imp
    · rw [(h.imps a ha hk).2] at hm; cases hm
    · obtain ⟨u, v, hc⟩ := chain_of h.chains ha hk
      have hl := ((linked_append s u none none (a :: v)).mp (h.chains.linked _ hc)).2
      rw [hl.2.1] at hm
      cases v with
      | nil => simp at hm
      | cons x v =>
        simp at hm; subst hm
        rw [hl.2.2.1]; simp
  · intro hm
    by_cases hk : s.kind b = .imp
    · rw [(h.imps b hb hk).1] at hm; cases hm
    · obtain ⟨u, v, hc⟩ := chain_of h.chains hb hk
      have hl := (linked_append s u none none (b :: v)).mp (h.chains.linked _ hc)
      rw [hl.2.1] at hm
      have hm : u.getLast? = some a := by cases hh : u.getLast? <;> simp_all
      rw [linked_last hl.1 hm]; simp

/-! ## Parallel phases -/

structure WInv (s : State) : Prop where
  mtl : Mutual s
  closed : ∀ a, a < s.next → (∀ b ∈ preds s a, b < s.next) ∧ (∀ b ∈ succs s a, b < s.next)
  irr : ∀ a, a < s.next → a ∉ preds s a
  prlt : ∀ a, a < s.next → s.pr a < s.nref
  srlt : ∀ a, a < s.next → s.sr a < s.nref

theorem mem_addKey {l : List Nat} {k a : Nat} : a ∈ addKey l k ↔ a ∈ l ∨ a = k := by
  rw [addKey]; split
  · constructor
    · exact .inl
    · rintro (h | rfl) <;> assumption
  · simp

theorem foldSucc (k : Nat) : ∀ (l : List Nat) (s : State),
    let t := l.foldl (fun s p => addSucc s p k) s
    Same s t ∧ t.pr = s.pr ∧ t.sr = s.sr ∧ t.pd = s.pd ∧ t.nref = s.nref ∧
    (∀ r, (∀ p ∈ l, s.sr p ≠ r) → t.sd r = s.sd r) ∧
    ∀ r, (∃ p ∈ l, s.sr p = r) → t.sd r = addKey (s.sd r) k := by
  intro l
  induction l with
  | nil => intro s; exact ⟨.refl s, rfl, rfl, rfl, rfl, fun _ _ => rfl, fun r ⟨p, hp, _⟩ => by cases hp⟩
  | cons p l ih =>
    intro s
    obtain ⟨h1, h2, h3, h4, h5, h6, h7⟩ := ih (addSucc s p k)
    refine ⟨⟨h1.1, h1.2, h1.3, h1.4, h1.5⟩, h2, h3, h4, h5, ?_, ?_⟩
    · intro r hr
      rw [List.foldl_cons, h6 r (fun q hq => hr q (List.mem_cons_of_mem _ hq))]
      exact set_ne _ _ (fun e => hr p List.mem_cons_self e.symm)
    · intro r hr
      rw [List.foldl_cons]
      have e1 : (addSucc s p k).sd r = if s.sr p = r then addKey (s.sd r) k else s.sd r := by
        by_cases e : s.sr p = r
        · subst e; simp [addSucc, succs]
        · simp only [addSucc]; rw [set_ne _ _ (fun h => e h.symm), if_neg e]
      by_cases hl : ∃ q ∈ l, s.sr q = r
      · rw [h7 r hl, e1]
        split
        · rw [addKey, if_pos (mem_addKey.mpr (.inr rfl))]
        · rfl
      · rw [h6 r (fun q hq e => hl ⟨q, hq, e⟩), e1]
        obtain ⟨q, hq, e⟩ := hr
        rcases List.mem_cons.mp hq with rfl | hq
        · rw [if_pos e]
        · exact absurd ⟨q, hq, e⟩ hl

theorem foldPred (k : Nat) : ∀ (l : List Nat) (s : State),
    let t := l.foldl (fun s p => addPred s p k) s
    Same s t ∧ t.pr = s.pr ∧ t.sr = s.sr ∧ t.sd = s.sd ∧ t.nref = s.nref ∧
    (∀ r, (∀ p ∈ l, s.pr p ≠ r) → t.pd r = s.pd r) ∧
    ∀ r, (∃ p ∈ l, s.pr p = r) → t.pd r = addKey (s.pd r) k := by
  intro l
  induction l with
  | nil => intro s; exact ⟨.refl s, rfl, rfl, rfl, rfl, fun _ _ => rfl, fun r ⟨p, hp, _⟩ => by cases hp⟩
  | cons p l ih =>
    intro s
    obtain ⟨h1, h2, h3, h4, h5, h6, h7⟩ := ih (addPred s p k)
    refine ⟨⟨h1.1, h1.2, h1.3, h1.4, h1.5⟩, h2, h3, h4, h5, ?_, ?_⟩
    · intro r hr
      rw [List.foldl_cons, h6 r (fun q hq => hr q (List.mem_cons_of_mem _ hq))]
      exact set_ne _ _ (fun e => hr p List.mem_cons_self e.symm)
    · intro r hr
      rw [List.foldl_cons]
      have e1 : (addPred s p k).pd r = if s.pr p = r then addKey (s.pd r) k else s.pd r := by
        by_cases e : s.pr p = r
        · subst e; simp [addPred, preds]
        · simp only [addPred]; rw [set_ne _ _ (fun h => e h.symm), if_neg e]
      by_cases hl : ∃ q ∈ l, s.pr q = r
      · rw [h7 r hl, e1]
        split
        · rw [addKey, if_pos (mem_addKey.mpr (.inr rfl))]
        · rfl
      · rw [h6 r (fun q hq e => hl ⟨q, hq, e⟩), e1]
        obtain ⟨q, hq, e⟩ := hr
        rcases List.mem_cons.mp hq with rfl | hq
        · rw [if_pos e]
        · exact absurd ⟨q, hq, e⟩ hl

/-- A new node `n` in parallel with `w`. -/
theorem with_eff {s : State} (h : WInv s) {w : Nat} (hw : w < s.next) (i p : Option Nat) :
    let t := linkWith (new s .node i p) s.next s.next w
    Same (new s .node i p) t ∧ (∀ a, a < s.next → t.pr a = s.pr a ∧ t.sr a = s.sr a) ∧ t.nref = s.nref + 1 ∧
    preds t s.next = preds s w ∧ succs t s.next = succs s w ∧ preds t w = preds s w ∧ succs t w = succs s w ∧
    t.pr s.next = s.pr w ∧ t.sr s.next = s.sr w ∧
    (∀ a, a < s.next → preds t a = if w ∈ preds s a then addKey (preds s a) s.next else preds s a) ∧
    (∀ a, a < s.next → succs t a = if w ∈ succs s a then addKey (succs s a) s.next else succs s a) := by
  intro t
  let n := s.next
  let s1 := new s .node i p
  have nwn : w ≠ n := by show w ≠ s.next; omega
  let s2 : State := { s1 with pr := set s1.pr n (s1.pr w) }
  let s3 : State := { s2 with sr := set s2.sr n (s2.sr w) }
  let s4 := (preds s3 w).foldl (fun s p => addSucc s p n) s3
  have hpr : ∀ a, a < s.next → s3.pr a = s.pr a := by
    intro a ha
    show set (set s.pr s.next s.nref) s.next _ a = _
    rw [set_ne _ _ (by omega), set_ne _ _ (by omega)]
  have hsr : ∀ a, a < s.next → s3.sr a = s.sr a := by
    intro a ha
    show set (set s.sr s.next s.nref) s.next _ a = _
    rw [set_ne _ _ (by omega), set_ne _ _ (by omega)]
  have hprn : s3.pr n = s.pr w := by
    show set (set s.pr s.next s.nref) s.next (set s.pr s.next s.nref w) s.next = _
    rw [set_self, set_ne _ _ (by omega)]
  have hsrn : s3.sr n = s.sr w := by
    show set (set s.sr s.next s.nref) s.next (set s.sr s.next s.nref w) s.next = _
    rw [set_self, set_ne _ _ (by omega)]
  have hpd : ∀ r, r < s.nref → s3.pd r = s.pd r := fun r hr => set_ne _ _ (by omega)
  have hsd : ∀ r, r < s.nref → s3.sd r = s.sd r := fun r hr => set_ne _ _ (by omega)
  have hp3 : preds s3 w = preds s w := by
    simp only [preds]; rw [hpr w hw, hpd _ (h.prlt w hw)]
  obtain ⟨f1, f2, f3, f4, f5, f6, f7⟩ := foldSucc n (preds s3 w) s3
  have hs4w : succs s4 w = succs s w := by
    show s4.sd (s4.sr w) = _
    rw [f3, hsr w hw, f6 (s.sr w)]
    · exact hsd _ (h.srlt w hw)
    · intro q hq e
      rw [hp3] at hq
      have hqn := (h.closed w hw).1 q hq
      rw [hsr q hqn] at e
      have : w ∈ succs s q := (h.mtl q w hqn hw).mpr hq
      have : w ∈ succs s w := by rw [succs, ← e]; exact this
      exact h.irr w hw ((h.mtl w w hw hw).mp this)
  obtain ⟨g1, g2, g3, g4, g5, g6, g7⟩ := foldPred n (succs s4 w) s4
  have ht : t = (succs s4 w).foldl (fun s p => addPred s p n) s4 := rfl
  have htpr : t.pr = s3.pr := by rw [ht, g2, f2]
  have htsr : t.sr = s3.sr := by rw [ht, g3, f3]
  have htsd : ∀ a, a < s.next → t.sd (s.sr a) = if w ∈ succs s a then addKey (succs s a) n else succs s a := by
    intro a ha
    rw [ht, g4]
    by_cases e : w ∈ succs s a
    · rw [if_pos e, f7 (s.sr a)]
      · rw [hsd _ (h.srlt a ha)]; rfl
      · have := (h.mtl a w ha hw).mp e
        exact ⟨a, by rw [hp3]; exact this, hsr a ha⟩
    · rw [if_neg e, f6 (s.sr a)]
      · exact hsd _ (h.srlt a ha)
      · intro q hq hqe
        rw [hp3] at hq
        have hqn := (h.closed w hw).1 q hq
        rw [hsr q hqn] at hqe
        have : w ∈ succs s q := (h.mtl q w hqn hw).mpr hq
        rw [succs, hqe] at this
        exact e this
  have htpd : ∀ a, a < s.next → t.pd (s.pr a) = if w ∈ preds s a then addKey (preds s a) n else preds s a := by
    intro a ha
    rw [ht]
    have h4 : s4.pd (s.pr a) = s.pd (s.pr a) := by
      rw [show s4.pd = s3.pd from f4]; exact hpd _ (h.prlt a ha)
    have h4p : s4.pr = s3.pr := f2
    by_cases e : w ∈ preds s a
    · rw [if_pos e, g7 (s.pr a), h4]
      · rfl
      · have := (h.mtl w a hw ha).mpr e
        exact ⟨a, by rw [hs4w]; exact this, by rw [h4p]; exact hpr a ha⟩
    · rw [if_neg e, g6 (s.pr a), h4]
      · rfl
      · intro q hq hqe
        rw [hs4w] at hq
        have hqn := (h.closed w hw).2 q hq
        rw [h4p, hpr q hqn] at hqe
        have : w ∈ preds s q := (h.mtl w q hw hqn).mp hq
        rw [preds, hqe] at this
        exact e this
  have hwp : w ∉ preds s w := h.irr w hw
  have hws : w ∉ succs s w := fun k => hwp ((h.mtl w w hw hw).mp k)
  refine ⟨(Same.trans (s := new s .node i p) ⟨f1.1, f1.2, f1.3, f1.4, f1.5⟩ g1), ?_, ?_, ?_, ?_, ?_, ?_, ?_, ?_, ?_, ?_⟩
  · intro a ha; rw [htpr, htsr]; exact ⟨hpr a ha, hsr a ha⟩
  · rw [ht, g5, f5]; rfl
  · show t.pd (t.pr n) = _
    rw [htpr, hprn, htpd w hw, if_neg hwp]
  · show t.sd (t.sr n) = _
    rw [htsr, hsrn, htsd w hw, if_neg hws]
  · show t.pd (t.pr w) = _
    rw [htpr, hpr w hw, htpd w hw, if_neg hwp]
  · show t.sd (t.sr w) = _
    rw [htsr, hsr w hw, htsd w hw, if_neg hws]
  · rw [htpr]; exact hprn
  · rw [htsr]; exact hsrn
  · intro a ha
    show t.pd (t.pr a) = _
    rw [htpr, hpr a ha, htpd a ha]
  · intro a ha
    show t.sd (t.sr a) = _
    rw [htsr, hsr a ha, htsd a ha]

theorem with_winv {s : State} (h : WInv s) {w : Nat} (hw : w < s.next) (i p : Option Nat) :
    WInv (linkWith (new s .node i p) s.next s.next w) := by
  obtain ⟨hs, hr, hnr, hpn, hsn, hpw, hsw, hrn1, hrn2, hp, hsu⟩ := with_eff h hw i p
  generalize linkWith (new s .node i p) s.next s.next w = t at *
  have hnext : t.next = s.next + 1 := hs.next
  have cw := h.closed w hw
  have hnp : ∀ a, a < s.next → s.next ∉ preds s a := fun a ha k => by have := (h.closed a ha).1 _ k; omega
  have hns : ∀ a, a < s.next → s.next ∉ succs s a := fun a ha k => by have := (h.closed a ha).2 _ k; omega
  have hpm : ∀ a b, a < s.next → (b ∈ preds t a ↔ b ∈ preds s a ∨ (b = s.next ∧ w ∈ preds s a)) := by
    intro a b ha
    rw [hp a ha]; split
    · next k => rw [mem_addKey]; simp [k]
    · next k => simp [k]
  have hsm : ∀ a b, a < s.next → (b ∈ succs t a ↔ b ∈ succs s a ∨ (b = s.next ∧ w ∈ succs s a)) := by
    intro a b ha
    rw [hsu a ha]; split
    · next k => rw [mem_addKey]; simp [k]
    · next k => simp [k]
  refine ⟨?_, ?_, ?_, ?_, ?_⟩
  · intro a b ha hb
    rw [hnext] at ha hb
    by_cases ea : a = s.next
    · subst ea
      by_cases eb : b = s.next
      · subst eb
        rw [hsn, hpn]
        exact ⟨fun k => absurd k (hns w hw), fun k => absurd k (hnp w hw)⟩
      · have hb' : b < s.next := by omega
        rw [hsn, hpm b _ hb']
        constructor
        · intro k; exact .inr ⟨rfl, (h.mtl w b hw hb').mp k⟩
        · rintro (k | k)
          · exact absurd k (hnp b hb')
          · exact (h.mtl w b hw hb').mpr k.2
    · have ha' : a < s.next := by omega
      by_cases eb : b = s.next
      · subst eb
        rw [hpn, hsm a _ ha']
        constructor
        · rintro (k | k)
          · exact absurd k (hns a ha')
          · exact (h.mtl a w ha' hw).mp k.2
        · intro k; exact .inr ⟨rfl, (h.mtl a w ha' hw).mpr k⟩
      · have hb' : b < s.next := by omega
        rw [hsm a b ha', hpm b a hb']
        have := h.mtl a b ha' hb'
        simp [ea, eb, this]
  · intro a ha
    rw [hnext] at ha ⊢
    by_cases ea : a = s.next
    · subst ea
      rw [hpn, hsn]
      exact ⟨fun b hb => by have := cw.1 b hb; omega, fun b hb => by have := cw.2 b hb; omega⟩
    · have ha' : a < s.next := by omega
      have ca := h.closed a ha'
      constructor
      · intro b hb
        rcases (hpm a b ha').mp hb with k | k
        · have := ca.1 b k; omega
        · omega
      · intro b hb
        rcases (hsm a b ha').mp hb with k | k
        · have := ca.2 b k; omega
        · omega
  · intro a ha
    rw [hnext] at ha
    by_cases ea : a = s.next
    · subst ea; rw [hpn]; exact hnp w hw
    · have ha' : a < s.next := by omega
      intro k
      rcases (hpm a a ha').mp k with k | k
      · exact h.irr a ha' k
      · omega
  · intro a ha
    rw [hnext] at ha
    by_cases ea : a = s.next
    · subst ea; rw [hrn1, hnr]; have := h.prlt w hw; omega
    · have ha' : a < s.next := by omega
      rw [(hr a ha').1, hnr]; have := h.prlt a ha'; omega
  · intro a ha
    rw [hnext] at ha
    by_cases ea : a = s.next
    · subst ea; rw [hrn2, hnr]; have := h.srlt w hw; omega
    · have ha' : a < s.next := by omega
      rw [(hr a ha').2, hnr]; have := h.srlt a ha'; omega

theorem inv_winv {s : State} {cs : List (List Nat)} (h : Inv s cs) : WInv s := by
  refine ⟨mutual_inv h, ?_, ?_, h.refs.prlt, h.refs.srlt⟩
  · intro a ha
    by_cases hk : s.kind a = .imp
    · rw [(h.imps a ha hk).1, (h.imps a ha hk).2]; simp
    · obtain ⟨u, v, hc⟩ := chain_of h.chains ha hk
      have hl := (linked_append s u none none (a :: v)).mp (h.chains.linked _ hc)
      have hlt : ∀ b ∈ u ++ a :: v, b < s.next := fun b hb => ((h.chains.mem b).mp (List.mem_flatten.mpr ⟨_, hc, hb⟩)).1
      rw [hl.2.1, hl.2.2.1]
      constructor
      · intro b hb
        have hb : u.getLast? = some b := by cases hh : u.getLast? <;> simp_all
        exact hlt b (by simp [List.mem_of_getLast? hb])
      · intro b hb
        have hb : v.head? = some b := by cases hh : v.head? <;> simp_all
        exact hlt b (by simp [List.mem_of_head? hb])
  · intro a ha hm
    by_cases hk : s.kind a = .imp
    · rw [(h.imps a ha hk).1] at hm; cases hm
    · obtain ⟨u, v, hc⟩ := chain_of h.chains ha hk
      have hl := (linked_append s u none none (a :: v)).mp (h.chains.linked _ hc)
      rw [hl.2.1] at hm
      have hb : u.getLast? = some a := by cases hh : u.getLast? <;> simp_all
      have hnd : (u ++ a :: v).Nodup := by
        obtain ⟨l1, l2, rfl⟩ := List.append_of_mem hc
        have := h.chains.nodup
        rw [List.flatten_append, List.flatten_cons] at this
        exact (List.nodup_append.mp (List.nodup_append.mp this).2.1).1
      exact (List.nodup_append.mp hnd).2.2 a (List.mem_of_getLast? hb) a List.mem_cons_self rfl

theorem winv_newImp {s : State} (h : WInv s) : WInv (new s .imp none none) := by
  have hn : ∀ a, a < s.next → preds (new s .imp none none) a = preds s a ∧ succs (new s .imp none none) a = succs s a := by
    intro a ha
    have h1 := h.prlt a ha
    have h2 := h.srlt a ha
    simp only [preds, succs, new]
    rw [set_ne s.pr _ (by omega), set_ne s.sr _ (by omega), set_ne _ _ (by omega), set_ne _ _ (by omega)]
    exact ⟨rfl, rfl⟩
  have hz := new_self s .imp none none
  refine ⟨?_, ?_, ?_, ?_, ?_⟩
  · intro a b ha hb
    have ha : a < s.next + 1 := ha
    have hb : b < s.next + 1 := hb
    by_cases ea : a = s.next
    · subst ea
      rw [hz.2]
      by_cases eb : b = s.next
      · subst eb; rw [hz.1]
      · rw [(hn b (by omega)).1]
        exact ⟨fun k => (by cases k), fun k => (by have := (h.closed b (by omega)).1 _ k; omega)⟩
    · rw [(hn a (by omega)).2]
      by_cases eb : b = s.next
      · subst eb; rw [hz.1]
        exact ⟨fun k => (by have := (h.closed a (by omega)).2 _ k; omega), fun k => (by cases k)⟩
      · rw [(hn b (by omega)).1]; exact h.mtl a b (by omega) (by omega)
  · intro a ha
    have ha : a < s.next + 1 := ha
    show (∀ b ∈ _, b < s.next + 1) ∧ (∀ b ∈ _, b < s.next + 1)
    by_cases ea : a = s.next
    · subst ea; rw [hz.1, hz.2]; simp
    · rw [(hn a (by omega)).1, (hn a (by omega)).2]
      have := h.closed a (by omega)
      exact ⟨fun b hb => by have := this.1 b hb; omega, fun b hb => by have := this.2 b hb; omega⟩
  · intro a ha
    have ha : a < s.next + 1 := ha
    by_cases ea : a = s.next
    · subst ea; rw [hz.1]; simp
    · rw [(hn a (by omega)).1]; exact h.irr a (by omega)
  · intro a ha
    have ha : a < s.next + 1 := ha
    show set s.pr s.next s.nref a < s.nref + 1
    by_cases e : a = s.next
    · subst e; simp
    · rw [set_ne _ _ e]; have := h.prlt a (by omega); omega
  · intro a ha
    have ha : a < s.next + 1 := ha
    show set s.sr s.next s.nref a < s.nref + 1
    by_cases e : a = s.next
    · subst e; simp
    · rw [set_ne _ _ e]; have := h.srlt a (by omega); omega

theorem add_with {s : State} {self phase x : Nat} {w : Option Nat} (hs : self < s.next) (hp : phase < s.next)
    (hk : s.kind phase = .imp) (hw : below s.next w) (hr : resolve s self w = some (some x))
    (hx : some x ≠ s.endN self) (he : s.endN self ≠ none) :
    step s (.add self phase w none none) =
      (linkWith (new s .node (some phase) (some self)) s.next s.next x, .ok) := by
  have he' : ¬ (none = s.endN self) := fun k => he k.symm
  simp only [step, hs, hp, hw, and_self, if_true, add, hr]
  simp [below, resolve, hx, he', place, hk, link]

theorem par_winv {ops : List Op} (h : Par ops) : WInv (runS step init ops) := by
  induction h with
  | base h => exact inv_winv (sched_inv h)
  | newImp _ ih => rw [runS_snoc]; exact winv_newImp ih
  | «with» _ hs hp hk hw hr hx hne he ih =>
    rw [runS_snoc, add_with hs hp hk hw hr hne he]
    exact with_winv ih hx _ _

end Verif.Phase
