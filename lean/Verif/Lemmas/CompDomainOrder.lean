import Verif.Lemmas.CompDomain
import Verif.Lemmas.Domain
/-!
# Lemmas about the order of the phases of several domains
-/
namespace Verif.CompDomain
open Verif.Phase (preds succs)
open Verif.PhaseRun (Wf Before St)
open Verif.Domain (docCommon docRuntime DocBefore)

theorem wf_graph {s : State} {D : List (Nat × Nat × List Nat)} {F : List Nat} (h : IInv s D F) : Wf (graph s) := by
  have g := h.ph.good
  refine ⟨fun p q => ?_, ?_⟩
  · show q ∈ (if p < s.dom.ph.next then preds s.dom.ph p else []) ↔ p ∈ (if q < s.dom.ph.next then succs s.dom.ph q else [])
    by_cases hp : p < s.dom.ph.next
    · by_cases hq : q < s.dom.ph.next
      · rw [if_pos hp, if_pos hq]; exact g.agree p q hp hq
      · rw [if_pos hp, if_neg hq]
        exact ⟨fun hm => absurd (g.inP p hp q hm) hq, nofun⟩
    · by_cases hq : q < s.dom.ph.next
      · rw [if_neg hp, if_pos hq]
        exact ⟨nofun, fun hm => absurd (g.inS q hq p hm) hp⟩
      · rw [if_neg hp, if_neg hq]; simp
  · show (if 0 < s.dom.ph.next then preds s.dom.ph 0 else []) = []
    rw [if_pos (by have := h.ph.le; omega), h.ph.p48 0 (by omega) (by omega)]; decide +kernel

theorem graph_preds {s : State} {a : Nat} (h : a < s.dom.ph.next) : (graph s).preds a = preds s.dom.ph a := if_pos h

theorem before_trans {G : PhaseRun.Graph} {a b c : Nat} (h : Before G a b) (k : Before G b c) : Before G a c := by
  induction k with
  | refl => exact h
  | step _ hp ih => exact .step ih hp

theorem linkedP_before {s : State} : ∀ (l : List Nat), LinkedP s.dom.ph l → (∀ a ∈ l, a < s.dom.ph.next) → ∀ (i j : Nat) (a b : Nat), i ≤ j → l[i]? = some a → l[j]? = some b →
    Before (graph s) a b
  | [], _, _, _, _, _, _, _, h, _ => by simp at h
  | [x], _, _, i, j, a, b, hij, hi, hj => by
    have h1 : i = 0 := by rcases i with _ | i; rfl; simp at hi
    have h2 : j = 0 := by rcases j with _ | j; rfl; simp at hj
    subst h1; subst h2
    rw [hi] at hj; cases hj; exact .refl _
  | x :: y :: l, hl, hlt, i, j, a, b, hij, hi, hj => by
    have ih := linkedP_before (y :: l) hl.2 (fun a ha => hlt a (List.mem_cons_of_mem _ ha))
    cases i with
    | succ i =>
      cases j with
      | zero => omega
      | succ j => exact ih i j a b (by omega) hi hj
    | zero =>
      have hx : x = a := by simpa using hi
      subst hx
      cases j with
      | zero => rw [hi] at hj; cases hj; exact .refl _
      | succ j =>
        refine before_trans (.step (.refl _) ?_) (ih 0 j y b (by omega) rfl hj)
        rw [graph_preds (hlt y (by simp)), hl.1]; simp

theorem linkedP_pred {p : PS} : ∀ (l : List Nat) (a b : Nat), LinkedP p (a :: l) → b ∈ l → ∃ c ∈ a :: l, preds p b = [c]
  | x :: l, a, b, hl, hb => by
    rcases List.mem_cons.1 hb with rfl | hb
    · exact ⟨a, by simp, hl.1⟩
    · obtain ⟨c, hc, e⟩ := linkedP_pred l x b hl.2 hb
      exact ⟨c, List.mem_cons_of_mem _ hc, e⟩

theorem linkedP_prefix {p : PS} : ∀ (l m : List Nat), LinkedP p (l ++ m) → LinkedP p l
  | [], _, _ => trivial
  | [_], _, _ => trivial
  | _ :: b :: l, m, h => ⟨h.1, linkedP_prefix (b :: l) m h.2⟩

theorem inDomain_unique {p : PS} {a d e : Nat} (h : InDomain p a d) (k : InDomain p a e) : d = e := by
  induction h with
  | here h1 =>
    cases k with
    | here => rfl
    | up k1 => exact absurd h1 k1
  | up h1 h2 _ ih =>
    cases k with
    | here k1 => exact absurd k1 h1
    | up _ k2 k3 => rw [h2] at k2; cases k2; exact ih k3

theorem ns_length {p : PS} {d k : Nat} {ns : List Nat} (c : Cust p d k ns) : ns.length = 12 := by
  have := congrArg List.length c.imps
  simpa [runtimeImps] using this

theorem ns_inDomain {p : PS} {d k : Nat} {ns : List Nat} (c : Cust p d k ns) {a : Nat} (ha : a ∈ ns) : InDomain p a d := by
  obtain ⟨_, h2, h3⟩ := c.nodes a ha
  exact .up (by rw [h2]; decide) h3 (.up (by rw [c.kk.1]; decide) c.kk.2 (.here c.kd))

/-- The names of the run-time phases. -/
theorem ns_name {s : State} {D : List (Nat × Nat × List Nat)} {F : List Nat} (h : IInv s D F) {e : Nat × Nat × List Nat} (he : e ∈ D) {i a : Nat}
    (ha : e.2.2[i]? = some a) : docRuntime[i]? = some (nm s a) := by
  have c := h.ph.cust e he
  have hi : i < 12 := by rw [← ns_length c]; exact (List.getElem?_eq_some_iff.1 ha).1
  obtain ⟨h1, h2, h3⟩ := c.nodes a (List.mem_of_getElem? ha)
  have himp : s.dom.ph.imp a = runtimeImps[i]? := by
    have := congrArg (fun l => l[i]?) c.imps
    simp only [List.getElem?_map, ha, Option.map_some] at this
    rw [List.getElem?_eq_getElem (by exact hi)] at this ⊢
    simpa using this
  have key : ∀ i < 12, (match runtimeImps[i]? with | none => none | some j => (start.dom.names.find? (·.1 == j)).map (·.2)) = docRuntime[i]? ∧ (docRuntime[i]?).isSome = true := by
    decide +kernel
  unfold nm
  rw [h.topN a h1 (by rw [h2]; decide) (by rw [h2]; decide), h2]
  simp only [Domain.nodeName, himp, h.names]
  obtain ⟨k1, k2⟩ := key i hi
  obtain ⟨n, hn⟩ := Option.isSome_iff_exists.1 k2
  rw [hn] at k1 ⊢
  cases hr : runtimeImps[i]? with
  | none => rw [hr] at k1; cases k1
  | some j =>
    rw [hr] at k1
    simp only [] at k1 ⊢
    rw [k1]; rfl

/-- The common phases. -/
theorem common_name {s : State} {D : List (Nat × Nat × List Nat)} {F : List Nat} (h : IInv s D F) {i : Nat} (hi : i < 9) :
    docCommon[i]? = some (nm s (3 + 2 * i)) ∧ s.dom.ph.kind (3 + 2 * i) = .node ∧ InDomain s.dom.ph (3 + 2 * i) 0 := by
  have hle := h.ph.le
  have key : ∀ i < 9, base.kind (3 + 2 * i) = .node ∧ base.parent (3 + 2 * i) = some 0 ∧ base.imp (3 + 2 * i) = some (2 + 2 * i) ∧
      (start.dom.names.find? (·.1 == 2 + 2 * i)).map (·.2) = docCommon[i]? ∧ (docCommon[i]?).isSome = true := by decide +kernel
  obtain ⟨k1, k2, k3, k4, k5⟩ := key i hi
  obtain ⟨s1, s2, _, s4⟩ := h.ph.std (3 + 2 * i) (by omega)
  have hk : s.dom.ph.kind (3 + 2 * i) = .node := s1.trans k1
  refine ⟨?_, hk, .up (by rw [hk]; decide) (s4.trans k2) (.here ((h.ph.std 0 (by omega)).1.trans (by decide +kernel)))⟩
  unfold nm
  rw [h.topN _ (by omega) (by rw [hk]; decide) (by rw [hk]; decide), hk]
  obtain ⟨n, hn⟩ := Option.isSome_iff_exists.1 k5
  simp only [Domain.nodeName, s2, k3, h.names, k4, hn]
  rfl

theorem dom_ne_zero {s : State} {D : List (Nat × Nat × List Nat)} {F : List Nat} (h : IInv s D F) {e : Nat × Nat × List Nat} (he : e ∈ D) : e.1 ≠ 0 := by
  intro h0
  have := (h.ph.cust e he).pd
  rw [h0, h.ph.p48 0 (by omega) (by omega)] at this
  revert this; decide +kernel

/-- Which phases there are. -/
theorem node_cases {s : State} {D : List (Nat × Nat × List Nat)} {F : List Nat} (h : IInv s D F) {a : Nat} (h1 : a < s.dom.ph.next) (h2 : s.dom.ph.kind a = .node) :
    (∃ i, i < 9 ∧ a = 3 + 2 * i) ∨ ∃ e ∈ D, a ∈ e.2.2 := by
  by_cases ha : a < 48
  · have key : ∀ a < 48, base.kind a = .node → (∃ i, i < 9 ∧ a = 3 + 2 * i) ∨ a ∈ uvmDom.2.2 := by decide +kernel
    rw [(h.ph.std a ha).1] at h2
    rcases key a ha h2 with h3 | h3
    · exact .inl h3
    · exact .inr ⟨_, h.uvm, h3⟩
  · exact .inr (h.ph.nodes a (by omega) h1 h2)

theorem phaseOf_iff {s : State} {D : List (Nat × Nat × List Nat)} {F : List Nat} (h : IInv s D F) {e : Nat × Nat × List Nat} (he : e ∈ D) {name : String} {a : Nat} :
    PhaseOf s e.1 name a ↔ ∃ i : Nat, e.2.2[i]? = some a ∧ docRuntime[i]? = some name := by
  constructor
  · rintro ⟨h1, h2, h3, h4⟩
    rcases node_cases h h1 h2 with ⟨i, hi, rfl⟩ | ⟨e', he', hm⟩
    · exact absurd (inDomain_unique h4 (common_name h hi).2.2) (dom_ne_zero h he)
    · have hd := inDomain_unique h4 (ns_inDomain (h.ph.cust e' he') hm)
      have : e' = e := by
        have nd := h.ph.dn
        obtain ⟨i, hi, rfl⟩ := List.getElem_of_mem he
        obtain ⟨j, hj, rfl⟩ := List.getElem_of_mem he'
        have := (List.getElem_inj (i := i) (j := j) (h₀ := by simpa using hi) (h₁ := by simpa using hj) nd).1 (by simpa using hd)
        subst this; rfl
      subst this
      obtain ⟨i, hi, rfl⟩ := List.getElem_of_mem hm
      exact ⟨i, List.getElem?_eq_getElem hi, by rw [← h3]; exact ns_name h he (List.getElem?_eq_getElem hi)⟩
  · rintro ⟨i, hi, hn⟩
    have c := h.ph.cust e he
    obtain ⟨h1, h2, h3⟩ := c.nodes a (List.mem_of_getElem? hi)
    refine ⟨h1, h2, ?_, ns_inDomain c (List.mem_of_getElem? hi)⟩
    have := ns_name h he hi
    rw [hn] at this
    exact (Option.some.inj this).symm

theorem phaseOf_common_iff {s : State} {D : List (Nat × Nat × List Nat)} {F : List Nat} (h : IInv s D F) {name : String} {a : Nat} :
    PhaseOf s 0 name a ↔ ∃ i, i < 9 ∧ a = 3 + 2 * i ∧ docCommon[i]? = some name := by
  constructor
  · rintro ⟨h1, h2, h3, h4⟩
    rcases node_cases h h1 h2 with ⟨i, hi, rfl⟩ | ⟨e', he', hm⟩
    · exact ⟨i, hi, rfl, by rw [← h3]; exact (common_name h hi).1⟩
    · exact absurd (inDomain_unique h4 (ns_inDomain (h.ph.cust e' he') hm)).symm (dom_ne_zero h he')
  · rintro ⟨i, hi, rfl, hn⟩
    obtain ⟨k1, k2, k3⟩ := common_name h hi
    have hle := h.ph.le
    rw [hn] at k1
    exact ⟨by omega, k2, (Option.some.inj k1).symm, k3⟩

/-- The order of the common phases. -/
theorem common_before {s : State} {D : List (Nat × Nat × List Nat)} {F : List Nat} (h : IInv s D F) (i : Nat) : ∀ n, i + n < 9 → Before (graph s) (3 + 2 * i) (3 + 2 * (i + n))
  | 0, _ => .refl _
  | n + 1, hn => by
    refine .step (common_before h i n (by omega)) ?_
    have hle := h.ph.le
    rw [graph_preds (by omega)]
    by_cases h13 : 3 + 2 * (i + (n + 1)) = 13
    · rw [h13, show 3 + 2 * (i + n) = 11 by omega]; exact h.ph.p13
    · rw [h.ph.p48 _ (by omega) h13]
      have key : ∀ j < 8, 3 + 2 * (j + 1) ≠ 13 → 3 + 2 * j ∈ preds base (3 + 2 * (j + 1)) := by decide +kernel
      exact key (i + n) (by omega) h13

theorem sub_idx {l : List String} {a b : String} (h : [a, b].Sublist l) : ∃ i j : Nat, i < j ∧ l[i]? = some a ∧ l[j]? = some b := by
  induction l with
  | nil => cases h
  | cons x l ih =>
    cases h with
    | cons _ h => obtain ⟨i, j, h1, h2, h3⟩ := ih h; exact ⟨i + 1, j + 1, by omega, h2, h3⟩
    | cons_cons _ h =>
      have hb : b ∈ l := h.subset (by simp)
      obtain ⟨j, hj, rfl⟩ := List.getElem_of_mem hb
      exact ⟨0, j + 1, by omega, rfl, by simp⟩

/-- The phases of one domain among the common ones. -/
theorem doc_before {s : State} {D : List (Nat × Nat × List Nat)} {F : List Nat} (h : IInv s D F) {e : Nat × Nat × List Nat} (he : e ∈ D) {p q : Nat} {a b : String}
    (hp : PhaseOf s e.1 a p ∨ PhaseOf s 0 a p) (hq : PhaseOf s e.1 b q ∨ PhaseOf s 0 b q) (hd : DocBefore a b) : Before (graph s) p q ∧ p ≠ q := by
  have hle := h.ph.le
  have c := h.ph.cust e he
  have hlen := ns_length c
  have disj : ∀ n ∈ docCommon, n ∉ docRuntime := by decide
  have ndC : docCommon.Nodup := by decide
  have ndR : docRuntime.Nodup := by decide
  have lenC : docCommon.length = 9 := rfl
  have inR : ∀ {n x}, PhaseOf s e.1 n x → n ∈ docRuntime := fun hx => by obtain ⟨i, _, h2⟩ := (phaseOf_iff h he).1 hx; exact List.mem_of_getElem? h2
  have inC : ∀ {n x}, PhaseOf s 0 n x → n ∈ docCommon := fun hx => by obtain ⟨i, _, _, h2⟩ := (phaseOf_common_iff h).1 hx; exact List.mem_of_getElem? h2
  have atC : ∀ {n x} {i : Nat}, PhaseOf s e.1 n x ∨ PhaseOf s 0 n x → docCommon[i]? = some n → i < 9 ∧ x = 3 + 2 * i := by
    intro n x i hx hi
    have hi9 : i < docCommon.length := (List.getElem?_eq_some_iff.1 hi).1
    rcases hx with hx | hx
    · exact absurd (inR hx) (disj n (List.mem_of_getElem? hi))
    · obtain ⟨j, hj, rfl, h2⟩ := (phaseOf_common_iff h).1 hx
      have := (List.getElem?_inj (i := i) (j := j) hi9 ndC).1 (hi.trans h2.symm)
      subst this; exact ⟨hj, rfl⟩
  have atR : ∀ {n x} {i : Nat}, PhaseOf s e.1 n x ∨ PhaseOf s 0 n x → docRuntime[i]? = some n → e.2.2[i]? = some x := by
    intro n x i hx hi
    have hi9 : i < docRuntime.length := (List.getElem?_eq_some_iff.1 hi).1
    rcases hx with hx | hx
    · obtain ⟨j, hj, h2⟩ := (phaseOf_iff h he).1 hx
      have := (List.getElem?_inj (i := i) (j := j) hi9 ndR).1 (hi.trans h2.symm)
      subst this; exact hj
    · exact absurd (List.mem_of_getElem? hi) (disj n (inC hx))
  let L := e.1 :: e.2.1 :: e.2.2 ++ [e.2.1 + 1, e.1 + 1]
  have cl := c.lt
  have hL : ∀ x ∈ L, x < s.dom.ph.next := by
    intro x hx
    have hx : x ∈ e.1 :: e.2.1 :: (e.2.2 ++ [e.2.1 + 1, e.1 + 1]) := hx
    simp only [List.mem_cons, List.mem_append, List.not_mem_nil, or_false] at hx
    rcases hx with rfl | rfl | hx | rfl | rfl
    · omega
    · omega
    · exact (c.nodes x hx).1
    · omega
    · omega
  have LB := linkedP_before L c.link hL
  have Ln : ∀ {i x : Nat}, e.2.2[i]? = some x → L[i + 2]? = some x := by
    intro i x hi
    show (e.2.2 ++ [e.2.1 + 1, e.1 + 1])[i]? = some x
    rw [List.getElem?_append_left (List.getElem?_eq_some_iff.1 hi).1]; exact hi
  have L0 : L[0]? = some e.1 := rfl
  have L15 : L[15]? = some (e.1 + 1) := by
    show (e.2.2 ++ [e.2.1 + 1, e.1 + 1])[13]? = _
    rw [List.getElem?_append_right (by omega), hlen]; rfl
  have k0 : ∀ {i x : Nat}, e.2.2[i]? = some x → s.dom.ph.parent x = some e.2.1 := fun hi => (c.nodes _ (List.mem_of_getElem? hi)).2.2
  have neC : ∀ {i x j : Nat}, e.2.2[i]? = some x → j < 9 → x ≠ 3 + 2 * j := by
    intro i x j hi hj hx
    have := inDomain_unique (ns_inDomain c (List.mem_of_getElem? hi)) (hx ▸ (common_name h hj).2.2)
    exact dom_ne_zero h he this
  rcases hd with hd | hd | ⟨hd, hb⟩ | ⟨ha, hd⟩
  · obtain ⟨i, j, hij, hi, hj⟩ := sub_idx hd
    obtain ⟨_, rfl⟩ := atC hp hi
    obtain ⟨hj9, rfl⟩ := atC hq hj
    have := common_before h i (j - i) (by omega)
    rw [show i + (j - i) = j by omega] at this
    exact ⟨this, by omega⟩
  · obtain ⟨i, j, hij, hi, hj⟩ := sub_idx hd
    have e1 := atR hp hi
    have e2 := atR hq hj
    refine ⟨LB (i + 2) (j + 2) p q (by omega) (Ln e1) (Ln e2), fun hpq => ?_⟩
    subst hpq
    have n1 := ns_name h he e1
    have n2 := ns_name h he e2
    have := (List.getElem?_inj (i := i) (j := j) (List.getElem?_eq_some_iff.1 n1).1 ndR).1 (n1.trans n2.symm)
    omega
  · obtain ⟨i, j, hij, hi, hj⟩ := sub_idx hd
    obtain ⟨_, rfl⟩ := atC hp hi
    have hj4 : j = 4 := (List.getElem?_inj (i := j) (j := 4) (List.getElem?_eq_some_iff.1 hj).1 ndC).1 (hj.trans (by decide))
    obtain ⟨m, hm, rfl⟩ := List.getElem_of_mem hb
    have e2 := atR hq (List.getElem?_eq_getElem hm)
    refine ⟨?_, Ne.symm (neC e2 (by omega))⟩
    have b1 := common_before h i (3 - i) (by omega)
    rw [show 3 + 2 * (i + (3 - i)) = 9 by omega] at b1
    refine before_trans b1 (before_trans (.step (.refl _) ?_) (LB 0 (m + 2) e.1 q (by omega) L0 (Ln e2)))
    rw [graph_preds (by omega), c.pd]; simp
  · obtain ⟨i, j, hij, hi, hj⟩ := sub_idx hd
    obtain ⟨hj9, rfl⟩ := atC hq hj
    have hi4 : i = 4 := (List.getElem?_inj (i := i) (j := 4) (List.getElem?_eq_some_iff.1 hi).1 ndC).1 (hi.trans (by decide))
    obtain ⟨m, hm, rfl⟩ := List.getElem_of_mem ha
    have e1 := atR hp (List.getElem?_eq_getElem hm)
    refine ⟨?_, neC e1 hj9⟩
    have b1 := common_before h 5 (j - 5) (by omega)
    rw [show 5 + (j - 5) = j by omega] at b1
    refine before_trans (before_trans (LB (m + 2) 15 p (e.1 + 1) (by have : docRuntime.length = 12 := rfl; omega) (Ln e1) L15) (.step (.refl _) ?_)) b1
    rw [graph_preds (by omega)]; exact c.last

/-- Phases of different domains, and the run phase. -/
theorem not_before {s : State} {D : List (Nat × Nat × List Nat)} {F : List Nat} (h : IInv s D F) :
    (∀ e ∈ D, ∀ a b, b ∈ e.2.2 → Before (graph s) a b → a ∈ e.2.2 ∨ s.dom.ph.kind a ≠ .node ∨ a ∈ [3, 5, 7, 9]) ∧
    (∀ a, Before (graph s) a 11 → s.dom.ph.kind a ≠ .node ∨ a ∈ [3, 5, 7, 9, 11]) := by
  have hle := h.ph.le
  have closed : ∀ (S : List Nat), (∀ x ∈ S, ∀ y ∈ (graph s).preds x, y ∈ S) → ∀ a b, b ∈ S → Before (graph s) a b → a ∈ S := by
    intro S hS a b hb hab
    induction hab with
    | refl => exact hb
    | step _ hp ih => exact ih (hS _ hb _ hp)
  have hstd : ∀ x ∈ [0, 3, 5, 7, 9], ∀ y ∈ (graph s).preds x, y ∈ [0, 3, 5, 7, 9] := by
    intro x hx y hy
    have hx' : x < 48 ∧ x ≠ 13 := by clear hy; revert x; decide
    rw [graph_preds (by omega), h.ph.p48 x hx'.1 hx'.2] at hy
    have key : ∀ x ∈ [0, 3, 5, 7, 9], ∀ y ∈ preds base x, y ∈ [0, 3, 5, 7, 9] := by decide +kernel
    exact key x hx y hy
  have k0 : s.dom.ph.kind 0 ≠ .node := by rw [(h.ph.std 0 (by omega)).1]; decide +kernel
  refine ⟨fun e he a b hb hab => ?_, fun a hab => ?_⟩
  · have c := h.ph.cust e he
    have cl := c.lt
    have hl := linkedP_prefix (e.1 :: e.2.1 :: e.2.2) [e.2.1 + 1, e.1 + 1] c.link
    have := closed (e.1 :: e.2.1 :: e.2.2 ++ [0, 3, 5, 7, 9]) (by
      intro x hx y hy
      rcases List.mem_append.1 hx with hx | hx
      · rcases List.mem_cons.1 hx with rfl | hx
        · rw [graph_preds (by omega), c.pd] at hy
          exact List.mem_append_right _ (by rw [List.mem_singleton] at hy; subst hy; decide)
        · have hlt : x < s.dom.ph.next := by
            rcases List.mem_cons.1 hx with rfl | hx
            · omega
            · exact (c.nodes x hx).1
          obtain ⟨z, hz, e1⟩ := linkedP_pred (e.2.1 :: e.2.2) e.1 x hl hx
          rw [graph_preds hlt, e1, List.mem_singleton] at hy
          subst hy; exact List.mem_append_left _ hz
      · exact List.mem_append_right _ (hstd x hx y hy)) a b (List.mem_append_left _ (by simp [hb])) hab
    rcases List.mem_append.1 this with ha | ha
    · rcases List.mem_cons.1 ha with rfl | ha
      · exact .inr (.inl (by rw [c.kd]; decide))
      · rcases List.mem_cons.1 ha with rfl | ha
        · exact .inr (.inl (by rw [c.kk.1]; decide))
        · exact .inl ha
    · rcases List.mem_cons.1 ha with rfl | ha
      · exact .inr (.inl k0)
      · exact .inr (.inr ha)
  · have := closed [11, 0, 3, 5, 7, 9] (by
      intro x hx y hy
      rcases List.mem_cons.1 hx with rfl | hx
      · rw [graph_preds (by omega), h.ph.p48 11 (by omega) (by omega)] at hy
        have key : ∀ y ∈ preds base 11, y ∈ [11, 0, 3, 5, 7, 9] := by decide +kernel
        exact key y hy
      · exact List.mem_cons_of_mem _ (hstd x hx y hy)) a 11 (by simp) hab
    by_cases ha0 : a = 0
    · subst ha0; exact .inl k0
    · refine .inr ?_
      simp only [List.mem_cons, List.not_mem_nil, or_false] at this ⊢
      omega

end Verif.CompDomain
