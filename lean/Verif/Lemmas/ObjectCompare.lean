import Verif.Lemmas.Object
/-! # Lemmas: comparing objects -/
namespace Verif.Object

variable {C : Nat → Cls} {K : Knobs} {h : Nat → Obj}

def keys (s : CState) : List Nat := s.map.map Prod.fst

theorem lookup_none {α : Type} {l : List (Nat × α)} {r : Nat} (hn : r ∉ l.map Prod.fst) : l.lookup r = none := by
  induction l with
  | nil => rfl
  | cons a l ih =>
    simp only [List.map_cons, List.mem_cons, not_or] at hn
    rw [List.lookup_cons]
    have : (r == a.1) = false := by simpa using hn.1
    simp only [this]
    exact ih hn.2

theorem equal_fields {l r : Nat} (ht : K.checkType = true → (C (h l).cls).ty = (C (h r).cls).ty)
    (hf : ∀ f ∈ cmpList C (h l).cls, ∃ v w, (h l).vals f = some v ∧ (h r).vals f = some w ∧ Equal C K h v w) :
    Equal C K h (.obj l) (.obj r) := by
  refine .obj l r (fun f => ((h l).vals f).getD .none) (fun f => ((h r).vals f).getD .none) ht ?_ ?_ ?_ <;>
    · intro f hm
      obtain ⟨v, w, e1, e2, e3⟩ := hf f hm
      simp only [e1, e2, Option.getD_some]
      try exact e3

theorem fields_equal {l r : Nat} (hk : ∀ f ∈ cmpList C (h l).cls, ∃ v, (h l).vals f = some v)
    (he : Equal C K h (.obj l) (.obj r)) :
    (K.checkType = true → (C (h l).cls).ty = (C (h r).cls).ty) ∧
    ∀ f ∈ cmpList C (h l).cls, ∃ v w, (h l).vals f = some v ∧ (h r).vals f = some w ∧ Equal C K h v w := by
  generalize hv : Val.obj l = a at he
  generalize hw : Val.obj r = b at he
  cases he with
  | same v =>
    subst hv
    simp only [Val.obj.injEq] at hw
    subst hw
    refine ⟨fun _ => rfl, fun f hf => ?_⟩
    obtain ⟨v, hv⟩ := hk f hf
    exact ⟨v, v, hv, hv, .same v⟩
  | obj l' r' g g' ht hg hg' hd =>
    simp only [Val.obj.injEq] at hv hw
    subst hv hw
    exact ⟨ht, fun f hf => ⟨g f, g' f, hg f hf, hg' f hf, hd f hf⟩⟩

/-- Ancestors form a chain. -/
theorem chain {L : Nat → List Nat} {r c1 c2 x : Nat} (hU : Unshared L h r) (h1 : Reach L h r c1) (h2 : Reach L h r c2)
    (k1 : Reach L h c1 x) (k2 : Reach L h c2 x) : Reach L h c1 c2 ∨ Reach L h c2 c1 := by
  induction k1 with
  | refl => exact .inr k2
  | @step o f p ho hf hv ih =>
    generalize hp : p = p' at k2
    cases k2 with
    | refl => subst hp; exact .inl (.step ho hf hv)
    | @step o' f' p' ho' hf' hv' =>
      subst hp
      have := hU o o' f f' p (h1.trans ho) (h2.trans ho') hf hf' hv hv'
      rw [← this.1] at ho'
      exact ih ho'

theorem no_back {L : Nat → List Nat} {r c1 c2 f1 f2 N : Nat} {rank : Nat → Nat} (hU : Unshared L h r)
    (hA : Acyclic L h N r rank) (hf1 : f1 ∈ L (h r).cls) (hf2 : f2 ∈ L (h r).cls) (hne : f1 ≠ f2)
    (h1 : (h r).vals f1 = some (.obj c1)) (h2 : (h r).vals f2 = some (.obj c2)) : ¬ Reach L h c1 c2 := by
  intro hr
  generalize hc : c2 = c at hr
  cases hr with
  | refl =>
    subst hc
    exact hne (hU r r f1 f2 c2 .refl .refl hf1 hf2 h1 h2).2
  | @step o f p ho hf hv =>
    subst hc
    have hro : Reach L h r o := (Reach.child hf1 h1).trans ho
    have := (hU o r f f2 c2 hro .refl hf hf2 hv h2).1
    subst this
    have k1 := (hA.sub (.child hf1 h1)).rank_le ho
    have k2 := hA.down o .refl f1 hf1 c1 h1
    omega

theorem disjoint {L : Nat → List Nat} {r c1 c2 f1 f2 N x : Nat} {rank : Nat → Nat} (hU : Unshared L h r)
    (hA : Acyclic L h N r rank) (hf1 : f1 ∈ L (h r).cls) (hf2 : f2 ∈ L (h r).cls) (hne : f1 ≠ f2)
    (h1 : (h r).vals f1 = some (.obj c1)) (h2 : (h r).vals f2 = some (.obj c2)) (k1 : Reach L h c1 x) :
    ¬ Reach L h c2 x := by
  intro k2
  rcases chain hU (.child hf1 h1) (.child hf2 h2) k1 k2 with e | e
  · exact no_back hU hA hf1 hf2 hne h1 h2 e
  · exact no_back hU hA hf2 hf1 (Ne.symm hne) h2 h1 e

theorem Unshared.sub {L : Nat → List Nat} {a b : Nat} (hU : Unshared L h a) (hr : Reach L h a b) : Unshared L h b :=
  fun o o' f f' p ho ho' => hU o o' f f' p (hr.trans ho) (hr.trans ho')

theorem Pair.trans {l0 r0 l1 r1 l2 r2 : Nat} (h1 : Pair C h l0 r0 l1 r1) (h2 : Pair C h l1 r1 l2 r2) :
    Pair C h l0 r0 l2 r2 := by
  induction h2 with
  | refl => exact h1
  | step _ hf hl hr hne ih => exact .step ih hf hl hr hne

theorem Alike.sub {l0 r0 l1 r1 : Nat} (hA : Alike C h l0 r0) (hp : Pair C h l0 r0 l1 r1) : Alike C h l1 r1 :=
  ⟨fun l r k => hA.fields l r (hp.trans k), fun l r k => hA.once l r (hp.trans k), fun l r k => hA.kinds l r (hp.trans k)⟩

/-- What a comparison of `l` and `r`, entered below the top, does. -/
structure CPost (C : Nat → Cls) (K : Knobs) (h : Nat → Obj) (l r : Nat) (s : CState) (x : CState × Option Bool) : Prop where
  ok : x.2 ≠ none
  keys : ∀ k ∈ keys x.1, k ∈ keys s ∨ Reach (cmpList C) h r k
  zero : x.1.result = 0 ↔ s.result = 0 ∧ Equal C K h (.obj l) (.obj r)
  depth : x.1.depth = s.depth

def cmpNames (fs : List (Nat × Nat)) : List Nat := (fs.filter (fun p => compares p.2)).map Prod.fst

theorem cmpNames_cons (f m : Nat) (fs : List (Nat × Nat)) :
    cmpNames ((f, m) :: fs) = if compares m = true then f :: cmpNames fs else cmpNames fs := by
  unfold cmpNames; by_cases h : compares m = true <;> simp [h]

theorem cmpFields_post {rec : Nat → Nat → CState → CState × Option Bool} {l r N : Nat} {rank : Nat → Nat}
    (hA : Acyclic (cmpList C) h N r rank) (hU : Unshared (cmpList C) h r) (hL : Alike C h l r)
    (hrec : ∀ l' r' s, (∃ f ∈ cmpList C (h r).cls, (h r).vals f = some (.obj r')) → Pair C h l r l' r' → 2 ≤ s.depth →
      (∀ k ∈ keys s, ¬ Reach (cmpList C) h r' k) → CPost C K h l' r' s (rec l' r' s))
    (fs : List (Nat × Nat)) (hsub : ∀ f ∈ cmpNames fs, f ∈ cmpList C (h l).cls) (hnd : (cmpNames fs).Nodup)
    (s : CState) (hd : 1 ≤ s.depth)
    (hkeys : ∀ k ∈ keys s, ∀ f ∈ cmpNames fs, ∀ p, (h r).vals f = some (.obj p) → ¬ Reach (cmpList C) h p k) :
    let x := cmpFields K h rec l r fs s
    x.2 = true ∧ (∀ k ∈ keys x.1, k ∈ keys s ∨ Reach (cmpList C) h r k) ∧ x.1.depth = s.depth ∧
    (x.1.result = 0 ↔ s.result = 0 ∧
      ∀ f ∈ cmpNames fs, ∃ v w, (h l).vals f = some v ∧ (h r).vals f = some w ∧ Equal C K h v w) := by
  induction fs generalizing s with
  | nil => exact ⟨rfl, fun k hk => .inl hk, rfl, by simp [cmpFields, cmpNames]⟩
  | cons fm fs ih =>
    obtain ⟨f, m⟩ := fm
    intro x
    have hx : x = cmpFields K h rec l r ((f, m) :: fs) s := rfl
    rw [cmpNames_cons] at hsub hnd hkeys ⊢
    by_cases hm : compares m = true
    · rw [if_pos hm] at hsub hnd hkeys ⊢
      rw [List.nodup_cons] at hnd
      have hf : f ∈ cmpList C (h l).cls := hsub f List.mem_cons_self
      have hfr : f ∈ cmpList C (h r).cls := by rw [← hL.fields l r .refl]; exact hf
      have hsub' : ∀ g ∈ cmpNames fs, g ∈ cmpList C (h l).cls := fun g hg => hsub g (List.mem_cons_of_mem _ hg)
      obtain ⟨v, w, hv, hw, hkind⟩ := hL.kinds l r .refl f hf
      simp only [cmpFields, hm, if_true, hv, hw] at hx
      have hkeys' : ∀ k ∈ keys s, ∀ g ∈ cmpNames fs, ∀ p, (h r).vals g = some (.obj p) → ¬ Reach (cmpList C) h p k :=
        fun k hk g hg => hkeys k hk g (List.mem_cons_of_mem _ hg)
      -- what follows the comparison of this field
      have go : ∀ s1 : CState, s1.depth = s.depth →
          (s1.result = 0 ↔ s.result = 0 ∧ Equal C K h v w) →
          (∀ k ∈ keys s1, k ∈ keys s ∨ ∃ p, w = .obj p ∧ Reach (cmpList C) h p k) →
          let y := cmpFields K h rec l r fs s1
          y.2 = true ∧ (∀ k ∈ keys y.1, k ∈ keys s ∨ Reach (cmpList C) h r k) ∧ y.1.depth = s.depth ∧
          (y.1.result = 0 ↔ s.result = 0 ∧
            ∀ f' ∈ f :: cmpNames fs, ∃ v w, (h l).vals f' = some v ∧ (h r).vals f' = some w ∧ Equal C K h v w) := by
        intro s1 hd1 hz hk y
        have hI := ih hsub' hnd.2 s1 (by omega) (by
          intro k hk1 g hg q hq
          rcases hk k hk1 with e | ⟨p, e, hr⟩
          · exact hkeys' k e g hg q hq
          · subst e
            have hgr : g ∈ cmpList C (h r).cls := by rw [← hL.fields l r .refl]; exact hsub' g hg
            exact disjoint hU hA hfr hgr (fun e => hnd.1 (e ▸ hg)) hw hq hr)
        obtain ⟨i1, i2, i3, i4⟩ := hI
        refine ⟨i1, ?_, i3.trans hd1, ?_⟩
        · intro k hk1
          rcases i2 k hk1 with e | e
          · rcases hk k e with e' | ⟨p, e', hr⟩
            · exact .inl e'
            · subst e'; exact .inr ((Reach.child hfr hw).trans hr)
          · exact .inr e
        · refine i4.trans ?_
          constructor
          · rintro ⟨a, b⟩
            refine ⟨(hz.mp a).1, fun f' hf' => ?_⟩
            rcases List.mem_cons.mp hf' with e | e
            · subst e; exact ⟨v, w, hv, hw, (hz.mp a).2⟩
            · exact b f' e
          · rintro ⟨a, b⟩
            refine ⟨hz.mpr ⟨a, ?_⟩, fun f' hf' => b f' (List.mem_cons_of_mem _ hf')⟩
            obtain ⟨v', w', e1, e2, e3⟩ := b f List.mem_cons_self
            rw [hv] at e1; rw [hw] at e2
            cases e1; cases e2; exact e3
      have go2 : ∀ s1 : CState, s1.depth = s.depth →
          (s1.result = 0 ↔ s.result = 0 ∧ Equal C K h v w) →
          (∀ k ∈ keys s1, k ∈ keys s ∨ ∃ p, w = .obj p ∧ Reach (cmpList C) h p k) →
          let y := if s1.result ≠ 0 ∧ K.showMax ≤ s1.result then (s1, true) else cmpFields K h rec l r fs s1
          y.2 = true ∧ (∀ k ∈ keys y.1, k ∈ keys s ∨ Reach (cmpList C) h r k) ∧ y.1.depth = s.depth ∧
          (y.1.result = 0 ↔ s.result = 0 ∧
            ∀ f' ∈ f :: cmpNames fs, ∃ v w, (h l).vals f' = some v ∧ (h r).vals f' = some w ∧ Equal C K h v w) := by
        intro s1 hd1 hz hk
        by_cases hc : s1.result ≠ 0 ∧ K.showMax ≤ s1.result
        · rw [if_pos hc]
          refine ⟨rfl, ?_, hd1, ?_⟩
          · intro k hk1
            rcases hk k hk1 with e' | ⟨p, e', hr⟩
            · exact .inl e'
            · subst e'; exact .inr ((Reach.child hfr hw).trans hr)
          · constructor
            · intro e; exact absurd e hc.1
            · rintro ⟨a, b⟩
              obtain ⟨v', w', e1, e2, e3⟩ := b f List.mem_cons_self
              rw [hv] at e1; rw [hw] at e2
              cases e1; cases e2
              exact hz.mpr ⟨a, e3⟩
        · rw [if_neg hc]; exact go s1 hd1 hz hk
      by_cases hvw : w = v
      · rw [if_pos hvw] at hx
        rw [hx]
        exact go s rfl ⟨fun e => ⟨e, by rw [hvw]; exact .same v⟩, fun e => e.1⟩ (fun k hk => .inl hk)
      · rw [if_neg hvw] at hx
        cases v with
        | int a =>
          cases w with
          | int b =>
            simp only [if_true] at hx
            rw [hx]
            refine go2 { s with result := s.result + 1 } rfl ?_ (fun k hk => .inl hk)
            constructor
            · intro e; exact absurd e (Nat.succ_ne_zero _)
            · rintro ⟨_, e⟩
              cases e
              exact absurd rfl hvw
          | str b => simp [sameKind] at hkind
          | obj b => simp [sameKind] at hkind
          | none => simp [sameKind] at hkind
          | other b => simp [sameKind] at hkind
        | obj lo =>
          cases w with
          | obj ro =>
            simp only at hx
            have hne : lo ≠ ro := fun e => hvw (by rw [e])
            have hpr : Pair C h l r lo ro := .step .refl hf hv hw hne
            have hc := hrec lo ro { s with depth := s.depth + 1 } ⟨f, hfr, hw⟩ hpr
              (by show 2 ≤ s.depth + 1; omega) (fun k hk => hkeys k hk f List.mem_cons_self ro hw)
            generalize rec lo ro { s with depth := s.depth + 1 } = c at hc hx
            obtain ⟨c1, c2⟩ := c
            cases c2 with
            | none => exact absurd rfl hc.ok
            | some b =>
              simp only [if_true] at hx
              rw [hx]
              refine go2 { c1 with depth := c1.depth - 1 } ?_ hc.zero ?_
              · have e : c1.depth = s.depth + 1 := hc.depth
                show c1.depth - 1 = s.depth
                omega
              · intro k hk
                rcases hc.keys k hk with e | e
                · exact .inl e
                · exact .inr ⟨ro, rfl, e⟩
          | int b => simp [sameKind] at hkind
          | str b => simp [sameKind] at hkind
          | none => simp [sameKind] at hkind
          | other b => simp [sameKind] at hkind
        | str a => exact absurd (by simpa [sameKind] using hkind) (Ne.symm hvw)
        | none => exact absurd (by simpa [sameKind] using hkind) (Ne.symm hvw)
        | other a => exact absurd (by simpa [sameKind] using hkind) (Ne.symm hvw)
    · rw [if_neg hm] at hsub hnd hkeys ⊢
      have : x = cmpFields K h rec l r fs s := by
        rw [hx]; simp only [cmpFields, hm]; rfl
      rw [this]
      exact ih hsub hnd s hd hkeys

/-- The part of `compare` after the check of `compare_map`, for any depth. -/
theorem cmpN_body {l r N n : Nat} {rank : Nat → Nat} (hrk : rank r < n + 1)
    (hA : Acyclic (cmpList C) h N r rank) (hU : Unshared (cmpList C) h r) (hL : Alike C h l r)
    (ih : ∀ (l r : Nat) (s : CState), Acyclic (cmpList C) h N r rank → rank r < n → Unshared (cmpList C) h r →
      Alike C h l r → 2 ≤ s.depth → (∀ k ∈ keys s, ¬ Reach (cmpList C) h r k) → CPost C K h l r s (cmpN C K h n l r s))
    (s : CState) (hd : 1 ≤ s.depth) (hk : ∀ k ∈ keys s, ¬ Reach (cmpList C) h r k) :
    let s1 : CState := if K.checkType && (C (h l).cls).ty != (C (h r).cls).ty then { s with result := s.result + 1 } else s
    let s2 : CState := { s1 with map := (r, l) :: s1.map }
    let x := cmpFields K h (cmpN C K h n) l r (C (h l).cls).auto s2
    x.2 = true ∧ (∀ k ∈ keys x.1, k ∈ keys s ∨ Reach (cmpList C) h r k) ∧ x.1.depth = s.depth ∧
    (x.1.result = 0 ↔ s.result = 0 ∧ Equal C K h (.obj l) (.obj r)) := by
  intro s1 s2
  have hs1 : s1.depth = s.depth ∧ s1.map = s.map := by
    show (if K.checkType && (C (h l).cls).ty != (C (h r).cls).ty then { s with result := s.result + 1 } else s).depth = _ ∧
      (if K.checkType && (C (h l).cls).ty != (C (h r).cls).ty then { s with result := s.result + 1 } else s).map = _
    split <;> exact ⟨rfl, rfl⟩
  have hty : s1.result = 0 ↔ s.result = 0 ∧ (K.checkType = true → (C (h l).cls).ty = (C (h r).cls).ty) := by
    show (if K.checkType && (C (h l).cls).ty != (C (h r).cls).ty then { s with result := s.result + 1 } else s).result = 0 ↔ _
    by_cases hc : (K.checkType && (C (h l).cls).ty != (C (h r).cls).ty) = true
    · rw [if_pos hc]
      constructor
      · intro e; exact absurd e (Nat.succ_ne_zero _)
      · rintro ⟨_, e⟩
        simp only [Bool.and_eq_true, bne_iff_ne, ne_eq] at hc
        exact absurd (e hc.1) hc.2
    · rw [if_neg hc]
      simp only [Bool.and_eq_true, bne_iff_ne, ne_eq, not_and, Classical.not_not] at hc
      exact ⟨fun e => ⟨e, hc⟩, fun e => e.1⟩
  have hF := cmpFields_post (K := K) (rec := cmpN C K h n) hA hU hL
    (fun l' r' s hc hp hd hk => by
      obtain ⟨f, hf, hv⟩ := hc
      have := hA.down r .refl f hf r' hv
      exact ih l' r' s (hA.sub (.child hf hv)) (by omega) (hU.sub (.child hf hv)) (hL.sub hp) hd hk)
    (C (h l).cls).auto (fun f hf => hf) (hL.once l r .refl) s2 (by show 1 ≤ s1.depth; omega)
    (by
      intro k hk1 f hf p hv hr
      have hfr : f ∈ cmpList C (h r).cls := by rw [← hL.fields l r .refl]; exact hf
      have hk1 : k ∈ r :: s1.map.map Prod.fst := hk1
      rw [hs1.2] at hk1
      rcases List.mem_cons.mp hk1 with e | e
      · subst e
        have k1 := hA.down k .refl f hfr p hv
        have k2 := (hA.sub (.child hfr hv)).rank_le hr
        omega
      · exact hk k e ((Reach.child hfr hv).trans hr))
  obtain ⟨h1, h2, h3, h4⟩ := hF
  refine ⟨h1, ?_, h3.trans hs1.1, ?_⟩
  · intro k hk1
    rcases h2 k hk1 with e | e
    · have e : k ∈ r :: s1.map.map Prod.fst := e
      rw [hs1.2] at e
      rcases List.mem_cons.mp e with e | e
      · subst e; exact .inr .refl
      · exact .inl e
    · exact .inr e
  · refine h4.trans ?_
    have e : s2.result = s1.result := rfl
    rw [e, hty]
    constructor
    · rintro ⟨⟨a, b⟩, c⟩; exact ⟨a, equal_fields b c⟩
    · rintro ⟨a, b⟩
      have := fields_equal (fun f hf => by obtain ⟨v, _, e, _⟩ := hL.kinds l r .refl f hf; exact ⟨v, e⟩) b
      exact ⟨⟨a, this.1⟩, this.2⟩

theorem cmpN_post {N : Nat} {rank : Nat → Nat} (n : Nat) : ∀ (l r : Nat) (s : CState),
    Acyclic (cmpList C) h N r rank → rank r < n → Unshared (cmpList C) h r → Alike C h l r → 2 ≤ s.depth →
    (∀ k ∈ keys s, ¬ Reach (cmpList C) h r k) → CPost C K h l r s (cmpN C K h n l r s) := by
  induction n with
  | zero => intro l r s _ hr; omega
  | succ n ih =>
    intro l r s hA hrk hU hL hd hk
    have hb := cmpN_body (K := K) hrk hA hU hL ih s (by omega) hk
    have hlook : s.map.lookup r = Option.none := lookup_none (fun e => hk r e .refl)
    have hd0 : ¬ s.depth = 0 := by omega
    simp only [cmpN, if_neg hd0, hlook]
    simp only at hb
    generalize cmpFields K h (cmpN C K h n) l r (C (h l).cls).auto _ = x at *
    obtain ⟨h1, h2, h3, h4⟩ := hb
    rw [if_pos h1]
    have hd1 : ¬ x.1.depth = 1 := by omega
    rw [if_neg hd1]
    exact ⟨by simp, h2, h4, h3⟩

theorem cmpN_top {N : Nat} {rank : Nat → Nat} (n : Nat) (l r : Nat) (s : CState)
    (hA : Acyclic (cmpList C) h N r rank) (hrk : rank r < n) (hU : Unshared (cmpList C) h r) (hL : Alike C h l r)
    (hd : s.depth = 0) :
    ∃ b, (cmpN C K h n l r s).2 = some b ∧ (b = true ↔ Equal C K h (.obj l) (.obj r)) ∧
      (cmpN C K h n l r s).1.depth = 0 := by
  obtain _ | n := n
  · omega
  have hb := cmpN_body (K := K) hrk hA hU hL (cmpN_post n) ⟨0, [], 1⟩ (Nat.le_refl _) (by simp [keys])
  simp only [cmpN, if_pos hd, List.lookup_nil]
  simp only at hb
  generalize cmpFields K h (cmpN C K h n) l r (C (h l).cls).auto _ = x at *
  obtain ⟨h1, h2, h3, h4⟩ := hb
  rw [if_pos h1, if_pos h3]
  refine ⟨x.1.result == 0, rfl, ?_, rfl⟩
  rw [beq_iff_eq, h4]
  simp

end Verif.Object
