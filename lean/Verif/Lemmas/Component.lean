import Verif.Spec.Component
/-! # Lemmas about component trees -/
namespace Verif.Component

structure Inv (s : State) : Prop where
  pos : 0 < s.next
  root : (s.comp 0).parent = none
  par : ∀ c, 0 < c → c < s.next → ∃ p, p < c ∧ (s.comp c).parent = some p
  leaf : ∀ c, 0 < c → c < s.next → (s.comp c).leaf ≠ []
  full : ∀ c p, 0 < c → c < s.next → (s.comp c).parent = some p →
    (s.comp c).full = if p = 0 then (s.comp c).leaf else (s.comp p).full ++ '.' :: (s.comp c).leaf
  kids : ∀ p, p < s.next → (s.comp p).children =
    ((List.range s.next).filter (fun d => (s.comp d).parent == some p)).map (fun d => ((s.comp d).leaf, d))
  distinct : ∀ c d p, ChildOf s c p → ChildOf s d p → (s.comp c).leaf = (s.comp d).leaf → c = d

theorem Inv.full_ne {s : State} (h : Inv s) {c : Nat} (h0 : 0 < c) (hc : c < s.next) : (s.comp c).full ≠ [] := by
  obtain ⟨p, _, hp⟩ := h.par c h0 hc
  rw [h.full c p h0 hc hp]
  split
  · exact h.leaf c h0 hc
  · simp

theorem Inv.getFull {s : State} (h : Inv s) {c : Nat} (h0 : 0 < c) (hc : c < s.next) :
    getFullName s c = (s.comp c).full := by
  rw [getFullName, if_neg (h.full_ne h0 hc)]

theorem inv_init : Inv init := by
  refine ⟨by decide, rfl, ?_, ?_, ?_, ?_, ?_⟩
  · intro c h0 hc; have hc : c < 1 := hc; omega
  · intro c h0 hc; have hc : c < 1 := hc; omega
  · intro c p h0 hc; have hc : c < 1 := hc; omega
  · intro p hp
    have hp : p < 1 := hp
    obtain rfl : p = 0 := by omega
    rfl
  · intro c d p hc hd; cases hc.2

@[simp] theorem upd_self (s : State) (c : Nat) (x : Comp) : (upd s c x).comp c = x := by simp [upd]
theorem upd_ne (s : State) (x : Comp) {c d : Nat} (h : d ≠ c) : (upd s c x).comp d = s.comp d := by simp [upd, h]
@[simp] theorem upd_next (s : State) (c : Nat) (x : Comp) : (upd s c x).next = s.next := rfl
theorem upd_id (s : State) (c : Nat) : upd s c (s.comp c) = s := by
  have : (fun d => if d = c then s.comp c else s.comp d) = s.comp := by
    funext d
    by_cases h : d = c
    · subst h; simp
    · simp [h]
  simp only [upd, this]

/-- Setting the full names again changes nothing below the root. -/
theorem setFull_id {s : State} (h : Inv s) : ∀ (n c : Nat), 0 < c → c < s.next → setFullName n c s = s := by
  intro n
  induction n with
  | zero => intro c _ _; rfl
  | succ n ih =>
    intro c h0 hc
    obtain ⟨p, hpc, hp⟩ := h.par c h0 hc
    have hf : fullOf s c = (s.comp c).full := by
      rw [h.full c p h0 hc hp]
      simp only [fullOf, hp]
      by_cases e : p = 0
      · simp [e]
      · rw [if_neg e, if_neg e, h.getFull (by omega) (by omega)]
    have hu : upd s c { s.comp c with full := fullOf s c } = s := by
      rw [hf]; exact upd_id s c
    simp only [setFullName, hu]
    have hk : ∀ x ∈ (s.comp c).children, 0 < x.2 ∧ x.2 < s.next := by
      intro x hx
      rw [h.kids c hc, List.mem_map] at hx
      obtain ⟨d, hd, rfl⟩ := hx
      rw [List.mem_filter, List.mem_range] at hd
      refine ⟨?_, hd.1⟩
      rcases Nat.eq_zero_or_pos d with rfl | h
      · have := hd.2; simp [h.root] at this
      · exact h
    generalize (s.comp c).children = l at hk
    induction l with
    | nil => rfl
    | cons x l ihl =>
      rw [List.foldl_cons, ih x.2 (hk x List.mem_cons_self).1 (hk x List.mem_cons_self).2]
      exact ihl (fun y hy => hk y (List.mem_cons_of_mem _ hy))

/-- A root with another name. -/
theorem inv_root {s : State} (h : Inv s) (lf fl : Name) : Inv (upd s 0 { s.comp 0 with leaf := lf, full := fl }) := by
  generalize hs' : upd s 0 { s.comp 0 with leaf := lf, full := fl } = s'
  have hn : s'.next = s.next := by rw [← hs']; rfl
  have h0 : ∀ c, 0 < c → s'.comp c = s.comp c := fun c hc => by rw [← hs']; exact upd_ne _ _ (by omega)
  have hpar : ∀ c, (s'.comp c).parent = (s.comp c).parent := by
    intro c
    rcases Nat.eq_zero_or_pos c with rfl | hc
    · rw [← hs']; simp
    · rw [h0 c hc]
  have hch : ∀ c, (s'.comp c).children = (s.comp c).children := by
    intro c
    rcases Nat.eq_zero_or_pos c with rfl | hc
    · rw [← hs']; simp
    · rw [h0 c hc]
  have hpos : ∀ c p, ChildOf s' c p → 0 < c := by
    intro c p hc
    rcases Nat.eq_zero_or_pos c with rfl | hc'
    · have := hc.2; rw [hpar, h.root] at this; cases this
    · exact hc'
  refine ⟨by rw [hn]; exact h.pos, by rw [hpar]; exact h.root, ?_, ?_, ?_, ?_, ?_⟩
  · intro c hc hcn; rw [hpar]; exact h.par c hc (hn ▸ hcn)
  · intro c hc hcn; rw [h0 c hc]; exact h.leaf c hc (hn ▸ hcn)
  · intro c p hc hcn hp
    rw [hpar] at hp
    rw [h0 c hc, h.full c p hc (hn ▸ hcn) hp]
    by_cases e : p = 0
    · simp [e]
    · rw [if_neg e, if_neg e, h0 p (by omega)]
  · intro p hp
    rw [hch, h.kids p (hn ▸ hp), hn]
    have e1 : (List.range s.next).filter (fun d => (s'.comp d).parent == some p) =
        (List.range s.next).filter (fun d => (s.comp d).parent == some p) := by
      apply List.filter_congr; intro d _; rw [hpar]
    rw [e1]
    apply List.map_congr_left
    intro d hd
    rw [List.mem_filter] at hd
    have : 0 < d := by
      rcases Nat.eq_zero_or_pos d with rfl | hd'
      · have := hd.2; simp [h.root] at this
      · exact hd'
    rw [h0 d this]
  · intro c d p hc hd hl
    rw [h0 c (hpos c p hc), h0 d (hpos d p hd)] at hl
    exact h.distinct c d p ⟨hn ▸ hc.1, hpar c ▸ hc.2⟩ ⟨hn ▸ hd.1, hpar d ▸ hd.2⟩ hl

theorem setFull_root {s : State} (h : Inv s) (n : Nat) : setFullName (n + 1) 0 s =
    upd s 0 { s.comp 0 with full := (s.comp 0).leaf } := by
  have hI := inv_root h (s.comp 0).leaf (s.comp 0).leaf
  have hf : fullOf s 0 = (s.comp 0).leaf := by simp only [fullOf, h.root]
  rw [setFullName, hf]
  have e : ({ s.comp 0 with full := (s.comp 0).leaf } : Comp) =
    { s.comp 0 with leaf := (s.comp 0).leaf, full := (s.comp 0).leaf } := rfl
  rw [e]
  generalize upd s 0 { s.comp 0 with leaf := (s.comp 0).leaf, full := (s.comp 0).leaf } = s' at *
  have hk : ∀ x ∈ (s'.comp 0).children, 0 < x.2 ∧ x.2 < s'.next := by
    intro x hx
    rw [hI.kids 0 hI.pos, List.mem_map] at hx
    obtain ⟨d, hd, rfl⟩ := hx
    rw [List.mem_filter, List.mem_range] at hd
    refine ⟨?_, hd.1⟩
    rcases Nat.eq_zero_or_pos d with rfl | h
    · have := hd.2; simp [hI.root] at this
    · exact h
  show List.foldl (fun s x => setFullName n x.2 s) s' (s'.comp 0).children = s'
  generalize (s'.comp 0).children = l at hk
  induction l with
  | nil => rfl
  | cons x l ihl =>
    rw [List.foldl_cons, setFull_id hI n x.2 (hk x List.mem_cons_self).1 (hk x List.mem_cons_self).2]
    exact ihl (fun y hy => hk y (List.mem_cons_of_mem _ hy))

theorem upd_upd (s : State) (c : Nat) (x y : Comp) : upd (upd s c x) c y = upd s c y := by
  simp only [upd]
  congr 1
  funext d
  by_cases h : d = c <;> simp [h]

theorem setName_inv {s : State} (h : Inv s) {c : Nat} (hc : c < s.next) (name : Name) : Inv (setName s c name).1 := by
  unfold setName
  rcases Nat.eq_zero_or_pos c with rfl | h0
  · by_cases hf : (s.comp 0).full ≠ []
    · rw [if_pos hf]; exact h
    · rw [if_neg hf]
      have hI := inv_root h name (s.comp 0).full
      have e := setFull_root hI s.next
      have e1 : (upd s 0 { s.comp 0 with leaf := name, full := (s.comp 0).full }) =
        upd s 0 { s.comp 0 with leaf := name } := rfl
      rw [e1] at e
      show Inv (setFullName (s.next + 1) 0 (upd s 0 { s.comp 0 with leaf := name }))
      rw [e, upd_upd, upd_self]
      exact inv_root h name name
  · rw [if_pos (h.full_ne h0 hc)]; exact h

theorem getChild_iff {s : State} (h : Inv s) {p : Nat} (hp : p < s.next) (name : Name) (d : Nat) :
    getChild s p name = some d ↔ ChildOf s d p ∧ (s.comp d).leaf = name := by
  have key : ∀ (l : List Nat), (∀ c ∈ l, c < s.next) → (∀ c ∈ l, ∀ e ∈ l, (s.comp c).parent = some p →
      (s.comp e).parent = some p → (s.comp c).leaf = (s.comp e).leaf → c = e) →
      (((l.filter (fun d => (s.comp d).parent == some p)).map (fun d => ((s.comp d).leaf, d))).lookup name = some d ↔
        d ∈ l ∧ (s.comp d).parent = some p ∧ (s.comp d).leaf = name) := by
    intro l
    induction l with
    | nil => intro _ _; simp
    | cons c l ih =>
      intro hl hd
      have ih' := ih (fun c hc => hl c (List.mem_cons_of_mem _ hc))
        (fun c hc e he => hd c (List.mem_cons_of_mem _ hc) e (List.mem_cons_of_mem _ he))
      by_cases hc : (s.comp c).parent = some p
      · rw [List.filter_cons_of_pos (by simpa using hc), List.map_cons, List.lookup_cons]
        by_cases e : name = (s.comp c).leaf
        · rw [show (name == (s.comp c).leaf) = true by simpa using e]
          simp only [Option.some.injEq]
          constructor
          · rintro rfl; exact ⟨List.mem_cons_self, hc, e.symm⟩
          · rintro ⟨h1, h2, h3⟩
            exact hd c List.mem_cons_self d h1 hc h2 (by rw [h3, e])
        · rw [show (name == (s.comp c).leaf) = false by simpa using e, ih']
          constructor
          · rintro ⟨h1, h2⟩; exact ⟨List.mem_cons_of_mem _ h1, h2⟩
          · rintro ⟨h1, h2, h3⟩
            rcases List.mem_cons.mp h1 with rfl | h1
            · exact absurd h3.symm e
            · exact ⟨h1, h2, h3⟩
      · rw [List.filter_cons_of_neg (by simpa using hc), ih']
        constructor
        · rintro ⟨h1, h2⟩; exact ⟨List.mem_cons_of_mem _ h1, h2⟩
        · rintro ⟨h1, h2, h3⟩
          rcases List.mem_cons.mp h1 with rfl | h1
          · exact absurd h2 hc
          · exact ⟨h1, h2, h3⟩
  rw [getChild, h.kids p hp, key _ (fun c hc => List.mem_range.mp hc)]
  · rw [List.mem_range]
    exact ⟨fun ⟨a, b, c⟩ => ⟨⟨a, b⟩, c⟩, fun ⟨⟨a, b⟩, c⟩ => ⟨a, b, c⟩⟩
  · intro c hc e he h1 h2 h3
    exact h.distinct c e p ⟨List.mem_range.mp hc, h1⟩ ⟨List.mem_range.mp he, h2⟩ h3

theorem state_ext {s t : State} (h1 : ∀ d, s.comp d = t.comp d) (h2 : s.next = t.next) (h3 : s.built = t.built) : s = t := by
  cases s; cases t
  simp only at h1 h2 h3
  subst h2 h3
  congr 1
  funext d
  exact h1 d

/-- The state after a successful construction. -/
def added (s : State) (p : Nat) (name : Name) : State :=
  { s with
    comp := fun d =>
      if d = s.next then ⟨some p, name, if p = 0 then name else getFullName s p ++ '.' :: name, []⟩
      else if d = p then { s.comp p with children := (s.comp p).children ++ [(name, s.next)] } else s.comp d,
    next := s.next + 1 }

theorem new_eq {s : State} (hb : s.built = false) {name : Name} {parent : Option Nat} {inst : Nat}
    (hp : parent.getD 0 < s.next) {nm : Name} (hn : nm = if name = [] then genName inst else name)
    (hg : getChild s (parent.getD 0) nm = none) :
    new s name parent inst = (added s (parent.getD 0) nm, some s.next) := by
  generalize hpp : parent.getD 0 = p at *
  have hps : p ≠ s.next := by omega
  simp only [new, hb, Bool.false_eq_true, if_false, hpp, ← hn, hg, Option.isSome_none]
  refine Prod.ext ?_ rfl
  simp only [setName, upd_self, ne_eq, not_true, if_false]
  rw [setFullName]
  simp only [upd_self, List.foldl_nil, fullOf]
  refine state_ext (fun d => ?_) rfl rfl
  simp only [added]
  by_cases e : d = p
  · subst e
    rw [upd_self, if_neg hps, if_pos rfl]
    simp only [upd_ne _ _ hps]
  · rw [upd_ne _ _ e]
    by_cases e2 : d = s.next
    · subst e2
      rw [upd_self, if_pos rfl]
      simp only [getFullName, upd_ne _ _ hps]
    · simp only [upd_ne _ _ e2, if_neg e2, if_neg e]

theorem inv_added {s : State} (h : Inv s) {p : Nat} (hp : p < s.next) {name : Name} (hne : name ≠ [])
    (hg : getChild s p name = none) : Inv (added s p name) := by
  generalize hs' : added s p name = s'
  have hn : s'.next = s.next + 1 := by rw [← hs']; rfl
  have hnew : s'.comp s.next = ⟨some p, name, if p = 0 then name else getFullName s p ++ '.' :: name, []⟩ := by
    rw [← hs']; simp [added]
  have hold : ∀ d, d < s.next → (s'.comp d).parent = (s.comp d).parent ∧ (s'.comp d).leaf = (s.comp d).leaf ∧
      (s'.comp d).full = (s.comp d).full := by
    intro d hd
    have : d ≠ s.next := by omega
    rw [← hs']
    simp only [added, if_neg this]
    by_cases e : d = p <;> simp [e]
  have hkid : ∀ d, d < s.next → (s'.comp d).children =
      if d = p then (s.comp p).children ++ [(name, s.next)] else (s.comp d).children := by
    intro d hd
    have : d ≠ s.next := by omega
    rw [← hs']
    simp only [added, if_neg this]
    by_cases e : d = p <;> simp [e]
  have hchild : ∀ d q, ChildOf s' d q → (d < s.next ∧ ChildOf s d q) ∨ (d = s.next ∧ q = p) := by
    intro d q hd
    have hlt : d < s.next + 1 := by rw [← hn]; exact hd.1
    by_cases e : d = s.next
    · subst e
      right
      have := hd.2
      rw [hnew] at this
      exact ⟨rfl, (Option.some.inj this).symm⟩
    · left
      have : d < s.next := by omega
      exact ⟨this, this, (hold d this).1 ▸ hd.2⟩
  refine ⟨by omega, by rw [(hold 0 h.pos).1]; exact h.root, ?_, ?_, ?_, ?_, ?_⟩
  · intro c h0 hc
    by_cases e : c = s.next
    · subst e; exact ⟨p, hp, by rw [hnew]⟩
    · have : c < s.next := by omega
      rw [(hold c this).1]; exact h.par c h0 this
  · intro c h0 hc
    by_cases e : c = s.next
    · subst e; rw [hnew]; exact hne
    · have : c < s.next := by omega
      rw [(hold c this).2.1]; exact h.leaf c h0 this
  · intro c q h0 hc hq
    by_cases e : c = s.next
    · subst e
      rw [hnew] at hq ⊢
      cases Option.some.inj hq
      simp only
      by_cases e : p = 0
      · simp [e]
      · rw [if_neg e, if_neg e, h.getFull (by omega) hp, (hold p hp).2.2]
    · have hcn : c < s.next := by omega
      rw [(hold c hcn).1] at hq
      obtain ⟨p', hp', hpe⟩ := h.par c h0 hcn
      rw [hq] at hpe; cases hpe
      rw [(hold c hcn).2.2, (hold c hcn).2.1, (hold q (by omega)).2.2]
      exact h.full c q h0 hcn hq
  · intro q hq
    have hmap : ∀ l : List Nat, (∀ d ∈ l, d < s.next) →
        (l.filter (fun d => (s'.comp d).parent == some q)).map (fun d => ((s'.comp d).leaf, d)) =
        (l.filter (fun d => (s.comp d).parent == some q)).map (fun d => ((s.comp d).leaf, d)) := by
      intro l hl
      have e1 : l.filter (fun d => (s'.comp d).parent == some q) = l.filter (fun d => (s.comp d).parent == some q) := by
        apply List.filter_congr; intro d hd; rw [(hold d (hl d hd)).1]
      rw [e1]
      apply List.map_congr_left
      intro d hd
      rw [(hold d (hl d (List.mem_filter.mp hd).1)).2.1]
    rw [hn, List.range_succ, List.filter_append, List.map_append, hmap _ (fun d hd => List.mem_range.mp hd)]
    by_cases e : q = s.next
    · subst e
      have e1 : (List.range s.next).filter (fun d => (s.comp d).parent == some s.next) = [] := by
        rw [List.filter_eq_nil_iff]
        intro d hd
        have hd := List.mem_range.mp hd
        rcases Nat.eq_zero_or_pos d with rfl | h0
        · simp [h.root]
        · obtain ⟨p', hp', hpe⟩ := h.par d h0 hd
          rw [hpe]; simp; omega
      have e2 : [s.next].filter (fun d => (s'.comp d).parent == some s.next) = [] := by
        rw [List.filter_eq_nil_iff]
        intro d hd
        obtain rfl := List.mem_singleton.mp hd
        rw [hnew]; simp; omega
      rw [e1, e2, hnew]; rfl
    · have hq : q < s.next := by omega
      rw [hkid q hq]
      by_cases e : q = p
      · subst e
        rw [if_pos rfl, h.kids q hq]
        have e2 : [s.next].filter (fun d => (s'.comp d).parent == some q) = [s.next] := by
          rw [List.filter_cons_of_pos (by rw [hnew]; simp)]; rfl
        rw [e2, List.map_cons, List.map_nil, hnew]
      · rw [if_neg e, h.kids q hq]
        have e2 : [s.next].filter (fun d => (s'.comp d).parent == some q) = [] := by
          rw [List.filter_cons_of_neg (by rw [hnew]; simpa using fun x => e x.symm)]; rfl
        rw [e2, List.map_nil, List.append_nil]
  · intro c d q hc hd hl
    have hno : ∀ e, ChildOf s e p → (s.comp e).leaf ≠ name := by
      intro e he hle
      have := (getChild_iff h hp name e).mpr ⟨he, hle⟩
      rw [hg] at this; cases this
    rcases hchild c q hc with ⟨hcl, hc'⟩ | ⟨rfl, rfl⟩
    · rcases hchild d q hd with ⟨hdl, hd'⟩ | ⟨rfl, rfl⟩
      · rw [(hold c hcl).2.1, (hold d hdl).2.1] at hl
        exact h.distinct c d q hc' hd' hl
      · rw [(hold c hcl).2.1, hnew] at hl
        exact absurd hl (hno c hc')
    · rcases hchild d q hd with ⟨hdl, hd'⟩ | ⟨rfl, _⟩
      · rw [(hold d hdl).2.1, hnew] at hl
        exact absurd hl.symm (hno d hd')
      · rfl

theorem genName_ne (n : Nat) : genName n ≠ [] := by simp [genName]

theorem inv_step {s : State} (h : Inv s) (o : Op) : Inv (step s o).1 := by
  cases o with
  | buildDone => exact ⟨h.pos, h.root, h.par, h.leaf, h.full, h.kids, h.distinct⟩
  | setName c name =>
    simp only [step]
    split
    · exact setName_inv h ‹_› name
    · exact h
  | new name parent inst =>
    simp only [step]
    split
    · rename_i hp
      cases hb : s.built with
      | true => simp only [new, hb, if_true]; exact h
      | false =>
        generalize hn : (if name = [] then genName inst else name) = nm
        have hne : nm ≠ [] := by
          rw [← hn]; split
          · exact genName_ne inst
          · assumption
        cases hg : getChild s (parent.getD 0) nm with
        | some d => simp only [new, hb, Bool.false_eq_true, if_false, hn, hg, Option.isSome_some, if_true]; exact h
        | none => rw [new_eq hb hp hn.symm hg]; exact inv_added h hp hne hg
    · exact h

theorem inv_run (ops : List Op) : Inv (runS step init ops) := by
  have : ∀ s, Inv s → Inv (runS step s ops) := by
    induction ops with
    | nil => intro s h; exact h
    | cons o ops ih => intro s h; rw [runS_cons]; exact ih _ (inv_step h o)
  exact this _ inv_init

/-! ## Names -/

theorem joinDots_snoc (l : List Name) (a : Name) : joinDots (l ++ [a]) = if l = [] then a else joinDots l ++ '.' :: a := by
  induction l with
  | nil => rfl
  | cons b l ih =>
    cases l with
    | nil => rfl
    | cons c l =>
      simp only [List.cons_append, joinDots, reduceCtorEq, if_false] at ih ⊢
      rw [ih, List.append_assoc, List.cons_append]

theorem joinDots_ne {l : List Name} (h : ∀ a ∈ l, a ≠ []) (hl : l ≠ []) : joinDots l ≠ [] := by
  cases l with
  | nil => exact absurd rfl hl
  | cons a l =>
    cases l with
    | nil => exact h a List.mem_cons_self
    | cons b l => simp [joinDots]

theorem path_full {s : State} (h : Inv s) {c : Nat} {l : List Name} (hp : Path s c l) :
    (0 < c → getFullName s c = joinDots l ∧ l ≠ []) ∧ (c = 0 → l = []) := by
  induction hp with
  | root => exact ⟨fun h => absurd h (Nat.lt_irrefl 0), fun _ => rfl⟩
  | @step c p l hc hpp ih =>
    have h0 : 0 < c := by
      rcases Nat.eq_zero_or_pos c with rfl | h0
      · have := hc.2; rw [h.root] at this; cases this
      · exact h0
    refine ⟨fun _ => ⟨?_, by simp⟩, fun e => by omega⟩
    rw [h.getFull h0 hc.1, h.full c p h0 hc.1 hc.2, joinDots_snoc]
    rcases Nat.eq_zero_or_pos p with rfl | hp0
    · rw [if_pos rfl, ih.2 rfl, if_pos rfl]
    · obtain ⟨q, hq, hqe⟩ := h.par c h0 hc.1
      rw [hc.2] at hqe; cases hqe
      have hlt : p < s.next := Nat.lt_trans hq hc.1
      rw [if_neg (by omega), if_neg (ih.1 hp0).2, ← (ih.1 hp0).1, h.getFull hp0 hlt]

theorem path_exists {s : State} (h : Inv s) : ∀ c, c < s.next → ∃ l, Path s c l := by
  intro c
  induction c using Nat.strongRecOn with
  | _ c ih =>
    intro hc
    rcases Nat.eq_zero_or_pos c with rfl | h0
    · exact ⟨[], .root⟩
    · obtain ⟨p, hp, hpe⟩ := h.par c h0 hc
      obtain ⟨l, hl⟩ := ih p hp (by omega)
      exact ⟨_, .step ⟨hc, hpe⟩ hl⟩

theorem path_mem {s : State} (h : Inv s) {c : Nat} {l : List Name} (hp : Path s c l) :
    ∀ a ∈ l, ∃ d, 0 < d ∧ d < s.next ∧ (s.comp d).leaf = a := by
  induction hp with
  | root => intro a ha; cases ha
  | @step c p l hc hpp ih =>
    intro a ha
    rcases List.mem_append.mp ha with ha | ha
    · exact ih a ha
    · obtain rfl := List.mem_singleton.mp ha
      refine ⟨c, ?_, hc.1, rfl⟩
      rcases Nat.eq_zero_or_pos c with rfl | h0
      · have := hc.2; rw [h.root] at this; cases this
      · exact h0

theorem down_snoc {s : State} {c d e : Nat} {l : List Name} (h : Down s c l d) (hc : ChildOf s e d) :
    Down s c (l ++ [(s.comp e).leaf]) e := by
  induction h with
  | here => exact .step hc rfl .here
  | step h1 h2 _ ih => exact .step h1 h2 (ih hc)

theorem path_down {s : State} {c : Nat} {l : List Name} (hp : Path s c l) : Down s 0 l c := by
  induction hp with
  | root => exact .here
  | step hc _ ih => exact down_snoc ih hc

theorem down_unique {s : State} (h : Inv s) {c d e : Nat} {l : List Name} (h1 : Down s c l d) (h2 : Down s c l e) :
    d = e := by
  induction h1 generalizing e with
  | here => cases h2; rfl
  | @step c d e' a l hc hl _ ih =>
    generalize hw : a :: l = w at h2
    cases h2 with
    | here => cases hw
    | @step _ d2 _ a2 l2 hc2 hl2 hd2 =>
      cases hw
      have := h.distinct d d2 c hc hc2 (by rw [hl, hl2])
      subst this
      exact ih hd2

theorem extract_last {a : Name} (h : '.' ∉ a) (hne : a ≠ []) : extractName a = (a, []) := by
  unfold extractName
  have hf : a.findIdx (· == '.') = a.length := by
    rw [List.findIdx_eq_length]
    intro x hx
    have : x ≠ '.' := fun e => h (e ▸ hx)
    simpa using this
  have : 0 < a.length := List.length_pos_iff.mpr hne
  rw [hf, if_pos (by omega)]

theorem findIdx_dot {a b : Name} (h : '.' ∉ a) : (a ++ '.' :: b).findIdx (· == '.') = a.length := by
  induction a with
  | nil => simp [List.findIdx_cons]
  | cons x a ih =>
    rw [List.mem_cons, not_or] at h
    rw [List.cons_append, List.findIdx_cons, ih h.2]
    have : (x == '.') = false := by simpa using fun e : x = '.' => h.1 e.symm
    rw [this]; rfl

theorem extract_dot {a b : Name} (h : '.' ∉ a) (hb : b ≠ []) : extractName (a ++ '.' :: b) = (a, b) := by
  unfold extractName
  have hl : 0 < b.length := List.length_pos_iff.mpr hb
  rw [findIdx_dot h]
  simp only [List.length_append, List.length_cons]
  rw [if_neg (by omega)]
  have : min a.length (a.length + (b.length + 1) - 1) = a.length := by omega
  rw [this, List.take_left]
  simp [List.drop_append]

/-- A path that can be written down: at least one name, no empty names, no dots. -/
def Plain (l : List Name) : Prop := l ≠ [] ∧ ∀ a ∈ l, a ≠ [] ∧ '.' ∉ a

theorem lookup_iff {s : State} (h : Inv s) : ∀ (n : Nat) (l : List Name) (c d : Nat), l.length ≤ n → Plain l → c < s.next →
    (lookup s n c (joinDots l) = some d ↔ Down s c l d) := by
  intro n
  induction n with
  | zero =>
    intro l c d hn hp _
    obtain ⟨a, l⟩ := l
    · exact absurd rfl hp.1
    · simp at hn
  | succ n ih =>
    intro l c d hn hp hc
    cases l with
    | nil => exact absurd rfl hp.1
    | cons a l =>
      obtain ⟨hane, hadot⟩ := hp.2 a List.mem_cons_self
      have hx : extractName (joinDots (a :: l)) = (a, joinDots l) := by
        cases l with
        | nil => exact extract_last hadot hane
        | cons b l =>
          exact extract_dot hadot (joinDots_ne (fun x hx => (hp.2 x (List.mem_cons_of_mem _ hx)).1) (by simp))
      rw [lookup, hx]
      simp only [if_neg hane]
      cases hg : getChild s c a with
      | none =>
        simp only
        constructor
        · intro e; cases e
        · intro hd
          generalize hw : a :: l = w at hd
          cases hd with
          | here => cases hw
          | step h1 h2 _ =>
            cases hw
            have := (getChild_iff h hc a _).mpr ⟨h1, h2⟩
            rw [hg] at this; cases this
      | some e =>
        obtain ⟨hce, hle⟩ := (getChild_iff h hc a e).mp hg
        have hstep : Down s c (a :: l) d ↔ Down s e l d := by
          constructor
          · intro hd
            generalize hw : a :: l = w at hd
            cases hd with
            | here => cases hw
            | step h1 h2 h3 =>
              cases hw
              have := h.distinct _ _ c h1 hce (by rw [h2, hle])
              subst this; exact h3
          · intro hd; exact .step hce hle hd
        rw [hstep]
        cases l with
        | nil =>
          simp only [joinDots, ne_eq, not_true, if_false, Option.some.injEq]
          constructor
          · rintro rfl; exact .here
          · intro hd
            generalize hw : ([] : List Name) = w at hd
            cases hd with
            | here => rfl
            | step => cases hw
        | cons b l =>
          have hpl : Plain (b :: l) := ⟨by simp, fun x hx => hp.2 x (List.mem_cons_of_mem _ hx)⟩
          have hne : joinDots (b :: l) ≠ [] := joinDots_ne (fun x hx => (hpl.2 x hx).1) (by simp)
          simp only [ne_eq, hne, not_false_eq_true, if_true]
          exact ih (b :: l) e d (by simp at hn ⊢; omega) hpl hce.1

theorem lookup_abs (s : State) (n c : Nat) (b : Name) (hb : b ≠ []) (hx : (extractName b).1 ≠ []) :
    lookup s (n + 1) c ('.' :: b) = lookup s (n + 1) 0 b := by
  have e : extractName ('.' :: b) = ([], b) := extract_dot (a := []) (by simp) hb
  simp only [lookup, e, if_true, if_neg hx]

theorem extract_first {a : Name} {l : List Name} (hp : Plain (a :: l)) : (extractName (joinDots (a :: l))).1 = a := by
  obtain ⟨hane, hadot⟩ := hp.2 a List.mem_cons_self
  cases l with
  | nil => rw [joinDots, extract_last hadot hane]
  | cons b l =>
    rw [joinDots, extract_dot hadot (joinDots_ne (fun x hx => (hp.2 x (List.mem_cons_of_mem _ hx)).1) (by simp))]

theorem joinDots_inj : ∀ {l m : List Name}, Plain l → Plain m → joinDots l = joinDots m → l = m := by
  intro l
  induction l with
  | nil => intro m hl; exact absurd rfl hl.1
  | cons a l ih =>
    intro m hl hm he
    cases m with
    | nil => exact absurd rfl hm.1
    | cons b m =>
      have e1 := extract_first hl
      have e2 := extract_first hm
      rw [he] at e1
      have hab : a = b := by rw [← e1, e2]
      subst hab
      obtain ⟨hane, hadot⟩ := hl.2 a List.mem_cons_self
      cases l with
      | nil =>
        cases m with
        | nil => rfl
        | cons c m =>
          simp only [joinDots] at he
          exact absurd (congrArg List.length he) (by simp)
      | cons c l =>
        cases m with
        | nil =>
          simp only [joinDots] at he
          exact absurd (congrArg List.length he) (by simp)
        | cons d m =>
          simp only [joinDots] at he
          have := List.append_cancel_left he
          rw [List.cons.injEq] at this
          rw [ih ⟨by simp, fun x hx => hl.2 x (List.mem_cons_of_mem _ hx)⟩
            ⟨by simp, fun x hx => hm.2 x (List.mem_cons_of_mem _ hx)⟩ this.2]

theorem count_join {l : List Name} (h : ∀ a ∈ l, '.' ∉ a) (hl : l ≠ []) : 1 + (joinDots l).count '.' = l.length := by
  induction l with
  | nil => exact absurd rfl hl
  | cons a l ih =>
    have ha : a.count '.' = 0 := List.count_eq_zero.mpr (h a List.mem_cons_self)
    cases l with
    | nil => simp [joinDots, ha]
    | cons b l =>
      have := ih (fun x hx => h x (List.mem_cons_of_mem _ hx)) (by simp)
      simp only [joinDots, List.count_append, List.count_cons, ha]
      simp only [List.length_cons] at this ⊢
      simp only [beq_self_eq_true, if_true]
      omega

end Verif.Component
