import Verif.Lemmas.Component
/-! # C47: component names and lookup -/
namespace Verif.Component

/-- C47. In every tree that can be built, every component other than the root has a path to the root, and its full name
is that path joined with dots. -/
theorem C47_full_name (ops : List Op) (c : Nat) (h0 : 0 < c) (hc : c < (runS step init ops).next) :
    ∃ l, Path (runS step init ops) c l ∧ l ≠ [] ∧ getFullName (runS step init ops) c = joinDots l := by
  obtain ⟨l, hl⟩ := path_exists (inv_run ops) c hc
  have := (path_full (inv_run ops) hl).1 h0
  exact ⟨l, hl, this.2, this.1⟩

/-- C47. Siblings have different names, and no component has an empty name. -/
theorem C47_siblings (ops : List Op) (c d p : Nat) (hc : ChildOf (runS step init ops) c p)
    (hd : ChildOf (runS step init ops) d p) :
    (((runS step init ops).comp c).leaf = ((runS step init ops).comp d).leaf → c = d) ∧
    ((runS step init ops).comp c).leaf ≠ [] := by
  refine ⟨(inv_run ops).distinct c d p hc hd, (inv_run ops).leaf c ?_ hc.1⟩
  rcases Nat.eq_zero_or_pos c with rfl | h
  · have := hc.2; rw [(inv_run ops).root] at this; cases this
  · exact h

/-- C47. The children of a component are the components that have it as parent, in order of creation, each stored under
its name; `get_child` finds a child by its name. -/
theorem C47_children (ops : List Op) (p : Nat) (hp : p < (runS step init ops).next) :
    ((runS step init ops).comp p).children.map Prod.snd =
      (List.range (runS step init ops).next).filter (fun d => ((runS step init ops).comp d).parent == some p) ∧
    ∀ name d, getChild (runS step init ops) p name = some d ↔
      ChildOf (runS step init ops) d p ∧ ((runS step init ops).comp d).leaf = name := by
  refine ⟨?_, getChild_iff (inv_run ops) hp⟩
  rw [(inv_run ops).kids p hp, List.map_map]
  exact List.map_id'' (fun _ => rfl) _

/-- C47. A construction either fails, leaving the tree as it was, or makes one new component with the requested name and
parent and changes no name or parent of another. It fails exactly after the build phase or when the name is taken. -/
theorem C47_new (ops : List Op) (name : Name) (parent : Option Nat) (inst : Nat) (hn : name ≠ [])
    (hp : parent.getD 0 < (runS step init ops).next) :
    (new (runS step init ops) name parent inst = (runS step init ops, none) ∧
      ((runS step init ops).built = true ∨ ∃ d, ChildOf (runS step init ops) d (parent.getD 0) ∧
        ((runS step init ops).comp d).leaf = name)) ∨
    ((runS step init ops).built = false ∧
      (¬ ∃ d, ChildOf (runS step init ops) d (parent.getD 0) ∧ ((runS step init ops).comp d).leaf = name) ∧
      ∃ s', new (runS step init ops) name parent inst = (s', some (runS step init ops).next) ∧
        s'.next = (runS step init ops).next + 1 ∧
        (s'.comp (runS step init ops).next).parent = some (parent.getD 0) ∧
        (s'.comp (runS step init ops).next).leaf = name ∧
        ∀ d, d < (runS step init ops).next → (s'.comp d).parent = ((runS step init ops).comp d).parent ∧
          (s'.comp d).leaf = ((runS step init ops).comp d).leaf ∧ getFullName s' d = getFullName (runS step init ops) d) := by
  have h := inv_run ops
  generalize runS step init ops = s at *
  have hnm : (if name = [] then genName inst else name) = name := if_neg hn
  cases hb : s.built with
  | true => left; exact ⟨by simp only [new, hb, if_true], .inl rfl⟩
  | false =>
    cases hg : getChild s (parent.getD 0) name with
    | some d =>
      left
      refine ⟨by simp only [new, hb, Bool.false_eq_true, if_false, hnm, hg, Option.isSome_some, if_true], .inr ⟨d, ?_⟩⟩
      exact (getChild_iff h hp name d).mp hg
    | none =>
      right
      refine ⟨rfl, ?_, added s (parent.getD 0) name, new_eq hb hp hnm.symm hg, rfl, ?_, ?_, ?_⟩
      · rintro ⟨d, hd⟩
        rw [(getChild_iff h hp name d).mpr hd] at hg; cases hg
      · simp [added]
      · simp [added]
      · intro d hd
        have hne : d ≠ s.next := by omega
        simp only [added, getFullName, if_neg hne]
        by_cases e : d = parent.getD 0 <;> simp [e]

/-- C47. The name of a component never changes. -/
theorem C47_name_fixed (ops : List Op) (c : Nat) (name : Name) (h0 : 0 < c) (hc : c < (runS step init ops).next) :
    setName (runS step init ops) c name = (runS step init ops, false) := by
  rw [setName, if_pos ((inv_run ops).full_ne h0 hc)]

/-- C124, the part that holds: if no name contains a dot, looking up a relative name (names joined with dots) finds
exactly the component reached by following these names. Missing: names with dots (`C124_dot_fails`). -/
theorem C124_relative_partial (ops : List Op) (c d : Nat) (l : List Name)
    (hl : Plain l) (hc : c < (runS step init ops).next) (n : Nat) (hn : l.length ≤ n) :
    lookup (runS step init ops) n c (joinDots l) = some d ↔ Down (runS step init ops) c l d :=
  lookup_iff (inv_run ops) n l c d hn hl hc

theorem path_plain {s : State} (h : Inv s) (hd : DotFree s) {c : Nat} {l : List Name} (hp : Path s c l) :
    ∀ a ∈ l, a ≠ [] ∧ '.' ∉ a := by
  intro a ha
  obtain ⟨d, h0, hdn, rfl⟩ := path_mem h hp a ha
  exact ⟨h.leaf d h0 hdn, hd d hdn⟩

/-- C124, the part that holds: if no name contains a dot, looking up a dot followed by a component's full name finds that
component, from anywhere. -/
theorem C124_absolute_partial (ops : List Op) (hf : DotFree (runS step init ops)) (c d : Nat) (h0 : 0 < d)
    (hd : d < (runS step init ops).next) (n : Nat) (hn : getDepth (runS step init ops) d ≤ n) :
    lookup (runS step init ops) n c ('.' :: getFullName (runS step init ops) d) = some d := by
  have h := inv_run ops
  obtain ⟨l, hl, hne, he⟩ := C47_full_name ops d h0 hd
  generalize runS step init ops = s at *
  have hp : Plain l := ⟨hne, path_plain h hf hl⟩
  have hlen : l.length ≤ n := by
    have hdep : getDepth s d = l.length := by
      rw [getDepth, if_neg (h.full_ne h0 hd), ← h.getFull h0 hd, he]
      exact count_join (fun a ha => (hp.2 a ha).2) hne
    rw [← hdep]; exact hn
  cases l with
  | nil => exact absurd rfl hne
  | cons a l =>
    obtain _ | n := n
    · simp at hlen
    · rw [he, lookup_abs s n c _ (joinDots_ne (fun x hx => (hp.2 x hx).1) hne)
        (by rw [extract_first hp]; exact (hp.2 a List.mem_cons_self).1)]
      exact (lookup_iff h (n + 1) (a :: l) 0 d hlen hp h.pos).mpr (path_down hl)

/-- C124, the part that holds: if no name contains a dot, full names are unique and the depth is the length of the path. -/
theorem C124_unique_partial (ops : List Op) (hf : DotFree (runS step init ops)) (c d : Nat) (hc0 : 0 < c)
    (hc : c < (runS step init ops).next) (hd0 : 0 < d) (hd : d < (runS step init ops).next) :
    (getFullName (runS step init ops) c = getFullName (runS step init ops) d → c = d) ∧
    ∃ l, Path (runS step init ops) c l ∧ getDepth (runS step init ops) c = l.length := by
  have h := inv_run ops
  obtain ⟨l, hl, hne, he⟩ := C47_full_name ops c hc0 hc
  obtain ⟨m, hm, hme, hf'⟩ := C47_full_name ops d hd0 hd
  generalize runS step init ops = s at *
  constructor
  · intro e
    have : l = m := joinDots_inj ⟨hne, path_plain h hf hl⟩ ⟨hme, path_plain h hf hm⟩ (by rw [← he, ← hf', e])
    subst this
    exact down_unique h (path_down hl) (path_down hm)
  · refine ⟨l, hl, ?_⟩
    rw [getDepth, if_neg (h.full_ne hc0 hc), ← h.getFull hc0 hc, he]
    exact count_join (fun a ha => (path_plain h hf hl a ha).2) hne

theorem full_zero {s : State} (h : Inv s) (o : Op) (ho : ∀ name, o ≠ .setName 0 name)
    (h0 : (s.comp 0).full = []) : ((step s o).1.comp 0).full = [] := by
  cases o with
  | buildDone => exact h0
  | setName c name =>
    have hc0 : c ≠ 0 := fun e => ho name (by rw [e])
    simp only [step]
    split
    · next hc => rw [setName, if_pos (h.full_ne (by omega) hc)]; exact h0
    · exact h0
  | new name parent inst =>
    simp only [step]
    split
    · next hp =>
      cases hb : s.built with
      | true => simp only [new, hb, if_true]; exact h0
      | false =>
        cases hg : getChild s (parent.getD 0) (if name = [] then genName inst else name) with
        | some d =>
          have : new s name parent inst = (s, none) := by
            simp only [new, hb, Bool.false_eq_true, if_false, hg, Option.isSome_some, if_true]
          rw [this]; exact h0
        | none =>
          rw [new_eq hb hp rfl hg]
          have := h.pos
          simp only [added]
          rw [if_neg (by omega)]
          split
          · next e => rw [← e]; exact h0
          · exact h0
    · exact h0

/-- C47. The root has depth 0 and an empty full name (as long as the user does not name it). -/
theorem C47_root (ops : List Op) (hops : ∀ name, .setName 0 name ∉ ops) :
    getDepth (runS step init ops) 0 = 0 ∧ ((runS step init ops).comp 0).full = [] := by
  have : ((runS step init ops).comp 0).full = [] := by
    have key : ∀ (l : List Op) (s : State), Inv s → (s.comp 0).full = [] → (∀ name, .setName 0 name ∉ l) →
        ((runS step s l).comp 0).full = [] := by
      intro l
      induction l with
      | nil => intro s _ h _; exact h
      | cons o l ih =>
        intro s hi h hl
        exact ih _ (inv_step hi o) (full_zero hi o (fun name e => hl name (e ▸ List.mem_cons_self)) h)
          (fun name hm => hl name (List.mem_cons_of_mem _ hm))
    exact key ops init inv_init rfl hops
  exact ⟨by rw [getDepth, if_pos this], this⟩

theorem built_step (s : State) (o : Op) (h : s.built = true) :
    (step s o).1.built = true ∧ (step s o).1.next = s.next := by
  have sf : ∀ (n c : Nat) (s : State), (setFullName n c s).built = s.built ∧ (setFullName n c s).next = s.next := by
    intro n
    induction n with
    | zero => intro c s; exact ⟨rfl, rfl⟩
    | succ n ih =>
      intro c s
      simp only [setFullName]
      generalize ((upd s c _).comp c).children = l
      have : ∀ (l : List (Name × Nat)) (t : State),
          (l.foldl (fun s x => setFullName n x.2 s) t).built = t.built ∧
          (l.foldl (fun s x => setFullName n x.2 s) t).next = t.next := by
        intro l
        induction l with
        | nil => intro t; exact ⟨rfl, rfl⟩
        | cons x l ihl => intro t; exact ⟨(ihl _).1.trans (ih _ _).1, (ihl _).2.trans (ih _ _).2⟩
      exact ⟨(this _ _).1, (this _ _).2⟩
  cases o with
  | buildDone => exact ⟨rfl, rfl⟩
  | setName c name =>
    simp only [step]
    split
    · simp only [setName]
      split
      · exact ⟨h, rfl⟩
      · exact ⟨(sf _ _ _).1.trans h, (sf _ _ _).2⟩
    · exact ⟨h, rfl⟩
  | new name parent inst =>
    simp only [step]
    split
    · simp only [new, h, if_true]; exact ⟨trivial, trivial⟩
    · exact ⟨h, rfl⟩

/-- C47. Once the build phase is over no component is ever created. -/
theorem C47_after_build (ops later : List Op) :
    (runS step init (ops ++ .buildDone :: later)).next = (runS step init ops).next := by
  have key : ∀ (l : List Op) (s : State), s.built = true → (runS step s l).next = s.next := by
    intro l
    induction l with
    | nil => intro s _; rfl
    | cons o l ih => intro s h; exact (ih _ (built_step s o h).1).trans (built_step s o h).2
  have : runS step init (ops ++ .buildDone :: later) = runS step { runS step init ops with built := true } later := by
    generalize init = s
    induction ops generalizing s with
    | nil => rfl
    | cons o l ih => exact ih _
  rw [this, key _ _ rfl]

/-- `a` with child `b`, and a top-level component named `a.b`. -/
def dotted : List Op := [.new ['a'] none 0, .new ['b'] (some 1) 0, .new ['a', '.', 'b'] none 0]

/-- C124 fails for names with dots, which are accepted: two components have the same full name, the dotted one cannot be
looked up, and its depth is wrong. -/
theorem C124_dot_fails :
    let s := runS step init dotted
    s.next = 4 ∧ getFullName s 2 = getFullName s 3 ∧ lookup s 10 0 (getFullName s 3) = some 2 ∧
    getDepth s 3 = 2 ∧ ChildOf s 3 0 := by
  refine ⟨by decide, by decide, by decide, by decide, by decide, by decide⟩

/-- C124 fails for names with an empty part: the part after it is looked up from the root. -/
theorem C124_empty_part_fails :
    let s := runS step init [.new ['a'] none 0, .new ['b'] none 0]
    lookup s 10 0 ['a', '.', '.', 'b'] = some 2 ∧ getFullName s 2 = ['b'] := by decide

-- Non-vacuity
example : let s := runS step init [.new ['t'] none 0, .new [] (some 1) 7, .new ['x'] (some 2) 0, .setName 0 ['r'], .new ['t'] none 0]
    s.next = 4 ∧ getFullName s 3 = "t.COMP_7.x".toList ∧ lookup s 5 1 "COMP_7.x".toList = some 3 ∧
    lookup s 5 3 ".t.COMP_7.x".toList = some 3 ∧ getDepth s 3 = 3 := by decide
example : DotFree (runS step init [.new ['t'] none 0, .new [] (some 1) 7]) := by
  intro c hc
  have hc : c < 3 := hc
  obtain rfl | rfl | rfl : c = 0 ∨ c = 1 ∨ c = 2 := by omega
  all_goals decide
example : Plain ["a".toList, "b".toList] := by
  refine ⟨by simp, ?_⟩
  decide

end Verif.Component
