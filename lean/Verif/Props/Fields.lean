import Verif.Spec.Fields
/-! # C76: the registered fields of a class are its own and those of its base classes -/
namespace Verif.Fields

variable {anc : Nat → List Nat} {attrs : Nat → Nat → Bool}

theorem openAfter_snoc (ops : List Op) (o : Op) : openAfter (ops ++ [o]) = (match o with
    | .start c => some c
    | .field _ _ => openAfter ops
    | .finish c => if openAfter ops = some c then none else openAfter ops) := by
  simp only [openAfter, List.foldl_append, List.foldl_cons, List.foldl_nil]
  cases o <;> rfl

theorem declaredFrom_snoc (c : Nat) (o : Op) : ∀ (ops : List Op) (cur : Option Nat),
    declaredFrom attrs c cur (ops ++ [o]) = declaredFrom attrs c cur ops ++
      (match o with
      | .field f m => if (ops.foldl (fun cur o => match o with
          | .start c => some c
          | .field _ _ => cur
          | .finish c => if cur = some c then none else cur) cur) = some c ∧ attrs c f = false then [(f, m)] else []
      | _ => []) := by
  intro ops
  induction ops with
  | nil =>
    intro cur
    cases o with
    | start d => rfl
    | finish d => rfl
    | field f m => exact (List.nil_append _).symm
  | cons x ops ih =>
    intro cur
    cases x with
    | start d => exact ih _
    | finish d => exact ih _
    | field f m =>
      simp only [List.cons_append, declaredFrom, List.foldl_cons]
      by_cases h : cur = some c ∧ attrs c f = false
      · simp only [if_pos h, ih]; rfl
      · simp only [if_neg h]; exact ih _

theorem declared_snoc (ops : List Op) (o : Op) (c : Nat) : declared attrs (ops ++ [o]) c = declared attrs ops c ++
    (match o with
      | .field f m => if openAfter ops = some c ∧ attrs c f = false then [(f, m)] else []
      | _ => []) := declaredFrom_snoc c o ops none

theorem openAfter_started (ops : List Op) (c : Nat) (h : openAfter ops = some c) : Op.start c ∈ ops := by
  have key : ∀ (ops : List Op) (cur : Option Nat), ops.foldl (fun cur o => match o with
          | .start c => some c
          | .field _ _ => cur
          | .finish c => if cur = some c then none else cur) cur = some c → cur = some c ∨ Op.start c ∈ ops := by
    intro ops
    induction ops with
    | nil => intro cur h; exact .inl h
    | cons x ops ih =>
      intro cur h
      rw [List.foldl_cons] at h
      rcases ih _ h with e | e
      · cases x with
        | start d => cases e; exact .inr List.mem_cons_self
        | field f m => exact .inl e
        | finish d =>
          by_cases hd : cur = some d
          · simp [hd] at e
          · exact .inl (by simpa [hd] using e)
      · exact .inr (List.mem_cons_of_mem _ e)
  rcases key ops none h with e | e
  · cases e
  · exact e

/-- The state after a history in which no class registers after a base class. -/
structure Inv (attrs : Nat → Nat → Bool) (ops : List Op) (s : State) : Prop where
  auto : ∀ c, s.auto c = true ↔ Op.start c ∈ ops
  names : ∀ c, s.names c = if Op.start c ∈ ops then some ((declared attrs ops c).map Prod.fst) else none
  masks : ∀ c, s.masks c = if Op.start c ∈ ops then some (declared attrs ops c).reverse else none
  cur : s.cur = openAfter ops

theorem look_own {α : Type} {a : Nat → Option α} {c : Nat} {cs : List Nat} {v : α} (h : a c = some v) :
    look a (c :: cs) = some (c, v) := by simp only [look, h]

theorem look_none {α : Type} {a : Nat → Option α} : ∀ {cs : List Nat}, (∀ c ∈ cs, a c = none) → look a cs = none
  | [], _ => rfl
  | c :: cs, h => by
    simp only [look, h c List.mem_cons_self]
    exact look_none (fun d hd => h d (List.mem_cons_of_mem _ hd))

theorem declared_nil_of (ops : List Op) (c : Nat) (h : Op.start c ∉ ops) : declared attrs ops c = [] := by
  have key : ∀ (ops : List Op) (cur : Option Nat), Op.start c ∉ ops → cur ≠ some c → declaredFrom attrs c cur ops = [] := by
    intro ops
    induction ops with
    | nil => intro cur _ _; rfl
    | cons x ops ih =>
      intro cur h hc
      rw [List.mem_cons, not_or] at h
      cases x with
      | start d => exact ih _ h.2 (fun e => h.1 (by rw [Option.some.inj e]))
      | field f m =>
        rw [declaredFrom, if_neg (fun e => hc e.1)]; exact ih _ h.2 hc
      | finish d =>
        rw [declaredFrom]
        refine ih _ h.2 ?_
        by_cases hd : cur = some d
        · simp [hd]
        · simpa [hd] using hc
  exact key ops none h (by simp)

theorem inv_run (ops : List Op) (hb : BasesLast anc ops) : Inv attrs ops (run anc attrs ops init) := by
  suffices h : ∀ (r : List Op), BasesLast anc r.reverse → Inv attrs r.reverse (run anc attrs r.reverse init) by
    simpa using h ops.reverse (by simpa using hb)
  intro r
  induction r with
  | nil =>
    intro _
    exact ⟨fun c => by simp [run, init], fun c => by simp [run, init], fun c => by simp [run, init], rfl⟩
  | cons o r ih =>
    intro hb
    rw [List.reverse_cons] at hb ⊢
    generalize hops : r.reverse = ops at *
    have hI : Inv attrs ops (run anc attrs ops init) := by
      apply ih
      intro pre c rest e d hd
      exact hb pre c (rest ++ [o]) (by simp [e]) d hd
    have hrun : run anc attrs (ops ++ [o]) init = (step anc attrs (run anc attrs ops init) o).1 := by
      simp [run, List.foldl_append]
    rw [hrun]
    generalize run anc attrs ops init = s at *
    have hmem : ∀ c, (Op.start c ∈ ops ++ [o]) ↔ (Op.start c ∈ ops ∨ Op.start c = o) := by
      intro c; simp
    cases o with
    | start c =>
      have hn := hb ops c [] (by simp)
      have hda : ∀ d, declared attrs (ops ++ [Op.start c]) d = declared attrs ops d := by
        intro d; rw [declared_snoc]; simp
      by_cases hs : Op.start c ∈ ops
      · have e1 : look s.names (c :: anc c) = some (c, (declared attrs ops c).map Prod.fst) :=
          look_own (by rw [hI.names, if_pos hs])
        have e2 : look s.masks (c :: anc c) = some (c, (declared attrs ops c).reverse) :=
          look_own (by rw [hI.masks, if_pos hs])
        have hm : ∀ d, (Op.start d ∈ ops ++ [Op.start c]) ↔ Op.start d ∈ ops := by
          intro d; rw [hmem]
          constructor
          · rintro (h | h)
            · exact h
            · cases h; exact hs
          · exact .inl
        refine ⟨fun d => ?_, fun d => ?_, fun d => ?_, ?_⟩
        · rw [hm, ← hI.auto]
          simp only [step, set]
          by_cases e : d = c
          · subst e; simp [(hI.auto d).mpr hs]
          · simp [e]
        · simp only [step, e1, Option.isNone_some, hm, hda]; exact hI.names d
        · simp only [step, e2, Option.isNone_some, hm, hda]; exact hI.masks d
        · rw [openAfter_snoc]; rfl
      · have n1 : ∀ d ∈ c :: anc c, s.names d = none := by
          intro d hd
          rcases List.mem_cons.mp hd with rfl | hd
          · rw [hI.names, if_neg hs]
          · rw [hI.names, if_neg (hn d hd)]
        have n2 : ∀ d ∈ c :: anc c, s.masks d = none := by
          intro d hd
          rcases List.mem_cons.mp hd with rfl | hd
          · rw [hI.masks, if_neg hs]
          · rw [hI.masks, if_neg (hn d hd)]
        have hm : ∀ d, d ≠ c → ((Op.start d ∈ ops ++ [Op.start c]) ↔ Op.start d ∈ ops) := by
          intro d hd; rw [hmem]
          constructor
          · rintro (h | h)
            · exact h
            · exact absurd (Op.start.inj h) hd
          · exact .inl
        have hc : Op.start c ∈ ops ++ [Op.start c] := by simp
        have hd0 : declared attrs ops c = [] := declared_nil_of ops c hs
        refine ⟨fun d => ?_, fun d => ?_, fun d => ?_, ?_⟩
        · simp only [step, set]
          by_cases e : d = c
          · subst e; simp
          · rw [hm d e, ← hI.auto]; simp [e]
        · simp only [step, look_none n1, Option.isNone_none, if_true, set, hda]
          by_cases e : d = c
          · subst e; rw [if_pos rfl, if_pos hc, hd0]; rfl
          · rw [if_neg e, hI.names]; simp only [hm d e]
        · simp only [step, look_none n2, Option.isNone_none, if_true, set, hda]
          by_cases e : d = c
          · subst e; rw [if_pos rfl, if_pos hc, hd0]; rfl
          · rw [if_neg e, hI.masks]; simp only [hm d e]
        · rw [openAfter_snoc]; rfl
    | finish c =>
      have hda : ∀ d, declared attrs (ops ++ [Op.finish c]) d = declared attrs ops d := by
        intro d; rw [declared_snoc]; simp
      have hm : ∀ d, (Op.start d ∈ ops ++ [Op.finish c]) ↔ Op.start d ∈ ops := by intro d; simp
      by_cases hc : s.cur = some c
      · simp only [step, if_pos hc]
        refine ⟨fun d => by rw [hm]; exact hI.auto d, fun d => by simp only [hm, hda]; exact hI.names d,
          fun d => by simp only [hm, hda]; exact hI.masks d, ?_⟩
        rw [openAfter_snoc, ← hI.cur]; simp [hc]
      · simp only [step, if_neg hc]
        refine ⟨fun d => by rw [hm]; exact hI.auto d, fun d => by simp only [hm, hda]; exact hI.names d,
          fun d => by simp only [hm, hda]; exact hI.masks d, ?_⟩
        rw [openAfter_snoc, ← hI.cur]; simp [hc]
    | field f m =>
      have hm : ∀ d, (Op.start d ∈ ops ++ [Op.field f m]) ↔ Op.start d ∈ ops := by intro d; simp
      have same : (∀ d, declared attrs (ops ++ [Op.field f m]) d = declared attrs ops d) →
          Inv attrs (ops ++ [Op.field f m]) s := by
        intro hda
        refine ⟨fun d => by rw [hm]; exact hI.auto d, fun d => by simp only [hm, hda]; exact hI.names d,
          fun d => by simp only [hm, hda]; exact hI.masks d, ?_⟩
        rw [openAfter_snoc, ← hI.cur]
      cases hcur : s.cur with
      | none =>
        simp only [step, hcur]
        apply same
        intro d
        have : openAfter ops = none := by rw [← hI.cur, hcur]
        rw [declared_snoc]; simp [this]
      | some c =>
        have ho : openAfter ops = some c := by rw [← hI.cur, hcur]
        by_cases ha : attrs c f = true
        · simp only [step, hcur, if_pos ha]
          apply same
          intro d
          rw [declared_snoc]
          have : ¬ (openAfter ops = some d ∧ attrs d f = false) := by
            rintro ⟨e, e'⟩
            rw [ho] at e; cases e; rw [ha] at e'; cases e'
          simp [this]
        · have hs := openAfter_started ops c ho
          have e1 : look s.names (c :: anc c) = some (c, (declared attrs ops c).map Prod.fst) :=
            look_own (by rw [hI.names, if_pos hs])
          have e2 : look s.masks (c :: anc c) = some (c, (declared attrs ops c).reverse) :=
            look_own (by rw [hI.masks, if_pos hs])
          simp only [step, hcur, if_neg ha, e1, e2]
          have hda : ∀ d, declared attrs (ops ++ [Op.field f m]) d = declared attrs ops d ++ if d = c then [(f, m)] else [] := by
            intro d
            rw [declared_snoc]
            by_cases e : d = c
            · subst e
              simp only [if_true]
              rw [if_pos ⟨ho, by simpa using ha⟩]
            · have : ¬ (openAfter ops = some d ∧ attrs d f = false) := by
                rintro ⟨e', _⟩
                rw [ho] at e'; cases e'; exact e rfl
              simp [this, e]
          refine ⟨fun d => by rw [hm]; exact hI.auto d, fun d => ?_, fun d => ?_, ?_⟩
          · simp only [set, hm, hda]
            by_cases e : d = c
            · subst e; simp [hs]
            · simp only [if_neg e, List.append_nil]; exact hI.names d
          · simp only [set, hm, hda]
            by_cases e : d = c
            · subst e; simp [hs]
            · simp only [if_neg e, List.append_nil]; exact hI.masks d
          · rw [openAfter_snoc]; exact ho.symm ▸ hcur ▸ rfl

theorem visit_inv (ops : List Op) (s : State) (hI : Inv attrs ops s) : ∀ l : List Nat,
    visit s l = l.reverse.flatMap (fieldsOf attrs ops) := by
  intro l
  induction l with
  | nil => rfl
  | cons c cs ih =>
    rw [visit, ih, List.reverse_cons, List.flatMap_append, List.flatMap_cons, List.flatMap_nil, List.append_nil]
    congr 1
    by_cases hs : Op.start c ∈ ops
    · have e1 : look s.names (c :: cs) = some (c, (declared attrs ops c).map Prod.fst) :=
        look_own (by rw [hI.names, if_pos hs])
      have e2 : look s.masks (c :: cs) = some (c, (declared attrs ops c).reverse) :=
        look_own (by rw [hI.masks, if_pos hs])
      rw [if_pos ((hI.auto c).mpr hs), e1, e2]
      simp only [fieldsOf, List.map_map]
      rfl
    · rw [if_neg (by rw [hI.auto]; exact hs), fieldsOf, declared_nil_of ops c hs]; rfl

/-- C76, the part that holds: whatever is registered, in whatever order and interleaving, an operation on an object visits
exactly the fields declared for its class and its base classes, base class fields first, each class's in order of
declaration, with the mask declared for it; provided no class starts registering after one of its ancestors did.
Missing: a class deriving from a class that has already registered (`C76_inherit_fails`), the usual order. -/
theorem C76_fields_partial (ops : List Op) (hb : BasesLast anc ops) (c : Nat) :
    visit (run anc attrs ops init) (c :: anc c) = (c :: anc c).reverse.flatMap (fieldsOf attrs ops) :=
  visit_inv ops _ (inv_run ops hb) _

/-- Class 1 derives from class 0. -/
def anc1 (c : Nat) : List Nat := if c = 1 then [0] else []
/-- Class 0 declares field 7, then its subclass 1 declares field 9. -/
def baseFirst : List Op := [.start 0, .field 7 5, .finish 0, .start 1, .field 9 5, .finish 1]

/-- C76 fails when a base class has registered before: the subclass's field is then a field of the base class too, so
copying an object of the base class raises `AttributeError`; and objects of the subclass process every field twice. -/
theorem C76_inherit_fails :
    let s := run anc1 (fun _ _ => false) baseFirst init
    let C : Nat → Object.Cls := fun c => ⟨c, visit s (c :: anc1 c), fun _ => none⟩
    visit s [0] = [(7, 5), (9, 5)] ∧ visit s [1, 0] = [(7, 5), (9, 5), (7, 5), (9, 5)] ∧
    fieldsOf (fun _ _ => false) baseFirst 0 = [(7, 5)] ∧ fieldsOf (fun _ _ => false) baseFirst 1 = [(9, 5)] ∧
    (Object.copyN C 10 1 0 ⟨fun _ => ⟨0, fun f => if f = 7 then some (.int 3) else none⟩, 2, [], 0⟩).2 = false := by decide

/-- C76 fails for a field that also is a class attribute: it cannot be registered. -/
theorem C76_class_attribute_fails (s : State) (c f m : Nat) (h : attrs c f = true) (hc : s.cur = some c) :
    step anc attrs s (.field f m) = (s, false) := by simp only [step, hc, h, if_true]

-- Non-vacuity: subclass first, then the base class; two unrelated classes
example : visit (run anc1 (fun _ _ => false)
    [.start 1, .field 9 5, .field 10 6, .finish 1, .start 0, .field 7 5, .finish 0] init) [1, 0] =
    [(7, 5), (9, 5), (10, 6)] := by decide
example : BasesLast anc1 [.start 1, .field 9 5, .field 10 6, .finish 1, .start 0, .field 7 5, .finish 0] := by
  intro pre c rest e d hd
  have hc : c = 1 := by
    by_cases h : c = 1
    · exact h
    · simp [anc1, h] at hd
  subst hc
  cases pre with
  | nil => simp
  | cons x pre =>
    exfalso
    have : Op.start 1 ∈ [Op.field 9 5, .field 10 6, .finish 1, .start 0, .field 7 5, .finish 0] := by
      have := congrArg List.tail e
      simp only [List.tail_cons, List.cons_append] at this
      rw [this]; simp
    revert this; decide

end Verif.Fields
