import Verif.Lemmas.Factory
/-! # Properties C20 (override resolution), C21 (type overrides), C22 (registration) -/
namespace Verif.Factory

/-- An environment for the examples: types 0..3 are called "A".."D", everything else is "<unknown>"; a pattern matches itself and
"*" matches everything. -/
def exEnv : Env where
  name t := match t with
    | 0 => "A" | 1 => "B" | 2 => "C" | 3 => "D" | _ => "<unknown>"
  isMatch p s := p == s || p == "*"

theorem exEnv_unique : UniqueNames exEnv := by
  intro a b ha hab
  have key : ∀ t, (t = 0 ∨ t = 1 ∨ t = 2 ∨ t = 3) ∨ exEnv.name t = "<unknown>" := by
    intro t
    match t with
    | 0 | 1 | 2 | 3 => simp
    | _ + 4 => right; rfl
  rcases key a with h1 | h1
  · rcases key b with h2 | h2
    · rcases h1 with rfl | rfl | rfl | rfl <;> rcases h2 with rfl | rfl | rfl | rfl <;> first | rfl | (exact absurd hab (by decide))
    · rw [h2] at hab; rw [hab] at ha; exact absurd ha (by decide)
  · rw [h1] at ha; exact absurd ha (by decide)

/-! ## C20 -/

/-- C20: whatever was registered, creating a type follows the overrides (at each step the first matching instance override, otherwise
the type override) until no override changes the type, and creates that type; or it meets a cycle, which it reports.  It always
terminates: a recursion depth of twice the number of overrides suffices. -/
theorem C20_resolution (e : Env) (f : Factory) (hf : Reachable e f) (hn : UniqueNames e) (fuel : Nat) (hfuel : 2 * size f < fuel)
    (t : Ty) (parent name : String) :
    ∃ t', Steps e f (instPath parent name) t t' ∧
      ((createByType e f fuel t parent name = .found t' false ∧ Final e f (instPath parent name) t') ∨
       (OnCycle e f (instPath parent name) t' ∧
         (createByType e f fuel t parent name = .found t' true ∨
          f.debugPass = true ∧ createByType e f fuel t parent name = .indexError))) :=
  findByType_spec (reachable_inv hf) hn _ fuel t [] (by have := todo_le f []; omega) (by simp)

/-- C20: without cycles among the overrides the final type of the chain is created, and no error is reported. -/
theorem C20_acyclic (e : Env) (f : Factory) (hf : Reachable e f) (hn : UniqueNames e) (fuel : Nat) (hfuel : 2 * size f < fuel)
    (t : Ty) (parent name : String) (hac : ∀ u, ¬ OnCycle e f (instPath parent name) u) :
    ∃ t', createByType e f fuel t parent name = .found t' false ∧ Steps e f (instPath parent name) t t' ∧
      Final e f (instPath parent name) t' := by
  obtain ⟨t', hs, h | h⟩ := C20_resolution e f hf hn fuel hfuel t parent name
  · exact ⟨t', h.1, hs, h.2⟩
  · exact absurd h.1 (hac t')

/-- C20: a chain that reaches a type which no override changes is the answer, also if there are cycles elsewhere. -/
theorem C20_chain_end (e : Env) (f : Factory) (hf : Reachable e f) (hn : UniqueNames e) (fuel : Nat) (hfuel : 2 * size f < fuel)
    (t u : Ty) (parent name : String) (hs : Steps e f (instPath parent name) t u) (hfin : Final e f (instPath parent name) u) :
    createByType e f fuel t parent name = .found u false := by
  have hi := reachable_inv hf
  have key : ∀ a b, Steps e f (instPath parent name) a b → Final e f (instPath parent name) b →
      ∀ c, Steps e f (instPath parent name) a c → Steps e f (instPath parent name) c b := by
    intro a b hab
    induction hab with
    | refl a =>
      intro hb c hc
      cases hc with
      | refl => exact .refl _
      | head s _ => exact absurd s (hb _)
    | head s hr ih =>
      intro hb c hc
      cases hc with
      | refl => exact .head s hr
      | head s' hr' => rw [step_det hi hn s' s] at hr'; exact ih hb c hr'
  obtain ⟨t', hst, h | h⟩ := C20_resolution e f hf hn fuel hfuel t parent name
  · have := key t u hs hfin t' hst
    cases this with
    | refl => exact h.1
    | head s _ => exact absurd s (h.2 _)
  · exfalso
    -- from a type on a cycle one never reaches a final type
    have h1 := key t u hs hfin t' hst
    obtain ⟨w, hw, hwt⟩ := h.1
    have hcyc : ∀ a b, Steps e f (instPath parent name) a b → OnCycle e f (instPath parent name) a →
        OnCycle e f (instPath parent name) b := by
      intro a b hab
      induction hab with
      | refl => exact id
      | head s hr ih =>
        rintro ⟨x, hx, hxa⟩
        apply ih
        rw [step_det hi hn hx s] at hxa
        cases hxa with
        | refl => exact ⟨_, hx, (Steps.refl _).trans (by rw [step_det hi hn hx s]; exact .refl _)⟩
        | head s2 hr2 => exact ⟨_, s2, hr2.tail s⟩
    obtain ⟨x, hx, _⟩ := hcyc t' u h1 h.1
    exact hfin x hx

/-- C20: once a loop has been reported (or after any debug call) cycles never make a creation fail. -/
theorem C20_no_crash_after_first_loop (e : Env) (f : Factory) (hf : Reachable e f) (hn : UniqueNames e) (fuel : Nat)
    (hfuel : 2 * size f < fuel) (hd : f.debugPass = false) (t : Ty) (parent name : String) :
    ∃ t' loop, createByType e f fuel t parent name = .found t' loop ∧ Steps e f (instPath parent name) t t' := by
  obtain ⟨t', hs, h | h⟩ := C20_resolution e f hf hn fuel hfuel t parent name
  · exact ⟨t', false, h.1, hs⟩
  · rcases h.2 with h2 | h2
    · exact ⟨t', true, h2, hs⟩
    · rw [hd] at h2; simp at h2

/-- C20: the crash can only happen once: after a creation (by type or by name) that met a loop, every creation by type succeeds. -/
theorem C20_at_most_one_crash (e : Env) (f : Factory) (hf : Reachable e f) (hn : UniqueNames e) (fuel fuel' : Nat) (op : Op)
    (hop : (∃ t p n r, op = .create t p n ∧ createByType e f fuel t p n = r ∧ (r = .indexError ∨ ∃ t', r = .found t' true)) ∨
      (∃ t p n r, op = .createByName t p n ∧ createByName e f fuel t p n = r ∧ (r = .indexError ∨ ∃ t', r = .found t' true)))
    (hfuel : 2 * size f < fuel') (t : Ty) (parent name : String) :
    ∃ t' loop, createByType e (step e fuel f op) fuel' t parent name = .found t' loop := by
  have hr : Reachable e (step e fuel f op) := .step fuel op hf (by
    rintro _ _ _ rfl; rcases hop with ⟨_, _, _, _, h, _⟩ | ⟨_, _, _, _, h, _⟩ <;> cases h)
  have hd : (step e fuel f op).debugPass = false ∧ size (step e fuel f op) = size f := by
    rcases hop with ⟨_, _, _, _, rfl, h, rfl | ⟨_, rfl⟩⟩ | ⟨_, _, _, _, rfl, h, rfl | ⟨_, rfl⟩⟩ <;> simp [step, h, size, Res.looped]
  obtain ⟨t', l, h, _⟩ := C20_no_crash_after_first_loop e _ hr hn fuel' (by rw [hd.2]; exact hfuel) hd.1 t parent name
  exact ⟨t', l, h⟩

/-- C20: a creation that meets no loop leaves the factory as it is. -/
theorem C20_no_loop_no_change (e : Env) (f : Factory) (fuel : Nat) (t : Ty) (tn parent name : String) :
    ((∀ t', createByType e f fuel t parent name ≠ .found t' true) → createByType e f fuel t parent name ≠ .indexError →
      step e fuel f (.create t parent name) = f) ∧
    ((∀ t', createByName e f fuel tn parent name ≠ .found t' true) → createByName e f fuel tn parent name ≠ .indexError →
      step e fuel f (.createByName tn parent name) = f) := by
  have h : ∀ r : Res, (∀ t', r ≠ .found t' true) → r ≠ .indexError → r.looped = false := by
    intro r h1 h2
    cases r with
    | found t' l => cases l <;> simp_all [Res.looped]
    | indexError => exact absurd rfl h2
    | _ => rfl
  constructor <;> intro h1 h2 <;> simp [step, h _ h1 h2]

/-- C20: the path a request is matched under is the parent's path and the name joined by a dot, or the one that is not empty. -/
theorem C20_instance_path (parent name : String) :
    (parent ≠ "" → name ≠ "" → instPath parent name = parent ++ "." ++ name) ∧ instPath "" name = name ∧ instPath parent "" = parent := by
  refine ⟨?_, ?_, ?_⟩
  · intro h1 h2; simp [instPath, h1, h2]
  · simp [instPath]
  · by_cases h : parent = "" <;> simp [instPath, h]

example : instPath "top.env" "agent" = "top.env.agent" := by decide

/-- A chain A → B → C of type overrides with an instance override B → D at "top.x". -/
def exChain : Factory :=
  [Op.typeByType 0 1 .true_, .typeByType 1 2 .true_, .inst 1 3 "top.x"].foldl (step exEnv 10) {}

theorem exChain_reachable : Reachable exEnv exChain :=
  ((Reachable.init.step 10 (.typeByType 0 1 .true_) (by simp)).step 10 (.typeByType 1 2 .true_) (by simp)).step 10 (.inst 1 3 "top.x") (by simp)

example : createByType exEnv exChain 10 0 "top" "y" = .found 2 false ∧ createByType exEnv exChain 10 0 "top" "x" = .found 3 false ∧
    createByType exEnv exChain 10 2 "top" "x" = .found 2 false ∧ 2 * size exChain < 10 := by decide

/-- A cycle A → B → A. -/
def exLoop : Factory := [Op.typeByType 0 1 .true_, .typeByType 1 0 .true_].foldl (step exEnv 10) {}

example : createByType exEnv exLoop 10 0 "" "x" = .found 0 true ∧ exLoop.debugPass = true := by decide

example : createByName exEnv exLoop 10 "no such type" "" "x" = .unknown := by decide

/-- C20 fails in the code: a cycle that is entered after two other overrides (A → B → C → D → C) makes the creation raise
`IndexError` instead of reporting the loop. -/
theorem C20_loop_index_error_fails :
    ∃ f : Factory, Reachable exEnv f ∧ createByType exEnv f 100 0 "" "x" = .indexError :=
  ⟨_, ((((Reachable.init.step 100 (.typeByType 0 1 .true_) (by simp)).step 100 (.typeByType 1 2 .true_) (by simp)).step 100
    (.typeByType 2 3 .true_) (by simp)).step 100 (.typeByType 3 2 .true_) (by simp)), by decide⟩

/-- 10 and 11 are called "B", all other types "C". -/
def dupEnv : Env := { name := fun t => if t = 10 ∨ t = 11 then "B" else "C", isMatch := fun _ _ => false }

/-- Overrides 10 → 21 and 20 → 11. -/
def dupFactory : Factory := step dupEnv 0 (step dupEnv 0 {} (.typeByType 10 21 .true_)) (.typeByType 20 11 .true_)

/-- C20 fails in the code: two types with one name defeat the loop check; creation recurses without end. -/
theorem C20_same_names_recursion_fails :
    ∃ (e : Env) (f : Factory), Reachable e f ∧ ∀ fuel, createByType e f fuel 11 "" "x" = .recursion := by
  refine ⟨dupEnv, dupFactory, (Reachable.init.step 0 (.typeByType 10 21 .true_) (by simp)).step 0 (.typeByType 20 11 .true_) (by simp), ?_⟩
  have hc11 : candidates dupEnv dupFactory 11 (instPath "" "x") = [⟨"*", some 10, "B", 21⟩] := by decide
  have hc21 : candidates dupEnv dupFactory 21 (instPath "" "x") = [⟨"*", some 20, "C", 11⟩] := by decide
  have key : ∀ fuel info, (∀ o ∈ info, o.orig = some 10 ∨ o.orig = some 20) →
      findByType dupEnv dupFactory (instPath "" "x") fuel 11 info = .recursion ∧ findByType dupEnv dupFactory (instPath "" "x") fuel 21 info = .recursion := by
    intro fuel
    induction fuel with
    | zero => intro info _; exact ⟨rfl, rfl⟩
    | succ fuel ih =>
      intro info hinfo
      have h11 : info.findIdx? (·.orig == some 11) = none := by
        rw [List.findIdx?_eq_none_iff]; intro o ho
        rcases hinfo o ho with h | h <;> simp [h]
      have h21 : info.findIdx? (·.orig == some 21) = none := by
        rw [List.findIdx?_eq_none_iff]; intro o ho
        rcases hinfo o ho with h | h <;> simp [h]
      constructor
      · simp only [findByType, h11, hc11]
        exact (ih _ (by intro o ho; rcases List.mem_append.mp ho with ho | ho; exact hinfo o ho; simp at ho; simp [ho])).2
      · simp only [findByType, h21, hc21]
        exact (ih _ (by intro o ho; rcases List.mem_append.mp ho with ho | ho; exact hinfo o ho; simp at ho; simp [ho])).1
  intro fuel
  exact (key fuel [] (by simp)).1

/-- The instance overrides registered for `o`, in order of the calls. -/
def instCalls (o : Ty) (ops : List Op) : List (Ty × String) :=
  ops.filterMap fun op => match op with
    | .inst o' v p => if o' = o then some (v, p) else none
    | _ => none

/-- Only the first of equal calls counts. -/
def keepFirst {α} [DecidableEq α] (l : List α) : List α := l.foldl (fun acc x => if x ∈ acc then acc else acc ++ [x]) []

theorem setTypeByType_inst (e : Env) (f : Factory) (o v : Ty) (r : PyFlag) : (setTypeByType e f o v r).inst = f.inst := by
  have e1 : (ensure e (ensure e f o) v).inst = f.inst := by rw [(ensure_typeOvr _ _ _).2.1, (ensure_typeOvr _ _ _).2.1]
  unfold setTypeByType
  generalize ensure e (ensure e f o) v = g at e1
  simp only; (repeat' split) <;> exact e1

theorem setTypeByName_inst (e : Env) (f : Factory) (on vn : String) (r : PyFlag) : (setTypeByName e f on vn r).inst = f.inst := by
  unfold setTypeByName; (repeat' split) <;> rfl

/-- C20: for any history of calls, the instance overrides looked at for a type are exactly those registered for it, in the order
of registration, repeated registrations ignored. -/
theorem C20_instance_overrides_in_order (e : Env) (fuel : Nat) (ops : List Op) (o : Ty) :
    queue (ops.foldl (step e fuel) {}).inst o =
      (keepFirst (instCalls o ops)).map fun c => ⟨c.2, some o, e.name o, c.1⟩ := by
  obtain ⟨r, rfl⟩ : ∃ r, ops = List.reverse r := ⟨ops.reverse, by simp⟩
  induction r with
  | nil => rfl
  | cons op r ih =>
    rw [List.reverse_cons, List.foldl_append]
    simp only [List.foldl_cons, List.foldl_nil]
    generalize (List.reverse r).foldl (step e fuel) {} = f at ih
    cases op with
    | register t => simp [step, (register_typeOvr e f t).2.1, ih, instCalls]
    | typeByType a b c => simp [step, setTypeByType_inst, ih, instCalls]
    | typeByName a b c => simp [step, setTypeByName_inst, ih, instCalls]
    | create a b c => simp [step, ih, instCalls]
    | createByName a b c => simp [step, ih, instCalls]
    | inst o' v p =>
      simp only [step, setInst]
      have e1 : (ensure e (ensure e f o') v).inst = f.inst := by rw [(ensure_typeOvr _ _ _).2.1, (ensure_typeOvr _ _ _).2.1]
      generalize ensure e (ensure e f o') v = g at e1
      by_cases ho : o' = o
      · subst ho
        have hcalls : instCalls o' (List.reverse r ++ [Op.inst o' v p]) = instCalls o' (List.reverse r) ++ [(v, p)] := by
          simp [instCalls, List.filterMap_append]
        have hkf : keepFirst (instCalls o' (List.reverse r) ++ [(v, p)]) =
            if (v, p) ∈ keepFirst (instCalls o' (List.reverse r)) then keepFirst (instCalls o' (List.reverse r))
            else keepFirst (instCalls o' (List.reverse r)) ++ [(v, p)] := by
          simp only [keepFirst, List.foldl_append, List.foldl_cons, List.foldl_nil]
          split <;> simp_all
        rw [hcalls, hkf, e1, ih]
        generalize keepFirst (instCalls o' (List.reverse r)) = k at ih
        by_cases hm : (v, p) ∈ k
        · have : (k.map fun c => (⟨c.2, some o', e.name o', c.1⟩ : Ovr)).any
              (fun x => x.path == p && x.orig == some o' && x.ovrd == v && x.origName == e.name o') = true := by
            rw [List.any_eq_true]; exact ⟨_, List.mem_map_of_mem hm, by simp⟩
          simp only [this, if_true, hm, e1, ih]
        · have : (k.map fun c => (⟨c.2, some o', e.name o', c.1⟩ : Ovr)).any
              (fun x => x.path == p && x.orig == some o' && x.ovrd == v && x.origName == e.name o') = false := by
            rw [List.any_eq_false]
            intro x hx
            obtain ⟨c, hc, rfl⟩ := List.mem_map.mp hx
            have hne : c ≠ (v, p) := fun h => hm (h ▸ hc)
            intro hcon
            simp at hcon
            exact hne (Prod.ext hcon.2 hcon.1)
          simp [this, hm, queue_push, ih, mkOvr]
      · have hcalls : instCalls o (List.reverse r ++ [Op.inst o' v p]) = instCalls o (List.reverse r) := by
          simp [instCalls, List.filterMap_append, ho]
        rw [hcalls, ← ih]
        split
        · rw [e1]
        · simp [queue_push, Ne.symm ho, e1]

example : queue (([Op.inst 0 1 "a*", .inst 2 3 "*", .inst 0 3 "*", .inst 0 1 "a*"] : List Op).foldl (step exEnv 5) {}).inst 0 =
    [⟨"a*", some 0, "A", 1⟩, ⟨"*", some 0, "A", 3⟩] := by decide

/-- C119 (partial): creating by name agrees with creating by type, for a name that stands for its type, as long as no type override of
the type targets the type itself.  Missing: names whose entry has been changed by `set_type_override_by_name` (see
`C119_by_name_misses_instance_override_fails`). -/
theorem C119_by_name_agrees_partial (e : Env) (f : Factory) (hf : Reachable e f) (hn : UniqueNames e) (fuel : Nat) (t : Ty)
    (n parent name : String) (hname : e.name t = n) (hreg : f.typeNames n = some t) (hself : e.isMatch n n = true)
    (hno : ∀ o ∈ f.typeOvr, o.orig = some t → o.ovrd ≠ t) :
    createByName e f fuel n parent name = createByType e f (fuel + 1) t parent name := by
  have hi := reachable_inv hf
  have hu : usable (e.name t) = true := by rw [hname]; exact (hi.names n t hreg).1
  have hinst : ∀ o ∈ queue f.inst t, o.ovrd ≠ t → e.name o.ovrd ≠ n := fun o _ h1 h2 => h1 (hn t o.ovrd hu (hname.trans h2.symm)).symm
  have hm : ∀ o ∈ f.typeOvr, (o.origName == n) = decide (o.orig = some t) := by
    intro o ho
    obtain ⟨u, hu1, hu2⟩ := hi.tys o ho
    rw [Bool.eq_iff_iff]
    simp only [beq_iff_eq, decide_eq_true_eq, hu1, hu2, Option.some.injEq]
    constructor
    · intro h; exact (hn t u hu (hname.trans h.symm)).symm
    · rintro rfl; exact hname
  have hq : ∀ o ∈ queue f.inst t, (e.isMatch o.origName n && e.isMatch o.path (instPath parent name)) =
      decide (e.isMatch o.path (instPath parent name) = true) := by
    intro o ho
    rw [(hi.inst t o ho).2, hname, hself]; simp
  have hfind : ∀ {p q : Ovr → Bool} (l : List Ovr), (∀ o ∈ l, p o = q o) → l.find? p = l.find? q := by
    intro p q l
    induction l with
    | nil => simp
    | cons x l ih => intro h; simp only [List.find?_cons, h x (by simp)]; rw [ih (fun o ho => h o (by simp [ho]))]
  simp only [createByName, findByName, createByType, findByType, hreg, List.findIdx?_nil]
  rw [candidates_eq hi hn]
  rw [hfind _ hm, hfind _ hq]
  generalize instPath parent name = path
  have ho : ∀ o ∈ f.typeOvr.filter (fun o => decide (o.orig = some t)), o.ovrd ≠ t := by
    intro o ho
    simp only [List.mem_filter, decide_eq_true_eq] at ho
    exact hno o ho.1 ho.2
  by_cases hp : path = ""
  · simp only [hp, ne_eq, not_true_eq_false, if_false, List.nil_append]
    rw [← List.head?_filter]
    cases hfl : f.typeOvr.filter (fun o => decide (o.orig = some t)) with
    | nil => rfl
    | cons o os => simp [ho o (by simp [hfl])]
  · simp only [hp, ne_eq, not_false_eq_true, if_true]
    rw [← List.head?_filter, ← List.head?_filter]
    cases hfl : (queue f.inst t).filter (fun o => decide (e.isMatch o.path path = true)) with
    | nil =>
      simp only [List.head?_nil, List.nil_append]
      cases hfl : f.typeOvr.filter (fun o => decide (o.orig = some t)) with
      | nil => rfl
      | cons o os => simp [ho o (by simp [hfl])]
    | cons o os =>
      have ho : o ∈ queue f.inst t := by
        have : o ∈ (queue f.inst t).filter (fun o => decide (e.isMatch o.path path = true)) := by rw [hfl]; simp
        exact (List.mem_filter.mp this).1
      simp only [List.head?_cons, List.cons_append, List.nil_append]
      by_cases hot : o.ovrd = t
      · simp [hot, hname]
      · simp [hot, hinst o ho hot]

example : createByName exEnv exChain 10 "A" "top" "x" = .found 3 false ∧ exChain.typeNames "A" = some 0 ∧ exEnv.isMatch "A" "A" = true := by
  decide

/-- C119 fails in the code: `set_type_override_by_name("A", "B")` also redirects the name "A", so that an instance override of A
registered before is honoured when creating by type and ignored when creating by name. -/
theorem C119_by_name_misses_instance_override_fails :
    ∃ f : Factory, Reachable exEnv f ∧ createByType exEnv f 10 0 "top" "x" = .found 3 false ∧
      createByName exEnv f 10 "A" "top" "x" = .found 1 false :=
  ⟨_, ((Reachable.init.step 10 (.inst 0 3 "top.x") (by simp)).step 10 (.register 1) (by simp)).step 10 (.typeByName "A" "B" .true_)
    (by rintro _ _ _ h; cases h; decide), by decide⟩

/-- C119 fails in the code: with a type override of A by A itself, creating by name reports a loop, creating by type does not. -/
theorem C119_self_override_by_name_fails :
    ∃ f : Factory, Reachable exEnv f ∧ createByType exEnv f 10 0 "top" "x" = .found 0 false ∧
      createByName exEnv f 10 "A" "top" "x" = .found 0 true :=
  ⟨_, Reachable.init.step 10 (.typeByType 0 0 .true_) (by simp), by decide⟩

/-! ## C21 -/

/-- The calls of `set_type_override_by_type` in a history, latest first, `replace` being a Python bool. -/
def typeCalls : List Op → List (Ty × Ty × Bool)
  | [] => []
  | .typeByType o v r :: ops => typeCalls ops ++ [(o, v, r.truthy)]
  | _ :: ops => typeCalls ops

theorem typeCalls_append (a b : List Op) : typeCalls (a ++ b) = typeCalls b ++ typeCalls a := by
  induction a with
  | nil => simp [typeCalls]
  | cons op a ih => cases op <;> simp [typeCalls, ih]

theorem setInst_typeOvr (e : Env) (f : Factory) (o v : Ty) (p : String) : (setInst e f o v p).typeOvr = f.typeOvr := by
  have e1 : (ensure e (ensure e f o) v).typeOvr = f.typeOvr := by rw [(ensure_typeOvr _ _ _).1, (ensure_typeOvr _ _ _).1]
  unfold setInst
  generalize ensure e (ensure e f o) v = g at e1
  simp only; split <;> exact e1

/-- C21 (partial): after any calls, the type override in effect for a type is the one that the calls of
`set_type_override_by_type` ask for: the latest one, except that one with `replace=False` never displaces another.  Missing: overrides
set by name (`C21_by_name_*`) and `replace=0` (`C21_replace_zero_fails`). -/
theorem C21_type_override_partial (e : Env) (hn : UniqueNames e) (fuel : Nat) (ops : List Op)
    (hops : ∀ op ∈ ops, ∀ on vn r, op ≠ .typeByName on vn r)
    (hbool : ∀ op ∈ ops, ∀ o v r, op = .typeByType o v r → r ≠ .int0) (t : Ty) :
    ((ops.foldl (step e fuel) {}).typeOvr.find? (fun x => decide (x.orig = some t))).map (·.ovrd) =
      specTypeOvr (typeCalls ops) t := by
  obtain ⟨r, rfl⟩ : ∃ r, ops = List.reverse r := ⟨ops.reverse, by simp⟩
  suffices h : Reachable e ((List.reverse r).foldl (step e fuel) {}) ∧ ∀ t,
      (((List.reverse r).foldl (step e fuel) {}).typeOvr.find? (fun x => decide (x.orig = some t))).map (·.ovrd) =
      specTypeOvr (typeCalls (List.reverse r)) t from h.2 t
  clear t
  induction r with
  | nil => exact ⟨.init, fun t => rfl⟩
  | cons op r ih =>
    obtain ⟨hr, ih⟩ := ih (fun op h => hops op (by simp at h ⊢; exact Or.inl h)) (fun op h => hbool op (by simp at h ⊢; exact Or.inl h))
    rw [List.reverse_cons, List.foldl_append]
    simp only [List.foldl_cons, List.foldl_nil]
    refine ⟨.step fuel op hr (fun on vn r h => absurd h (hops op (by simp) on vn r)), ?_⟩
    intro t
    rw [typeCalls_append]
    generalize (List.reverse r).foldl (step e fuel) {} = f at ih hr
    cases op with
    | register u => simpa [step, (register_typeOvr e f u).1, typeCalls] using ih t
    | typeByName a b c => exact absurd rfl (hops (.typeByName a b c) (by simp) a b c)
    | create a b c => simpa [step, typeCalls] using ih t
    | createByName a b c => simpa [step, typeCalls] using ih t
    | inst o v p => simpa [step, setInst_typeOvr, typeCalls] using ih t
    | typeByType o v rr =>
      have hb := hbool (.typeByType o v rr) (by simp) o v rr rfl
      simp only [step, setTypeByType_typeOvr (reachable_inv hr) hn, typeCalls, List.nil_append, List.singleton_append, specTypeOvr]
      rw [ih o, ih t]
      by_cases ht : t = o
      · subst ht
        simp only [if_true]
        cases hs : specTypeOvr (typeCalls (List.reverse r)) t with
        | none => simp
        | some w => cases rr <;> simp_all [PyFlag.truthy]
      · simp [ht]

example : specTypeOvr (typeCalls [.typeByType 0 1 .true_, .typeByType 0 2 .false_, .typeByType 1 2 .false_, .typeByType 1 3 .true_]) 0 = some 1 ∧
    specTypeOvr (typeCalls [.typeByType 0 1 .true_, .typeByType 0 2 .false_, .typeByType 1 2 .false_, .typeByType 1 3 .true_]) 1 = some 3 := by
  decide

/-- C21: what a later creation sees: if the calls ask for `v` in place of `t` and for no override of `v`, and no instance override was
registered for `t` or `v`, creating `t` anywhere creates `v`. -/
theorem C21_creation_uses_latest (e : Env) (hn : UniqueNames e) (fuel fuel' : Nat) (ops : List Op)
    (hops : ∀ op ∈ ops, ∀ on vn r, op ≠ .typeByName on vn r)
    (hbool : ∀ op ∈ ops, ∀ o v r, op = .typeByType o v r → r ≠ .int0) (t v : Ty) (parent name : String)
    (hfuel : 2 * size (ops.foldl (step e fuel) {}) < fuel') (htv : v ≠ t)
    (h1 : specTypeOvr (typeCalls ops) t = some v) (h2 : specTypeOvr (typeCalls ops) v = none)
    (h3 : instCalls t ops = []) (h4 : instCalls v ops = []) :
    createByType e (ops.foldl (step e fuel) {}) fuel' t parent name = .found v false := by
  have hr : Reachable e (ops.foldl (step e fuel) {}) := by
    suffices h : ∀ (l : List Op) (f : Factory), Reachable e f → (∀ op ∈ l, ∀ on vn r, op ≠ .typeByName on vn r) →
        Reachable e (l.foldl (step e fuel) f) from h ops {} .init hops
    intro l
    induction l with
    | nil => intro f h _; exact h
    | cons op l ih =>
      intro f h hl
      exact ih _ (.step fuel op h (fun on vn r h => absurd h (hl op (by simp) on vn r))) (fun op hop => hl op (by simp [hop]))
  have q1 := C20_instance_overrides_in_order e fuel ops t
  have q2 := C20_instance_overrides_in_order e fuel ops v
  rw [h3] at q1; rw [h4] at q2
  have s1 := C21_type_override_partial e hn fuel ops hops hbool t
  have s2 := C21_type_override_partial e hn fuel ops hops hbool v
  rw [h1] at s1; rw [h2] at s2
  generalize ops.foldl (step e fuel) {} = f at *
  have hi := reachable_inv hr
  simp only [keepFirst, List.foldl_nil, List.map_nil] at q1 q2
  refine C20_chain_end e f hr hn fuel' hfuel t v parent name (.head ?_ (.refl v)) ?_
  · rw [step_iff hi hn, candidates_eq hi hn, q1]
    obtain ⟨o, ho, hov⟩ := Option.map_eq_some_iff.mp s1
    rw [← List.head?_filter] at ho
    obtain ⟨os, hos⟩ := List.head?_eq_some_iff.mp ho
    exact ⟨o, os, by simp [hos], hov, htv⟩
  · intro u hu
    rw [step_iff hi hn, candidates_eq hi hn, q2] at hu
    obtain ⟨o, os, ho, _⟩ := hu
    have : f.typeOvr.find? (fun x => decide (x.orig = some v)) = none := by
      cases hf' : f.typeOvr.find? (fun x => decide (x.orig = some v)) <;> simp_all
    rw [← List.head?_filter] at this
    have hnil := List.head?_eq_none_iff.mp this
    simp [hnil] at ho

example : createByType exEnv (([.typeByType 0 1 .true_, .typeByType 0 2 .true_, .register 3] : List Op).foldl (step exEnv 5) {}) 10 0 "top" "x" = .found 2 false := by
  decide

/-- C21 fails in the code: `set_type_override_by_type(A, C, replace=0)` displaces an earlier override A → B, because the code
tests `replace is False`. -/
theorem C21_replace_zero_fails :
    ∃ f : Factory, Reachable exEnv f ∧ createByType exEnv f 10 0 "" "x" = .found 1 false ∧
      createByType exEnv (setTypeByType exEnv f 0 2 .int0) 10 0 "" "x" = .found 2 false :=
  ⟨_, Reachable.init.step 10 (.typeByType 0 1 .true_) (by simp), by decide⟩

/-- C21 fails in the code: "overriding" A by A displaces an earlier override A → B. -/
theorem C21_self_override_fails :
    ∃ f : Factory, Reachable exEnv f ∧ createByType exEnv f 10 0 "" "x" = .found 1 false ∧
      createByType exEnv (setTypeByType exEnv f 0 0 .true_) 10 0 "" "x" = .found 0 false :=
  ⟨_, Reachable.init.step 10 (.typeByType 0 1 .true_) (by simp), by decide⟩

/-- C21: overrides by name: an unknown override name and identical names change nothing; `replace` false (or 0) does not displace an
existing override. -/
theorem C21_by_name_ignored (e : Env) (f : Factory) (on vn : String) (r : PyFlag)
    (h : f.typeNames vn = none ∨ on = vn ∨ (r.truthy = false ∧ ∃ o ∈ f.typeOvr, o.origName = on)) :
    setTypeByName e f on vn r = f := by
  unfold setTypeByName
  split
  · rfl
  · rename_i v hv
    rcases h with h | h | ⟨h, o, ho, hon⟩
    · simp [h] at hv
    · simp [h]
    · split
      · rfl
      · have : f.typeOvr.any (·.origName == on) = true := by rw [List.any_eq_true]; exact ⟨o, ho, by simp [hon]⟩
        simp [this, h]

example : setTypeByName exEnv (exChain) "A" "C" .false_ = exChain := by
  apply C21_by_name_ignored; right; right; refine ⟨rfl, ?_⟩; decide

/-- C21: an override by name of a registered type that takes effect is the same, for every later request by type, as the override by
type: the type override in effect for `t` becomes the type registered under the override name, other types keep theirs. -/
theorem C21_by_name_takes_effect (e : Env) (f : Factory) (hf : Reachable e f) (hn : UniqueNames e) (on vn : String) (r : PyFlag)
    (t v u : Ty) (hname : e.name t = on) (hon : (f.typeNames on).isSome) (hv : f.typeNames vn = some v) (hne : on ≠ vn)
    (hr : r.truthy = true ∨ ∀ o ∈ f.typeOvr, o.origName ≠ on) :
    ((setTypeByName e f on vn r).typeOvr.find? (fun x => decide (x.orig = some u))).map (·.ovrd) =
      if u = t then some v else (f.typeOvr.find? (fun x => decide (x.orig = some u))).map (·.ovrd) := by
  have hi := reachable_inv hf
  obtain ⟨t0, ht0⟩ := Option.isSome_iff_exists.mp hon
  obtain ⟨hu, hcase⟩ := hi.names on t0 ht0
  have horig : ∀ o ∈ f.typeOvr, (o.origName == on) = decide (o.orig = some t) := by
    intro o ho
    obtain ⟨w, hw1, hw2⟩ := hi.tys o ho
    rw [Bool.eq_iff_iff]
    simp only [beq_iff_eq, decide_eq_true_eq, hw1, hw2, Option.some.injEq]
    constructor
    · intro h; exact hn w t (by rw [h]; exact hu) (h.trans hname.symm)
    · rintro rfl; exact hname
  unfold setTypeByName
  simp only [hv, hne, if_false]
  by_cases hany : f.typeOvr.any (·.origName == on) = true
  · simp only [hany, if_true]
    have hrt : r.truthy = true := by
      rcases hr with hr | hr
      · exact hr
      · rw [List.any_eq_true] at hany
        obtain ⟨o, ho, h⟩ := hany
        exact absurd (by simpa using h) (hr o ho)
    simp only [hrt, Bool.true_eq_false, if_false]
    have hex : ∃ o ∈ f.typeOvr, o.orig = some t := by
      rw [List.any_eq_true] at hany
      obtain ⟨o, ho, h⟩ := hany
      exact ⟨o, ho, by rw [horig o ho] at h; simpa using h⟩
    have hmap : (f.typeOvr.map fun x => if x.origName == on then { x with ovrd := v } else x) =
        f.typeOvr.map fun x => if x.orig = some t then { x with ovrd := v } else x := by
      apply List.map_congr_left; intro x hx; rw [horig x hx]; simp
    simp only [hmap]
    clear hmap horig hany hcase
    generalize f.typeOvr = l at hex
    induction l with
    | nil => simp at hex
    | cons x l ih =>
      by_cases hx : x.orig = some t
      · by_cases hut : u = t
        · simp [hx, hut]
        · have h' : ¬ t = u := Ne.symm hut
          simp only [List.map_cons, hx, if_true, List.find?_cons, hut, if_false, Option.some.injEq, h', decide_false]
          by_cases hex2 : ∃ o ∈ l, o.orig = some t
          · simpa [hut] using ih hex2
          · have : (l.map fun x => if x.orig = some t then { x with ovrd := v } else x) = l := by
              conv => rhs; rw [← List.map_id l]
              apply List.map_congr_left
              intro y hy
              have : ¬ y.orig = some t := fun h => hex2 ⟨y, hy, h⟩
              simp [this]
            rw [this]
      · have hex2 : ∃ o ∈ l, o.orig = some t := by
          obtain ⟨o, ho, h⟩ := hex
          rcases List.mem_cons.mp ho with rfl | ho
          · exact absurd h hx
          · exact ⟨o, ho, h⟩
        have := ih hex2
        simp only [List.map_cons, hx, if_false, List.find?_cons]
        by_cases hxu : x.orig = some u
        · have hut : ¬ u = t := by rintro rfl; exact hx hxu
          simp [hxu, hut]
        · simpa [hxu] using this
  · simp only [hany]
    have hno : ∀ o ∈ f.typeOvr, o.origName ≠ on := by simpa using hany
    have ht0n : e.name t0 = on := by
      rcases hcase with h | ⟨o, ho, h⟩
      · exact h
      · exact absurd h (hno o ho)
    have : t0 = t := hn t0 t (by rw [ht0n]; exact hu) (ht0n.trans hname.symm)
    subst this
    simp only [Bool.false_eq_true, if_false, ht0, List.find?_append]
    by_cases hut : u = t0
    · subst hut
      have hnone : f.typeOvr.find? (fun x => decide (x.orig = some u)) = none := by
        rw [List.find?_eq_none]
        intro x hx
        rw [← horig x hx]; simpa using hno x hx
      simp [hnone, mkOvr]
    · have h' : ¬ t0 = u := Ne.symm hut
      cases f.typeOvr.find? (fun x => decide (x.orig = some u)) <;> simp [hut, mkOvr, h']

example : ((setTypeByName exEnv exChain "A" "D" .true_).typeOvr.find? (fun x => decide (x.orig = some 0))).map (·.ovrd) = some 3 ∧
    (exChain.typeNames "A").isSome ∧ exChain.typeNames "D" = some 3 := by decide

/-- C21 fails in the code: `set_type_override_by_name` redirects the original name, so that a later override by name *to* "A" goes to
the type that replaced A, even after the override of A is gone from the request's point of view: C → "A" gives B. -/
theorem C21_by_name_target_redirected_fails :
    ∃ f : Factory, Reachable exEnv f ∧ f.typeNames "A" ≠ some 0 ∧
      (setTypeByName exEnv f "C" "A" .true_).typeOvr.find? (·.origName == "C") = some ⟨"*", some 2, "C", 1⟩ :=
  ⟨_, (((Reachable.init.step 10 (.register 0) (by simp)).step 10 (.register 1) (by simp)).step 10 (.register 2) (by simp)).step 10
    (.typeByName "A" "B" .true_) (by rintro _ _ _ h; cases h; decide), by decide⟩

/-! ## C22 -/

/-- The types registered by a history of registrations and overrides by type, in order. -/
def registered : List Op → List Ty
  | [] => []
  | .register t :: ops => t :: registered ops
  | .typeByType o v _ :: ops => o :: v :: registered ops
  | .inst o v _ :: ops => o :: v :: registered ops
  | _ :: ops => registered ops

theorem registered_append (a b : List Op) : registered (a ++ b) = registered a ++ registered b := by
  induction a with
  | nil => rfl
  | cons op a ih => cases op <;> simp [registered, ih]

/-- Names and types a factory knows. -/
def Knows (e : Env) (f : Factory) (l : List Ty) : Prop :=
  (∀ t, t ∈ f.types ↔ t ∈ l) ∧ ∀ n, f.typeNames n = if usable n then l.find? (fun t => e.name t == n) else none

theorem knows_register {e : Env} {f : Factory} {l : List Ty} (h : Knows e f l) (t : Ty) : Knows e (register e f t) (l ++ [t]) := by
  refine ⟨fun u => ?_, fun n => ?_⟩
  · rw [register_types, h.1 u]; simp [or_comm]
  · rw [register_names, h.2 n, List.find?_append]
    by_cases hu : usable n = true
    · by_cases hn : n = e.name t
      · subst hn
        cases l.find? (fun t' => e.name t' == e.name t) <;> simp [hu]
      · have : ¬ e.name t = n := Ne.symm hn
        cases l.find? (fun t' => e.name t' == n) <;> simp [hu, hn, this]
    · have hnn : ¬ (n = e.name t ∧ usable (e.name t) = true ∧ (none : Option Ty) = none) := by
        rintro ⟨rfl, h, _⟩; exact hu h
      simp only [Bool.not_eq_true] at hu
      simp [hu]
      rintro rfl; exact hu

theorem knows_ensure {e : Env} {f : Factory} {l : List Ty} (h : Knows e f l) (t : Ty) : Knows e (ensure e f t) (l ++ [t]) := by
  unfold ensure
  split
  · rename_i hc
    have hm : t ∈ l := (h.1 t).mp (by simpa using hc)
    refine ⟨fun u => ?_, fun n => ?_⟩
    · rw [h.1 u]; simp only [List.mem_append, List.mem_singleton]
      exact ⟨Or.inl, fun h => h.elim id (fun h => h ▸ hm)⟩
    · rw [h.2 n, List.find?_append]
      cases hf : l.find? (fun t' => e.name t' == n) with
      | some w => simp
      | none =>
        have : (e.name t == n) = false := by
          have := List.find?_eq_none.mp hf t hm; simpa using this
        simp [this]
  · exact knows_register h t

theorem knows_congr {e : Env} {f g : Factory} {l : List Ty} (h : Knows e f l) (h1 : g.types = f.types) (h2 : g.typeNames = f.typeNames) :
    Knows e g l := ⟨by rw [h1]; exact h.1, by rw [h2]; exact h.2⟩

/-- C22 (partial): after any calls, a (non-empty, known) name stands for the first type registered under it (explicitly or by being
mentioned in an override by type), and for none if there is no such type; registrations are never lost.  Missing: histories with
`set_type_override_by_name` (see `C22_override_redirects_name_fails`). -/
theorem C22_names_partial (e : Env) (fuel : Nat) (ops : List Op) (hops : ∀ op ∈ ops, ∀ on vn r, op ≠ .typeByName on vn r) (n : String)
    (t : Ty) :
    (ops.foldl (step e fuel) {}).typeNames n = (if usable n then (registered ops).find? (fun t => e.name t == n) else none) ∧
      (t ∈ (ops.foldl (step e fuel) {}).types ↔ t ∈ registered ops) := by
  suffices h : ∀ (l : List Op) (f : Factory) (ts : List Ty), Knows e f ts → (∀ op ∈ l, ∀ on vn r, op ≠ .typeByName on vn r) →
      Knows e (l.foldl (step e fuel) f) (ts ++ registered l) by
    have := h ops {} [] ⟨by simp, by simp⟩ hops
    exact ⟨this.2 n, this.1 t⟩
  intro l
  induction l with
  | nil => intro f ts h _; simpa [registered] using h
  | cons op l ih =>
    intro f ts h hl
    have hl' : ∀ op ∈ l, ∀ on vn r, op ≠ .typeByName on vn r := fun op hop => hl op (by simp [hop])
    simp only [List.foldl_cons]
    cases op with
    | register t =>
      have := ih _ _ (knows_register h t) hl'
      simpa [registered, step] using this
    | typeByType o v r =>
      have hk := knows_ensure (knows_ensure h o) v
      have : Knows e (setTypeByType e f o v r) (ts ++ [o] ++ [v]) := by
        unfold setTypeByType
        simp only; (repeat' split) <;> exact knows_congr hk rfl rfl
      have := ih _ _ this hl'
      simpa [registered, step] using this
    | typeByName on vn r => exact absurd rfl (hl _ (by simp) on vn r)
    | inst o v p =>
      have hk := knows_ensure (knows_ensure h o) v
      have : Knows e (setInst e f o v p) (ts ++ [o] ++ [v]) := by
        unfold setInst
        simp only; split <;> exact knows_congr hk rfl rfl
      have := ih _ _ this hl'
      simpa [registered, step] using this
    | create t p n => exact ih _ _ (knows_congr h rfl rfl) hl'
    | createByName t p n => exact ih _ _ (knows_congr h rfl rfl) hl'

example : (([Op.register 3, .typeByType 0 1 .true_, .register 0] : List Op).foldl (step exEnv 5) {}).typeNames "B" = some 1 ∧
    (([Op.register 3, .typeByType 0 1 .true_, .register 0] : List Op).foldl (step exEnv 5) {}).typeNames "C" = none := by decide

/-- C22: registering a type again changes nothing. -/
theorem C22_register_idempotent (e : Env) (f : Factory) (t : Ty) (n : String) (u : Ty) :
    (register e (register e f t) t).typeNames n = (register e f t).typeNames n ∧
    (u ∈ (register e (register e f t) t).types ↔ u ∈ (register e f t).types) ∧
    (register e (register e f t) t).typeOvr = f.typeOvr ∧ (register e (register e f t) t).inst = f.inst := by
  refine ⟨?_, ?_, ?_, ?_⟩
  · rw [register_names e (register e f t)]
    split
    · rename_i h
      have := register_names e f t n
      rw [h.2.2] at this
      split at this
      · cases this
      · rename_i hc
        exact absurd ⟨h.1, h.2.1, this.symm⟩ hc
    · rfl
  · rw [register_types, register_types]; simp
  · rw [(register_typeOvr _ _ _).1, (register_typeOvr _ _ _).1]
  · rw [(register_typeOvr _ _ _).2.1, (register_typeOvr _ _ _).2.1]

/-- C22: creating by a name that no registered type has, and that no override was registered for, creates nothing. -/
theorem C22_unknown_name (e : Env) (f : Factory) (fuel : Nat) (n parent name : String) (h1 : f.typeNames n = none)
    (h2 : ∀ o ∈ f.typeOvr, o.origName ≠ n) : createByName e f fuel n parent name = .unknown := by
  have : f.typeOvr.find? (·.origName == n) = none := by
    rw [List.find?_eq_none]; intro o ho; simpa using h2 o ho
  simp [createByName, findByName, h1, this]

example : createByName exEnv exChain 10 "Z" "top" "x" = .unknown ∧ createByName exEnv exChain 10 "C" "top" "x" = .found 2 false := by decide

/-- C22 fails in the code: after `set_type_override_by_name("A", "B")` the name "A" is registered for B. -/
theorem C22_override_redirects_name_fails :
    ∃ f : Factory, Reachable exEnv f ∧ f.typeNames "A" = some 0 ∧ (setTypeByName exEnv f "A" "B" .true_).typeNames "A" = some 1 :=
  ⟨_, (Reachable.init.step 10 (.register 0) (by simp)).step 10 (.register 1) (by simp), by decide⟩

/-- C22: the registry creates instances of the class that was registered under the proxy's name. -/
theorem C22_registry_creates (c : Classes) (regs : List (String × Nat)) (n : String) :
    construct (regs.foldl (fun c r => addClass c r.1 r.2) c) n =
      match regs.reverse.find? (fun r => r.1 == n) with
      | some r => some r.2
      | none => c n := by
  obtain ⟨r, rfl⟩ : ∃ r, regs = List.reverse r := ⟨regs.reverse, by simp⟩
  induction r with
  | nil => rfl
  | cons a r ih =>
    rw [List.reverse_cons, List.foldl_append]
    simp only [List.foldl_cons, List.foldl_nil, List.reverse_append, List.reverse_reverse, List.reverse_cons, List.reverse_nil,
      List.nil_append, List.singleton_append, List.find?_cons, construct, addClass] at ih ⊢
    by_cases h : n = a.1
    · simp [h]
    · have : (a.1 == n) = false := by simpa using Ne.symm h
      simp only [h, if_false, this]
      exact ih

example : construct ([("A", 1), ("B", 2)].foldl (fun c r => addClass c r.1 r.2) (fun _ => none)) "A" = some 1 := by decide

/-- C22 fails in the code: two classes registered under one name share the dictionary entry: the proxy of the first creates instances
of the second, although the factory keeps the first registration. -/
theorem C22_same_name_creates_other_class_fails :
    construct (addClass (addClass (fun _ => none) "A" 1) "A" 2) "A" = some 2 := by decide

end Verif.Factory
