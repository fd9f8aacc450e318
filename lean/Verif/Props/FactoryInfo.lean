import Verif.Spec.FactoryInfo
import Verif.Props.Factory
/-! # Properties C300 (debug_create tells what is created), C301 (debug_create changes nothing), C302 (print_factory) -/
namespace Verif.Factory

theorem mark_eq (l : List Ovr) : mark l = l.zipIdx.map (fun x => (x.1, decide (x.2 = 0))) := by
  cases l with
  | nil => rfl
  | cons o os =>
    simp only [mark, List.zipIdx_cons, List.map_cons, decide_true, List.cons.injEq, true_and]
    suffices h : ∀ k, 0 < k → os.map (fun x => (x, false)) = (os.zipIdx k).map (fun x => (x.1, decide (x.2 = 0))) from h 1 (by omega)
    induction os with
    | nil => intro k _; rfl
    | cons a os ih =>
      intro k hk
      simp only [List.map_cons, List.zipIdx_cons]
      rw [← ih (k + 1) (by omega)]
      have : decide (k = 0) = false := by simp; omega
      rw [this]

theorem mark_fst (l : List Ovr) : (mark l).map (·.1) = l := by
  cases l with
  | nil => rfl
  | cons o os => simp [mark, Function.comp_def]

theorem applicable_eq {e : Env} {f : Factory} (h : Inv e f) (hn : UniqueNames e) (path : String) (t : Ty) :
    applicable e f path t = candidates e f t path := by
  rw [candidates_eq h hn, applicable]
  by_cases hp : path = "" <;> simp [hp]

theorem any_mark (l : List Ovr) (p : Ovr → Bool) : (mark l).any (fun x => p x.1) = l.any p := by
  cases l with
  | nil => rfl
  | cons o os => simp [mark, List.any_map, Function.comp_def]

/-- The debugging pass and the ordinary one meet the same types. -/
theorem debug_sim {e : Env} {f : Factory} (h : Inv e f) (hn : UniqueNames e) (path : String) :
    ∀ (fuel : Nat) (t : Ty) (infoR : List Ovr) (infoD : List (Ovr × Bool)),
    (∀ u, infoR.any (·.orig == some u) = infoD.any (·.1.orig == some u)) →
    (∀ r, findByType e f path fuel t infoR = .found r false →
      ∃ us, Visits e f path t us r ∧ debugFind e f path fuel t infoD = some ⟨infoD ++ us.flatMap (rowsOf e f path), r, false⟩) ∧
    (∀ r, findByType e f path fuel t infoR = .found r true → ∃ info, debugFind e f path fuel t infoD = some ⟨info, r, true⟩) := by
  intro fuel
  induction fuel with
  | zero => intro t infoR infoD _; simp [findByType]
  | succ fuel ih =>
    intro t infoR infoD hany
    unfold findByType debugFind
    cases hi : infoR.findIdx? (·.orig == some t) with
    | some i =>
      have hd : infoD.any (·.1.orig == some t) = true := by
        rw [← hany, List.any_eq_true]
        obtain ⟨hlt, hp, _⟩ := List.findIdx?_eq_some_iff_getElem.mp hi
        exact ⟨_, List.getElem_mem hlt, hp⟩
      simp only [hd, if_true]
      constructor
      · intro r hr
        exfalso
        revert hr
        split
        · split
          · simp
          · split <;> simp
        · simp
      · intro r hr
        refine ⟨infoD, ?_⟩
        have : t = r := by
          revert hr
          split
          · split
            · simp
            · split <;> simp
          · simp
        rw [this]
    | none =>
      have hd : infoD.any (·.1.orig == some t) = false := by
        rw [← hany, List.any_eq_false]
        rw [List.findIdx?_eq_none_iff] at hi
        intro x hx; simpa using hi x hx
      simp only [hd, Bool.false_eq_true, if_false]
      have hrow : rowsOf e f path t = mark (candidates e f t path) := by rw [rowsOf, applicable_eq h hn, mark_eq]
      cases hc : candidates e f t path with
      | nil =>
        refine ⟨fun r hr => ?_, fun r hr => ?_⟩
        · simp only [Res.found.injEq, and_true] at hr
          subst hr
          refine ⟨[t], .stop ?_, by simp [hrow, hc, mark]⟩
          intro u hu
          rw [step_iff h hn, hc] at hu
          obtain ⟨_, _, h', _⟩ := hu
          cases h'
        · simp at hr
      | cons o os =>
        simp only
        by_cases hot : o.ovrd = t
        · simp only [hot, if_true]
          refine ⟨fun r hr => ?_, fun r hr => ?_⟩
          · simp only [Res.found.injEq, and_true] at hr
            subst hr
            refine ⟨[t], .stop ?_, by simp [hrow, hc]⟩
            intro u hu
            rw [step_iff h hn, hc] at hu
            obtain ⟨o', _, h', h2, h3⟩ := hu
            cases h'
            exact h3 (h2.symm.trans hot)
          · simp at hr
        · simp only [hot, if_false]
          have ho : ∀ x ∈ o :: os, x.orig = some t := fun x hx => candidates_orig h hn (path := path) (by rw [hc]; exact hx)
          have hs : Step e f path t o.ovrd := (step_iff h hn path t o.ovrd).mpr ⟨o, os, hc, rfl, hot⟩
          obtain ⟨ih1, ih2⟩ := ih o.ovrd (infoR ++ [o]) (infoD ++ mark (o :: os)) (by
            intro u
            rw [List.any_append, List.any_append, hany u]
            have := any_mark (o :: os) (fun x => x.orig == some u)
            rw [this]
            congr 1
            have h1 := ho o (by simp)
            by_cases hut : t = u
            · simp [h1, hut]
            · have h3 : (o :: os).any (fun x => x.orig == some u) = false := by
                rw [List.any_eq_false]; intro x hx; rw [ho x hx]; simpa using hut
              rw [h3]; simp [h1, hut])
          refine ⟨fun r hr => ?_, fun r hr => ih2 r hr⟩
          obtain ⟨us, hv, hd⟩ := ih1 r hr
          refine ⟨t :: us, .next hs hv, ?_⟩
          rw [hd]
          simp [hrow, hc]

theorem candidates_congr (e : Env) {f g : Factory} (h1 : g.typeOvr = f.typeOvr) (h2 : g.inst = f.inst) (t : Ty) (path : String) :
    candidates e g t path = candidates e f t path := by simp [candidates, h1, h2]

theorem debugFind_congr (e : Env) {f g : Factory} (h1 : g.typeOvr = f.typeOvr) (h2 : g.inst = f.inst) (path : String) :
    ∀ fuel t info, debugFind e g path fuel t info = debugFind e f path fuel t info := by
  intro fuel
  induction fuel with
  | zero => intros; rfl
  | succ fuel ih =>
    intro t info
    unfold debugFind
    rw [candidates_congr e h1 h2]
    split
    · rfl
    · split
      · rfl
      · split
        · rfl
        · exact ih _ _

/-- C300: when an object can be created without a loop, `debug_create_by_type` of the same request lists, for each type the request is passed
on through, the overrides that match, with an "x" at all but the first, and ends with the name of the type that is created. -/
theorem C300_by_type (e : Env) (f : Factory) (hf : Reachable e f) (hn : UniqueNames e) (fuel : Nat) (t r : Ty) (parent name : String)
    (h : createByType e f fuel t parent name = .found r false) :
    ∃ us, Visits e f (instPath parent name) t us r ∧
      (debugByType e f fuel t parent name).2 = .dump ⟨us.flatMap (rowsOf e f (instPath parent name)), e.name r, false⟩ := by
  obtain ⟨us, hv, hd⟩ := (debug_sim (reachable_inv hf) hn (instPath parent name) fuel t [] [] (by simp)).1 r h
  refine ⟨us, hv, ?_⟩
  have hc := debugFind_congr e (ensure_typeOvr e f t).1 (ensure_typeOvr e f t).2.1 (instPath parent name) fuel t []
  simp only [debugByType]
  rw [hc, hd]
  simp

/-- C300: when creating the object meets a loop, `debug_create_by_type` reports the loop too and names the type that is created. -/
theorem C300_by_type_loop (e : Env) (f : Factory) (hf : Reachable e f) (hn : UniqueNames e) (fuel : Nat) (t r : Ty) (parent name : String)
    (h : createByType e f fuel t parent name = .found r true) :
    ∃ rows, (debugByType e f fuel t parent name).2 = .dump ⟨rows, e.name r, true⟩ := by
  obtain ⟨info, hd⟩ := (debug_sim (reachable_inv hf) hn (instPath parent name) fuel t [] [] (by simp)).2 r h
  refine ⟨info, ?_⟩
  have hc := debugFind_congr e (ensure_typeOvr e f t).1 (ensure_typeOvr e f t).2.1 (instPath parent name) fuel t []
  simp only [debugByType]
  rw [hc, hd]

example : createByType exEnv exChain 10 0 "top" "x" = .found 3 false ∧ (debugByType exEnv exChain 10 0 "top" "x").2 =
    .dump ⟨[(⟨"*", some 0, "A", 1⟩, true), (⟨"top.x", some 1, "B", 3⟩, true), (⟨"*", some 1, "B", 2⟩, false)], "D", false⟩ := by decide

example : createByType exEnv exLoop 10 0 "top" "x" = .found 0 true := by decide

/-- C300 (partial): `debug_create_by_name` of a registered name ends with the name of the type that creating by that name makes.  Missing: it may
report a loop which creating does not meet (`C300_spurious_loop_fails`), and it raises for unknown names (`C300_unknown_name_fails`). -/
theorem C300_by_name_partial (e : Env) (f : Factory) (hf : Reachable e f) (hn : UniqueNames e)
    (hm : ∀ t n, e.isMatch (e.name t) n = true → e.name t = n) (fuel : Nat) (lookup : Bool) (rn parent name : String) (r : Ty) (b : Bool)
    (hreg : (f.typeNames rn).isSome) (h : createByName e f (fuel + 1) rn parent name = .found r b) :
    ∃ rows loop, (debugByName e f (fuel + 1) lookup rn parent name).2 = .dump ⟨rows, e.name r, loop⟩ := by
  have hi := reachable_inv hf
  obtain ⟨t, ht⟩ := Option.isSome_iff_exists.mp hreg
  have hu : usable rn = true := (hi.names rn t ht).1
  simp only [debugByName, ht, Option.isNone_some, Bool.false_and, Bool.false_eq_true, if_false]
  simp only [createByName, findByName, ht] at h
  have hnc : namedCandidates e f rn (instPath parent name) =
      (if instPath parent name ≠ "" then (queue f.inst t).filter (fun o => e.isMatch o.origName rn && e.isMatch o.path (instPath parent name))
        else []) ++ f.typeOvr.filter (·.origName == rn) := by simp [namedCandidates, ht]
  have horig : ∀ o ∈ namedCandidates e f rn (instPath parent name), ∃ u, o.orig = some u ∧ e.name u = rn := by
    intro o ho
    rw [hnc] at ho
    rcases List.mem_append.mp ho with ho | ho
    · split at ho
      · simp only [List.mem_filter, Bool.and_eq_true] at ho
        obtain ⟨h1, h2⟩ := hi.inst t o ho.1
        rw [h2] at ho
        exact ⟨t, h1, hm t rn ho.2.1⟩
      · simp at ho
    · simp only [List.mem_filter, beq_iff_eq] at ho
      obtain ⟨u, h1, h2⟩ := hi.tys o ho.1
      exact ⟨u, h1, h2.symm.trans ho.2⟩
  generalize instPath parent name = path at *
  have key : ∀ o os, namedCandidates e f rn path = o :: os →
      (∀ r, findByType e f path (fuel + 1) o.ovrd [o] = .found r b →
        ∃ info loop, debugFind e f path (fuel + 1) o.ovrd (mark (o :: os)) = some ⟨info, r, loop⟩) := by
    intro o os hc r hr
    have hany : ∀ u, [o].any (·.orig == some u) = (mark (o :: os)).any (·.1.orig == some u) := by
      intro u
      have := any_mark (o :: os) (fun x => x.orig == some u)
      rw [this]
      obtain ⟨w, hw1, hw2⟩ := horig o (by rw [hc]; simp)
      by_cases hwu : w = u
      · simp [hw1, hwu]
      · have h3 : (o :: os).any (fun x => x.orig == some u) = false := by
          rw [List.any_eq_false]
          intro x hx
          obtain ⟨w', h1, h2⟩ := horig x (by rw [hc]; exact hx)
          have : w = w' := hn w w' (by rw [hw2]; exact hu) (hw2.trans h2.symm)
          rw [h1, ← this]; simpa using hwu
        rw [h3]; simp [hw1, hwu]
    obtain ⟨s1, s2⟩ := debug_sim hi hn path (fuel + 1) o.ovrd [o] (mark (o :: os)) hany
    cases b with
    | false => obtain ⟨us, _, hd⟩ := s1 r hr; exact ⟨_, _, hd⟩
    | true => obtain ⟨info, hd⟩ := s2 r hr; exact ⟨_, _, hd⟩
  -- the instance overrides that match
  cases hinst : (if path ≠ "" then (queue f.inst t).filter (fun o => e.isMatch o.origName rn && e.isMatch o.path path) else []) with
  | cons o os =>
    have hfind : (if path ≠ "" then (queue f.inst t).find? (fun o => e.isMatch o.origName rn && e.isMatch o.path path) else none) = some o := by
      split at hinst
      · rename_i hp
        rw [if_pos hp, ← List.head?_filter, hinst]; rfl
      · simp at hinst
    rw [hfind] at h
    have hc : namedCandidates e f rn path = o :: (os ++ f.typeOvr.filter (·.origName == rn)) := by rw [hnc, hinst]; rfl
    rw [hc]
    simp only at h ⊢
    by_cases hself : e.name o.ovrd = rn
    · simp only [hself, if_true, Res.found.injEq] at h
      obtain ⟨w, hw1, hw2⟩ := horig o (by rw [hc]; simp)
      have hw : w = o.ovrd := hn w o.ovrd (by rw [hw2]; exact hu) (hw2.trans hself.symm)
      have : (mark (o :: (os ++ f.typeOvr.filter (·.origName == rn)))).any (·.1.orig == some o.ovrd) = true := by
        simp [mark, hw1, hw]
      unfold debugFind
      rw [if_pos this]
      exact ⟨_, _, by rw [h.1]⟩
    · simp only [hself, if_false] at h
      obtain ⟨info, loop, hd⟩ := key _ _ hc r h
      rw [hd]
      exact ⟨_, _, rfl⟩
  | nil =>
    have hfind : (if path ≠ "" then (queue f.inst t).find? (fun o => e.isMatch o.origName rn && e.isMatch o.path path) else none) = none := by
      split at hinst
      · rename_i hp
        rw [if_pos hp, ← List.head?_filter, hinst]; rfl
      · rename_i hp; rw [if_neg hp]
    rw [hfind] at h
    simp only at h
    cases hty : f.typeOvr.filter (·.origName == rn) with
    | nil =>
      have : f.typeOvr.find? (·.origName == rn) = none := by rw [← List.head?_filter, hty]; rfl
      rw [this] at h
      simp only [Res.found.injEq] at h
      have hc : namedCandidates e f rn path = [] := by rw [hnc, hinst, hty]; rfl
      rw [hc]
      refine ⟨[], false, ?_⟩
      have : e.name r = rn := by
        rw [← h.1]
        rcases (hi.names rn t ht).2 with h1 | ⟨o, ho, h1⟩
        · exact h1
        · have := List.filter_eq_nil_iff.mp hty o ho
          simp [h1] at this
      rw [this]
    | cons o os =>
      have : f.typeOvr.find? (·.origName == rn) = some o := by rw [← List.head?_filter, hty]; rfl
      rw [this] at h
      simp only at h
      have hc : namedCandidates e f rn path = o :: os := by rw [hnc, hinst, hty]; rfl
      rw [hc]
      simp only
      obtain ⟨info, loop, hd⟩ := key _ _ hc r h
      rw [hd]
      exact ⟨_, _, rfl⟩

example : (exChain.typeNames "A").isSome ∧ createByName exEnv exChain 10 "A" "top" "x" = .found 3 false ∧
    (debugByName exEnv exChain 10 false "A" "top" "x").2 =
      .dump ⟨[(⟨"*", some 0, "A", 1⟩, true), (⟨"top.x", some 1, "B", 3⟩, true), (⟨"*", some 1, "B", 2⟩, false)], "D", false⟩ := by decide

/-- C300 fails in the code: an instance override of A by A itself (to keep a type override away) creates A without complaint by name,
but `debug_create_by_name` reports a loop. -/
theorem C300_spurious_loop_fails :
    ∃ f : Factory, Reachable exEnv f ∧ createByName exEnv f 10 "A" "top" "x" = .found 0 false ∧
      ∃ rows, (debugByName exEnv f 10 false "A" "top" "x").2 = .dump ⟨rows, "A", true⟩ :=
  ⟨_, (Reachable.init.step 10 (.typeByType 0 1 .true_) (by simp)).step 10 (.inst 0 0 "top.x") (by simp), by decide,
    [(⟨"top.x", some 0, "A", 0⟩, true), (⟨"*", some 0, "A", 1⟩, false)], by decide⟩

/-- C300 fails in the code: for a name the factory does not know, instead of the warning `TypeError` is raised. -/
theorem C300_unknown_name_fails (e : Env) (f : Factory) (fuel : Nat) (rn parent name : String) (h : f.typeNames rn = none) :
    (debugByName e f fuel false rn parent name).2 = .typeError ∧ (debugByName e f fuel false rn parent name).1 = f := by
  simp [debugByName, h]

/-- C300: for a name that has only been given as the original of an override by name, with no override left for it, the name itself is printed. -/
theorem C300_looked_up (e : Env) (f : Factory) (fuel : Nat) (rn parent name : String) (h : f.typeNames rn = none)
    (hno : ∀ o ∈ f.typeOvr, o.origName ≠ rn) :
    (debugByName e f fuel true rn parent name).2 = .dump ⟨[], rn, false⟩ := by
  have : f.typeOvr.filter (·.origName == rn) = [] := by
    rw [List.filter_eq_nil_iff]; intro o ho; simpa using hno o ho
  simp [debugByName, namedCandidates, h, this]

/-! ## C301 -/

theorem findByType_congr (e : Env) {f g : Factory} (h1 : g.typeOvr = f.typeOvr) (h2 : g.inst = f.inst) (h3 : g.debugPass = false)
    (path : String) : ∀ fuel t info r b, findByType e f path fuel t info = .found r b → findByType e g path fuel t info = .found r b := by
  intro fuel
  induction fuel with
  | zero => intro t info r b h; simp [findByType] at h
  | succ fuel ih =>
    intro t info r b
    unfold findByType
    rw [candidates_congr e h1 h2]
    cases info.findIdx? (·.orig == some t) with
    | some i =>
      simp only [h3, Bool.false_eq_true, if_false]
      split
      · split
        · simp
        · split <;> simp
      · simp
    | none =>
      simp only
      split
      · exact id
      · split
        · exact id
        · exact ih _ _ _ _

theorem debugByType_state (e : Env) (f : Factory) (fuel : Nat) (t : Ty) (parent name : String)
    (h : (debugByType e f fuel t parent name).2 ≠ .recursion) : (debugByType e f fuel t parent name).1 = afterDebug (ensure e f t) := by
  simp only [debugByType] at h ⊢
  split <;> simp_all

theorem debugByName_state (e : Env) (f : Factory) (fuel : Nat) (lookup : Bool) (rn parent name : String)
    (h : (debugByName e f fuel lookup rn parent name).2 ≠ .recursion) :
    (debugByName e f fuel lookup rn parent name).1 = f ∨ (debugByName e f fuel lookup rn parent name).1 = afterDebug f := by
  simp only [debugByName] at h ⊢
  (repeat' split) <;> simp_all

/-- C301: whatever is asked with `debug_create_by_type` or `debug_create_by_name`, every later request by type is answered as it would have been. -/
theorem C301_creation_by_type (e : Env) (f : Factory) (fuel fuel' : Nat) (t q : Ty) (lookup : Bool) (rn parent name parent' name' : String)
    (r : Ty) (b : Bool) (h : createByType e f fuel' q parent' name' = .found r b) :
    ((debugByType e f fuel t parent name).2 ≠ .recursion →
      createByType e (debugByType e f fuel t parent name).1 fuel' q parent' name' = .found r b) ∧
    ((debugByName e f fuel lookup rn parent name).2 ≠ .recursion →
      createByType e (debugByName e f fuel lookup rn parent name).1 fuel' q parent' name' = .found r b) := by
  constructor
  · intro hd
    rw [debugByType_state e f fuel t parent name hd]
    exact findByType_congr e (f := f) (g := afterDebug (ensure e f t)) (ensure_typeOvr e f t).1 (ensure_typeOvr e f t).2.1 rfl _ _ _ _ _ _ h
  · intro hd
    rcases debugByName_state e f fuel lookup rn parent name hd with hs | hs <;> rw [hs]
    · exact h
    · exact findByType_congr e (f := f) (g := afterDebug f) rfl rfl rfl _ _ _ _ _ _ h

/-- C301 (partial): every later request by a name that is registered is answered as it would have been.  Missing: names that are not registered
(`C301_registers_fails`). -/
theorem C301_creation_by_name_partial (e : Env) (f : Factory) (fuel fuel' : Nat) (t : Ty) (lookup : Bool)
    (n rn parent name parent' name' : String) (r : Ty) (b : Bool) (hreg : (f.typeNames n).isSome)
    (h : createByName e f fuel' n parent' name' = .found r b) :
    ((debugByType e f fuel t parent name).2 ≠ .recursion →
      createByName e (debugByType e f fuel t parent name).1 fuel' n parent' name' = .found r b) ∧
    ((debugByName e f fuel lookup rn parent name).2 ≠ .recursion →
      createByName e (debugByName e f fuel lookup rn parent name).1 fuel' n parent' name' = .found r b) := by
  have key : ∀ g : Factory, g.typeOvr = f.typeOvr → g.inst = f.inst → g.debugPass = false → g.typeNames n = f.typeNames n →
      createByName e g fuel' n parent' name' = .found r b := by
    intro g h1 h2 h3 h4
    simp only [createByName, findByName, h1, h2, h4] at h ⊢
    generalize (if instPath parent' name' ≠ "" then _ else (none : Option Ovr)) = A at h ⊢
    cases A with
    | some o =>
      simp only at h ⊢
      split
      · rename_i hs; rw [if_pos hs] at h; exact h
      · rename_i hs; rw [if_neg hs] at h; exact findByType_congr e h1 h2 h3 _ _ _ _ _ _ h
    | none =>
      simp only at h ⊢
      generalize f.typeOvr.find? (·.origName == n) = B at h ⊢
      cases B with
      | some o => exact findByType_congr e h1 h2 h3 _ _ _ _ _ _ h
      | none => exact h
  constructor
  · intro hd
    rw [debugByType_state e f fuel t parent name hd]
    refine key _ (ensure_typeOvr e f t).1 (ensure_typeOvr e f t).2.1 rfl ?_
    show (ensure e f t).typeNames n = f.typeNames n
    unfold ensure
    split
    · rfl
    · rw [register_names]
      obtain ⟨w, hw⟩ := Option.isSome_iff_exists.mp hreg
      simp [hw]
  · intro hd
    rcases debugByName_state e f fuel lookup rn parent name hd with hs | hs <;> rw [hs]
    · exact h
    · exact key _ rfl rfl rfl rfl

example : createByName exEnv exChain 10 "A" "top" "y" = .found 2 false ∧ (debugByType exEnv exChain 10 1 "top" "x").2 ≠ .recursion ∧
    (debugByName exEnv exChain 10 false "B" "top" "x").2 ≠ .recursion := by decide

/-- C301 fails in the code: asking `debug_create_by_type` about a type that is not registered registers it, so that it can be created by
name afterwards. -/
theorem C301_registers_fails :
    createByName exEnv {} 10 "A" "top" "x" = .unknown ∧
      createByName exEnv (debugByType exEnv {} 10 0 "" "").1 10 "A" "top" "x" = .found 0 false := by decide

/-- C301: after one answered query a loop is always reported as a loop: creating by type does not raise `IndexError` any more. -/
theorem C301_no_index_error (e : Env) (f : Factory) (fuel fuel' : Nat) (t q : Ty) (parent name parent' name' : String)
    (hd : (debugByType e f fuel t parent name).2 ≠ .recursion) :
    createByType e (debugByType e f fuel t parent name).1 fuel' q parent' name' ≠ .indexError := by
  rw [debugByType_state e f fuel t parent name hd]
  suffices h : ∀ (g : Factory) path, g.debugPass = false → ∀ fuel t info, findByType e g path fuel t info ≠ .indexError from h _ _ rfl _ _ _
  intro g path hg fuel
  induction fuel with
  | zero => intro t info; simp [findByType]
  | succ fuel ih =>
    intro t info
    unfold findByType
    simp only [hg, Bool.false_eq_true, if_false]
    split
    · simp
    · split
      · simp
      · split
        · simp
        · exact ih _ _

/-! ## C302 -/

theorem sortedQueues_eq (inst : List (Ty × List Ovr)) :
    sortedQueues inst = match inst.getLast? with
      | none => []
      | some q => [("uvm_queue", q.2)] := by
  suffices h : ∀ (l : List (Ty × List Ovr)) d, d = [] ∨ (∃ v, d = [("uvm_queue", v)]) →
      l.foldl (fun d x => setKey d "uvm_queue" x.2) d = match l.getLast? with
        | none => d
        | some q => [("uvm_queue", q.2)] from h inst [] (Or.inl rfl)
  intro l
  induction l with
  | nil => intro d _; rfl
  | cons a l ih =>
    intro d hd
    have hk : setKey d "uvm_queue" a.2 = [("uvm_queue", a.2)] := by
      rcases hd with rfl | ⟨v, rfl⟩ <;> simp [setKey]
    simp only [List.foldl_cons, hk]
    rw [ih _ (Or.inr ⟨_, rfl⟩)]
    cases l with
    | nil => rfl
    | cons b l =>
      rw [List.getLast?_cons_cons]
      cases hl : (b :: l).getLast? with
      | none => simp at hl
      | some q => rfl

/-- C302 fails in the code, for every factory: of the instance overrides only those of the original type that got its first instance override
last are printed. -/
theorem C302_instance_overrides_fails (e : Env) (s : PF) (all : Int) :
    (convert2string e s all).instRows =
      match s.f.inst.getLast? with
      | none => []
      | some q => q.2.map (fun o => (o.origName, o.path, e.name o.ovrd)) := by
  simp only [convert2string, sortedQueues_eq]
  cases s.f.inst.getLast? <;> simp

/-- Two instance overrides, of A and of B: the one of A is not printed. -/
example : (convert2string exEnv ([Op.inst 0 2 "top.x", .inst 1 3 "top.y"].foldl (stepP exEnv 10) {}) 1).instRows = [("B", "top.y", "D")] := by
  decide

theorem replaceNames_length (p : Ovr → Bool) (n : String) : ∀ (os : List Ovr) (ss : List String), (replaceNames p n os ss).length = ss.length
  | [], ss => by simp [replaceNames]
  | _ :: _, [] => by simp [replaceNames]
  | o :: os, s :: ss => by simp [replaceNames, replaceNames_length p n os ss]

theorem replaceNames_map (e : Env) (p : Ovr → Bool) (v : Ty) (g : Ovr → Ovr) (hg : ∀ o, (g o).ovrd = v) :
    ∀ (os : List Ovr), replaceNames p (e.name v) os (os.map (fun o => e.name o.ovrd)) =
      (os.map (fun o => if p o then g o else o)).map (fun o => e.name o.ovrd)
  | [] => rfl
  | o :: os => by
    simp only [List.map_cons, replaceNames, replaceNames_map e p v g hg os]
    by_cases h : p o = true <;> simp [h, hg]

/-- The stored names are those of the overriding types, as long as no override by name was given a name that stands for another type. -/
theorem ovrdNames_eq (e : Env) (fuel : Nat) (s : PF) (op : Op) (h : s.ovrdNames = s.f.typeOvr.map (fun o => e.name o.ovrd))
    (hop : ∀ on vn r v, op = .typeByName on vn r → s.f.typeNames vn = some v → e.name v = vn) :
    (stepP e fuel s op).ovrdNames = (stepP e fuel s op).f.typeOvr.map (fun o => e.name o.ovrd) := by
  cases op with
  | register t => simp [stepP, stepNames, step, (register_typeOvr e s.f t).1, h]
  | typeByType o v r =>
    have h1 : (ensure e (ensure e s.f o) v).typeOvr = s.f.typeOvr := by
      rw [(ensure_typeOvr e _ v).1, (ensure_typeOvr e s.f o).1]
    simp only [stepP, stepNames, step, setTypeByType, h1]
    by_cases ha : s.f.typeOvr.any (typeApplies e o) = true
    · simp only [ha, if_true]
      by_cases hr : r = .false_
      · simp [hr, h, h1]
      · simp only [hr, if_false]
        rw [h]
        exact replaceNames_map e (typeApplies e o) v (fun x => { x with orig := some o, origName := e.name o, ovrd := v }) (fun _ => rfl) _
    · simp [ha, h, mkOvr]
  | typeByName on vn r =>
    simp only [stepP, stepNames, step, setTypeByName]
    cases hv : s.f.typeNames vn with
    | none => simpa using h
    | some v =>
      simp only
      by_cases hon : on = vn
      · simpa [hon] using h
      · simp only [hon, if_false]
        by_cases ha : s.f.typeOvr.any (·.origName == on) = true
        · simp only [ha, if_true]
          by_cases hr : r.truthy = false
          · simpa [hr] using h
          · simp only [hr, Bool.false_eq_true, if_false]
            rw [h, ← hop on vn r v rfl hv]
            exact replaceNames_map e (·.origName == on) v (fun x => { x with ovrd := v }) (fun _ => rfl) _
        · simp [ha, h, mkOvr]
  | inst o v p => simpa [stepP, stepNames, step, setInst_typeOvr] using h
  | create t p n => simpa [stepP, stepNames, step] using h
  | createByName t p n => simpa [stepP, stepNames, step] using h

/-- Histories in which overrides by name are only set to names that stand for the type of that name. -/
inductive PReach (e : Env) : PF → Prop
  | init : PReach e {}
  | step {s} (fuel : Nat) (op : Op) : PReach e s →
      (∀ on vn r v, op = .typeByName on vn r → s.f.typeNames vn = some v → e.name v = vn) → PReach e (stepP e fuel s op)

/-- C302 (partial): the type overrides are printed one by one, each with the name of its original type and of the type that replaces it.
Missing: overrides by a name that has been overridden itself (`C302_stale_name_fails`), and the instance overrides. -/
theorem C302_type_overrides_partial (e : Env) (s : PF) (hs : PReach e s) (all : Int) :
    (convert2string e s all).typeRows = s.f.typeOvr.map (fun o => (o.origName, e.name o.ovrd)) := by
  have h : s.ovrdNames = s.f.typeOvr.map (fun o => e.name o.ovrd) := by
    induction hs with
    | init => rfl
    | step fuel op _ hop ih => exact ovrdNames_eq e fuel _ op ih hop
  simp only [convert2string, h]
  generalize s.f.typeOvr = l
  induction l with
  | nil => rfl
  | cons o l ih => simp only [List.map_cons, List.zip_cons_cons, ih]

/-- C302 fails in the code: with B overridden by C by name, overriding A by "B" (again, to replace an earlier override) prints "B", but C is created. -/
theorem C302_stale_name_fails :
    let s := [Op.register 0, .register 1, .register 2, .register 3, .typeByName "A" "D" .true_, .typeByName "B" "C" .true_,
      .typeByName "A" "B" .true_].foldl (stepP exEnv 10) {}
    (convert2string exEnv s 1).typeRows = [("A", "B"), ("B", "C")] ∧ createByType exEnv s.f 10 0 "" "x" = .found 2 false ∧
      (s.f.typeOvr.map (·.ovrd)) = [2, 2] := by decide

/-! ### The list of types -/

/-- The ordered keys are the keys of the dictionary. -/
structure KeysOk (s : PF) : Prop where
  nodup : s.keys.Nodup
  mem : ∀ n, n ∈ s.keys ↔ (s.f.typeNames n).isSome

theorem addKey_nodup {ks : List String} (h : ks.Nodup) (n : String) : (addKey ks n).Nodup := by
  unfold addKey
  split
  · exact h
  · rename_i hc
    rw [List.nodup_append]
    refine ⟨h, by simp, ?_⟩
    intro a ha b hb
    simp only [List.mem_singleton] at hb
    subst hb
    rintro rfl
    exact hc (by simpa using ha)

theorem mem_addKey (ks : List String) (n m : String) : m ∈ addKey ks n ↔ m ∈ ks ∨ m = n := by
  unfold addKey
  split
  · rename_i hc
    have : n ∈ ks := by simpa using hc
    constructor
    · exact Or.inl
    · rintro (h | rfl)
      · exact h
      · exact this
  · simp

theorem keysOk_reg (e : Env) (f : Factory) (ks : List String) (t : Ty) (h1 : ks.Nodup) (h2 : ∀ n, n ∈ ks ↔ (f.typeNames n).isSome) :
    (regKey e f ks t).Nodup ∧ ∀ n, n ∈ regKey e f ks t ↔ ((register e f t).typeNames n).isSome := by
  unfold regKey
  refine ⟨?_, fun n => ?_⟩
  · split
    · exact addKey_nodup h1 _
    · exact h1
  · rw [register_names]
    by_cases hu : usable (e.name t) = true
    · by_cases hn : n = e.name t
      · subst hn
        cases hw : f.typeNames (e.name t) with
        | none => simp [hu, mem_addKey]
        | some w => simp [hu, h2, hw]
      · cases hw : f.typeNames (e.name t) with
        | none => simp [hu, mem_addKey, hn, h2]
        | some w => simp [hu, hn, h2]
    · simp [hu, h2]

theorem keysOk_ensure (e : Env) (f : Factory) (ks : List String) (t : Ty) (h1 : ks.Nodup) (h2 : ∀ n, n ∈ ks ↔ (f.typeNames n).isSome) :
    (ensureKey e f ks t).Nodup ∧ ∀ n, n ∈ ensureKey e f ks t ↔ ((ensure e f t).typeNames n).isSome := by
  unfold ensureKey ensure
  split
  · exact ⟨h1, h2⟩
  · exact keysOk_reg e f ks t h1 h2

theorem keysOk_step (e : Env) (fuel : Nat) (s : PF) (op : Op) (h : KeysOk s) : KeysOk (stepP e fuel s op) := by
  cases op with
  | register t =>
    obtain ⟨a, b⟩ := keysOk_reg e s.f s.keys t h.nodup h.mem
    exact ⟨a, b⟩
  | typeByType o v r =>
    obtain ⟨a, b⟩ := keysOk_ensure e s.f s.keys o h.nodup h.mem
    obtain ⟨c, d⟩ := keysOk_ensure e _ _ v a b
    refine ⟨c, fun n => ?_⟩
    have : (setTypeByType e s.f o v r).typeNames = (ensure e (ensure e s.f o) v).typeNames := by
      unfold setTypeByType
      simp only; (repeat' split) <;> rfl
    show n ∈ ensure2Keys e s.f s.keys o v ↔ ((setTypeByType e s.f o v r).typeNames n).isSome
    rw [this]
    exact d n
  | inst o v p =>
    obtain ⟨a, b⟩ := keysOk_ensure e s.f s.keys o h.nodup h.mem
    obtain ⟨c, d⟩ := keysOk_ensure e _ _ v a b
    refine ⟨c, fun n => ?_⟩
    have : (setInst e s.f o v p).typeNames = (ensure e (ensure e s.f o) v).typeNames := by
      unfold setInst
      simp only; split <;> rfl
    show n ∈ ensure2Keys e s.f s.keys o v ↔ ((setInst e s.f o v p).typeNames n).isSome
    rw [this]
    exact d n
  | typeByName on vn r =>
    constructor
    · simp only [stepP, stepKeys]
      split
      · exact addKey_nodup h.nodup _
      · exact h.nodup
    · intro n
      simp only [stepP, stepKeys, step, setTypeByName]
      cases hv : s.f.typeNames vn with
      | none => simpa using h.mem n
      | some v =>
        by_cases hon : on = vn
        · simpa [hon] using h.mem n
        · by_cases ha : s.f.typeOvr.any (·.origName == on) = true
          · simp only [hon, ha, if_false, if_true]
            have hf : (if r.truthy = false then s.f else { s.f with typeOvr := s.f.typeOvr.map fun x =>
                if (x.origName == on) = true then { x with ovrd := v } else x }).typeNames = s.f.typeNames := by split <;> rfl
            rw [hf, if_neg (by simp)]
            exact h.mem n
          · simp only [hon, ha, Bool.false_eq_true, if_false]
            simp only [Option.isSome_some, ne_eq, hon, not_false_eq_true, true_and, if_true, mem_addKey, h.mem n, setName,
              (Bool.not_eq_true _).mp ha]
            by_cases hn : n = on <;> simp [hn]
  | create t p n => exact ⟨h.nodup, h.mem⟩
  | createByName t p n => exact ⟨h.nodup, h.mem⟩

theorem foldP_f (e : Env) (fuel : Nat) : ∀ (ops : List Op) (s : PF), (ops.foldl (stepP e fuel) s).f = ops.foldl (step e fuel) s.f
  | [], _ => rfl
  | op :: ops, s => by simp only [List.foldl_cons]; rw [foldP_f e fuel ops]; rfl

theorem foldP_keys (e : Env) (fuel : Nat) : ∀ (ops : List Op) (s : PF), KeysOk s → KeysOk (ops.foldl (stepP e fuel) s)
  | [], _, h => h
  | op :: ops, s, h => foldP_keys e fuel ops _ (keysOk_step e fuel s op h)

/-- C302 (partial): with `all_types` 2, and no overrides set by name, exactly the names of the types mentioned so far are printed, each once; with 1 those
matching `uvm_*` are left out; with 0 none is printed.  Missing: overrides set by name (`C302_overridden_type_fails`). -/
theorem C302_type_names_partial (e : Env) (fuel : Nat) (ops : List Op) (hops : ∀ op ∈ ops, ∀ on vn r, op ≠ .typeByName on vn r) :
    ∀ all, (convert2string e (ops.foldl (stepP e fuel) {}) all).names.Nodup ∧
      ∀ n, n ∈ (convert2string e (ops.foldl (stepP e fuel) {}) all).names ↔
        1 ≤ all ∧ n ≠ "" ∧ n ≠ "<unknown>" ∧ (∃ t ∈ registered ops, e.name t = n) ∧ (all < 2 → e.isMatch "uvm_*" n = false) := by
  intro all
  have hk : KeysOk (ops.foldl (stepP e fuel) {}) := foldP_keys e fuel ops {} ⟨by simp, by simp⟩
  have hC := fun n => (C22_names_partial e fuel ops hops n 0).1
  have hf : (ops.foldl (stepP e fuel) {}).f = ops.foldl (step e fuel) {} := foldP_f e fuel ops {}
  generalize ops.foldl (stepP e fuel) {} = s at hk hf ⊢
  rw [← hf] at hC
  constructor
  · simp only [convert2string]
    split
    · exact hk.nodup.sublist List.filter_sublist
    · simp
  · intro n
    simp only [convert2string]
    by_cases hall : (1 : Int) ≤ all
    · have hall' : all ≥ 1 := hall
      simp only [hall', hall, if_true, true_and, List.mem_filter, hk.mem, hC]
      by_cases hu : usable n = true
      · simp only [hu, if_true]
        have hu2 : n ≠ "" ∧ n ≠ "<unknown>" := by simpa [usable] using hu
        simp only [hu2.1, hu2.2, ne_eq, not_false_eq_true, true_and]
        cases hfi : (registered ops).find? (fun t => e.name t == n) with
        | none =>
          have := List.find?_eq_none.mp hfi
          simp only [Option.isSome_none, Bool.false_eq_true, false_and, false_iff]
          rintro ⟨⟨t, ht, hn⟩, _⟩
          exact absurd hn (by simpa using this t ht)
        | some t =>
          have h1 := List.find?_some hfi
          have h2 := List.mem_of_find?_eq_some hfi
          simp only [beq_iff_eq] at h1
          have h3 : ∃ t ∈ registered ops, e.name t = n := ⟨t, h2, h1⟩
          simp only [Option.isSome_some, true_and, h1, h3, beq_self_eq_true, Bool.and_true, Bool.not_eq_true', Bool.and_eq_false_iff,
            decide_eq_false_iff_not]
          constructor
          · rintro (h | h) hlt
            · exact absurd hlt h
            · exact h
          · intro h
            by_cases hlt : all < 2
            · exact Or.inr (h hlt)
            · exact Or.inl hlt
      · have : ¬ (n ≠ "" ∧ n ≠ "<unknown>") := by simpa [usable] using hu
        simp only [hu, Bool.false_eq_true, if_false, Option.isSome_none, false_and, false_iff]
        rintro ⟨h1, h2, _⟩
        exact this ⟨h1, h2⟩
    · have : ¬ all ≥ 1 := hall
      simp [this, hall]

example : (convert2string exEnv ([Op.register 3, .typeByType 0 1 .true_, .register 0].foldl (stepP exEnv 10) {}) 1).names = ["D", "A", "B"] := by
  decide

/-- C302 fails in the code: a type that is overridden by name disappears from the list of registered types. -/
theorem C302_overridden_type_fails :
    let s := [Op.register 0, .register 1].foldl (stepP exEnv 10) {}
    (convert2string exEnv s 2).names = ["A", "B"] ∧ (convert2string exEnv (stepP exEnv 10 s (.typeByName "A" "B" .true_)) 2).names = ["B"] ∧
      0 ∈ (stepP exEnv 10 s (.typeByName "A" "B" .true_)).f.types := by decide

theorem types_nodup (e : Env) (fuel : Nat) (f : Factory) (op : Op) (h : f.types.Nodup) : (step e fuel f op).types.Nodup := by
  have hr : ∀ (g : Factory) t, g.types.Nodup → (register e g t).types.Nodup := by
    intro g t hg
    have ht : ∀ g' : Factory, g'.types = g.types → (if g'.types.contains t then g' else { g' with types := t :: g'.types }).types.Nodup := by
      intro g' hg'
      split
      · rw [hg']; exact hg
      · rename_i hc
        show (t :: g'.types).Nodup
        rw [List.nodup_cons]
        exact ⟨by simpa using hc, by rw [hg']; exact hg⟩
    unfold register
    apply ht
    (repeat' split) <;> rfl
  have he : ∀ (g : Factory) t, g.types.Nodup → (ensure e g t).types.Nodup := by
    intro g t hg
    unfold ensure
    split
    · exact hg
    · exact hr g t hg
  cases op with
  | register t => exact hr f t h
  | typeByType o v r =>
    have : (setTypeByType e f o v r).types = (ensure e (ensure e f o) v).types := by
      unfold setTypeByType
      simp only; (repeat' split) <;> rfl
    show (setTypeByType e f o v r).types.Nodup
    rw [this]; exact he _ v (he _ o h)
  | inst o v p =>
    have : (setInst e f o v p).types = (ensure e (ensure e f o) v).types := by
      unfold setInst
      simp only; split <;> rfl
    show (setInst e f o v p).types.Nodup
    rw [this]; exact he _ v (he _ o h)
  | typeByName on vn r =>
    have : (setTypeByName e f on vn r).types = f.types := by
      unfold setTypeByName
      (repeat' split) <;> rfl
    show (setTypeByName e f on vn r).types.Nodup
    rw [this]; exact h
  | create t p n => exact h
  | createByName t p n => exact h

/-- C302: the total printed is the number of different types mentioned so far (also types without a name). -/
theorem C302_total (e : Env) (fuel : Nat) (ops : List Op) (hops : ∀ op ∈ ops, ∀ on vn r, op ≠ .typeByName on vn r) (all : Int)
    (hall : 1 ≤ all) (hone : ∃ t ∈ registered ops, e.name t ≠ "" ∧ e.name t ≠ "<unknown>") :
    ∃ l : List Ty, l.Nodup ∧ (∀ t, t ∈ l ↔ t ∈ registered ops) ∧
      (convert2string e (ops.foldl (stepP e fuel) {}) all).total = some l.length := by
  have hk : KeysOk (ops.foldl (stepP e fuel) {}) := foldP_keys e fuel ops {} ⟨by simp, by simp⟩
  have hf : (ops.foldl (stepP e fuel) {}).f = ops.foldl (step e fuel) {} := foldP_f e fuel ops {}
  have hnd : ∀ (l : List Op) (f : Factory), f.types.Nodup → (l.foldl (step e fuel) f).types.Nodup := by
    intro l
    induction l with
    | nil => intro f h; exact h
    | cons op l ih => intro f h; exact ih _ (types_nodup e fuel f op h)
  refine ⟨(ops.foldl (step e fuel) {}).types, hnd ops {} (by simp), fun t => (C22_names_partial e fuel ops hops "" t).2, ?_⟩
  obtain ⟨t, ht, hn⟩ := hone
  have hu : usable (e.name t) = true := by simpa [usable] using hn
  have hmem : e.name t ∈ (ops.foldl (stepP e fuel) {}).keys := by
    rw [hk.mem, hf, (C22_names_partial e fuel ops hops (e.name t) 0).1, if_pos hu, List.find?_isSome]
    exact ⟨t, ht, by simp⟩
  have hne : (ops.foldl (stepP e fuel) {}).keys ≠ [] := List.ne_nil_of_mem hmem
  simp only [convert2string, hf]
  rw [if_pos ⟨hall, hne⟩]

example : (convert2string exEnv ([Op.register 3, .typeByType 0 1 .true_, .register 7].foldl (stepP exEnv 10) {}) 1).total = some 4 := by decide

/-- C302: the message that there are no overrides is printed exactly when there are none. -/
theorem C302_no_overrides (e : Env) (s : PF) (all : Int) : (convert2string e s all).noOverrides = true ↔ s.f.typeOvr = [] ∧ s.f.inst = [] := by
  simp only [convert2string, sortedQueues_eq, Bool.and_eq_true, List.isEmpty_iff]
  cases h : s.f.inst.getLast? with
  | none => simp [List.getLast?_eq_none_iff.mp h]
  | some q =>
    have : s.f.inst ≠ [] := by rintro h'; simp [h'] at h
    simp [this]

end Verif.Factory
