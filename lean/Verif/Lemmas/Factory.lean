import Verif.Spec.Factory
/-! # Helper lemmas for the factory -/
namespace Verif.Factory

theorem firstWith_iff {α} (p : α → Prop) [DecidablePred p] (l : List α) (x : α) :
    FirstWith p l x ↔ (l.filter (fun y => decide (p y))).head? = some x := by
  constructor
  · rintro ⟨pre, post, rfl, hx, hpre⟩
    have : pre.filter (fun y => decide (p y)) = [] := by
      rw [List.filter_eq_nil_iff]; intro a ha; simpa using hpre a ha
    simp [List.filter_append, this, hx]
  · intro h
    rw [List.head?_filter] at h
    obtain ⟨hx, pre, post, rfl, hpre⟩ := List.find?_eq_some_iff_append.mp h
    exact ⟨pre, post, rfl, by simpa using hx, fun y hy => by simpa using hpre y hy⟩

/-! ## Invariant -/

structure Inv (e : Env) (f : Factory) : Prop where
  names : ∀ n t, f.typeNames n = some t → usable n = true ∧ (e.name t = n ∨ ∃ o ∈ f.typeOvr, o.origName = n)
  tys : ∀ o ∈ f.typeOvr, ∃ t, o.orig = some t ∧ o.origName = e.name t
  inst : ∀ t, ∀ o ∈ queue f.inst t, o.orig = some t ∧ o.origName = e.name t

theorem inv_init (e : Env) : Inv e {} := ⟨by simp, by simp, by simp [queue]⟩

theorem register_typeOvr (e : Env) (f : Factory) (t : Ty) : (register e f t).typeOvr = f.typeOvr ∧ (register e f t).inst = f.inst
    ∧ (register e f t).debugPass = f.debugPass := by
  unfold register
  (repeat' split) <;> refine ⟨?_, ?_, ?_⟩ <;> simp_all <;> split <;> rfl

theorem register_names (e : Env) (f : Factory) (t : Ty) (n : String) :
    (register e f t).typeNames n =
      if n = e.name t ∧ usable (e.name t) = true ∧ f.typeNames n = none then some t else f.typeNames n := by
  unfold register
  by_cases hu : usable (e.name t) = true
  · cases hn : f.typeNames (e.name t) with
    | none =>
      simp only [hu, hn, setName, if_true, Option.isSome_none, Bool.false_eq_true, if_false]
      split <;> (by_cases hnn : n = e.name t <;> simp_all [setName])
    | some v =>
      simp only [hu, hn, if_true, Option.isSome_some]
      split <;> (by_cases hnn : n = e.name t <;> simp_all)
  · simp only [hu]
    split <;> simp_all
    split <;> rfl

theorem register_types (e : Env) (f : Factory) (t u : Ty) : u ∈ (register e f t).types ↔ u = t ∨ u ∈ f.types := by
  unfold register; (repeat' split) <;> simp_all <;> grind

theorem inv_register {e : Env} {f : Factory} (h : Inv e f) (t : Ty) : Inv e (register e f t) := by
  obtain ⟨h1, h2, _⟩ := register_typeOvr e f t
  refine ⟨?_, by rw [h1]; exact h.tys, by rw [h2]; exact h.inst⟩
  intro n u hn
  rw [register_names] at hn
  rw [h1]
  split at hn
  · rename_i hc; cases hn; exact ⟨hc.1 ▸ hc.2.1, Or.inl hc.1.symm⟩
  · exact h.names n u hn

theorem ensure_typeOvr (e : Env) (f : Factory) (t : Ty) : (ensure e f t).typeOvr = f.typeOvr ∧ (ensure e f t).inst = f.inst
    ∧ (ensure e f t).debugPass = f.debugPass := by
  unfold ensure; split
  · simp
  · exact register_typeOvr e f t

theorem inv_ensure {e : Env} {f : Factory} (h : Inv e f) (t : Ty) : Inv e (ensure e f t) := by
  unfold ensure; split
  · exact h
  · exact inv_register h t

theorem applies_name {e : Env} {f : Factory} (h : Inv e f) {t : Ty} {o : Ovr} (ho : o ∈ f.typeOvr)
    (ha : typeApplies e t o = true) : o.origName = e.name t := by
  obtain ⟨u, hu, hn⟩ := h.tys o ho
  simp only [typeApplies, Bool.or_eq_true, Bool.and_eq_true, beq_iff_eq] at ha
  rcases ha with ha | ha
  · rw [hu] at ha; cases ha; exact hn
  · exact ha.2

theorem inv_setTypeByType {e : Env} {f : Factory} (h : Inv e f) (o v : Ty) (r : PyFlag) : Inv e (setTypeByType e f o v r) := by
  have h' := inv_ensure (inv_ensure h o) v
  unfold setTypeByType
  generalize ensure e (ensure e f o) v = g at h'
  simp only
  split
  · split
    · exact h'
    · refine ⟨?_, ?_, h'.inst⟩
      · intro n t hn
        obtain ⟨hu, hh⟩ := h'.names n t hn
        refine ⟨hu, ?_⟩
        rcases hh with hh | ⟨x, hx, hxn⟩
        · exact Or.inl hh
        · right
          simp only [List.mem_map]
          refine ⟨_, ⟨x, hx, rfl⟩, ?_⟩
          split
          · rename_i ha; simpa using (applies_name h' hx ha).symm.trans hxn
          · exact hxn
      · intro x hx
        simp only [List.mem_map] at hx
        obtain ⟨y, hy, rfl⟩ := hx
        split
        · exact ⟨o, rfl, rfl⟩
        · exact h'.tys y hy
  · refine ⟨?_, ?_, h'.inst⟩
    · intro n t hn
      obtain ⟨hu, hh⟩ := h'.names n t hn
      refine ⟨hu, hh.imp id ?_⟩
      rintro ⟨x, hx, hxn⟩
      exact ⟨x, List.mem_append_left _ hx, hxn⟩
    · intro x hx
      rcases List.mem_append.mp hx with hx | hx
      · exact h'.tys x hx
      · simp only [List.mem_singleton] at hx
        subst hx
        exact ⟨o, rfl, rfl⟩

theorem inv_setTypeByName {e : Env} {f : Factory} (h : Inv e f) (on vn : String) (r : PyFlag) (hon : (f.typeNames on).isSome) :
    Inv e (setTypeByName e f on vn r) := by
  unfold setTypeByName
  split
  · exact h
  · rename_i v hv
    split
    · exact h
    · split
      · split
        · exact h
        · refine ⟨?_, ?_, h.inst⟩
          · intro n t hn
            obtain ⟨hu, hh⟩ := h.names n t hn
            refine ⟨hu, hh.imp id ?_⟩
            rintro ⟨x, hx, hxn⟩
            simp only [List.mem_map]
            refine ⟨_, ⟨x, hx, rfl⟩, ?_⟩
            split <;> exact hxn
          · intro x hx
            simp only [List.mem_map] at hx
            obtain ⟨y, hy, rfl⟩ := hx
            obtain ⟨t, h1, h2⟩ := h.tys y hy
            refine ⟨t, ?_, ?_⟩ <;> split <;> assumption
      · rename_i hany
        obtain ⟨t, ht⟩ := Option.isSome_iff_exists.mp hon
        have hno : ∀ o ∈ f.typeOvr, o.origName ≠ on := by simpa using hany
        obtain ⟨hu, hh⟩ := h.names on t ht
        have hname : e.name t = on := by
          rcases hh with hh | ⟨x, hx, hxn⟩
          · exact hh
          · exact absurd hxn (hno x hx)
        refine ⟨?_, ?_, h.inst⟩
        · intro n u hn
          simp only [setName] at hn
          split at hn
          · rename_i hnon
            subst hnon
            refine ⟨hu, Or.inr ⟨mkOvr e "*" n (f.typeNames n) v, by simp, ?_⟩⟩
            simp [mkOvr, ht, hname]
          · obtain ⟨hu', hh'⟩ := h.names n u hn
            refine ⟨hu', hh'.imp id ?_⟩
            rintro ⟨x, hx, hxn⟩
            exact ⟨x, List.mem_append_left _ hx, hxn⟩
        · intro x hx
          rcases List.mem_append.mp hx with hx | hx
          · exact h.tys x hx
          · simp only [List.mem_singleton] at hx
            subst hx
            exact ⟨t, by simp [mkOvr, ht], by simp [mkOvr, ht]⟩

theorem queue_push (q : List (Ty × List Ovr)) (t u : Ty) (o : Ovr) :
    queue (push q t o) u = if u = t then queue q t ++ [o] else queue q u := by
  induction q with
  | nil => simp only [push, queue]; by_cases h : u = t <;> simp [h, eq_comm]; intro h'; exact absurd h'.symm h
  | cons a q ih =>
    obtain ⟨w, l⟩ := a
    simp only [push]
    by_cases hw : w = t
    · subst hw
      simp only [if_true, queue]
      by_cases hu : u = w
      · simp [hu]
      · simp [hu, Ne.symm hu]
    · simp only [hw, if_false, queue]
      by_cases hu : w = u
      · subst hu; simp [hw]
      · simp [hu, ih]

theorem inv_setInst {e : Env} {f : Factory} (h : Inv e f) (o v : Ty) (p : String) : Inv e (setInst e f o v p) := by
  have h' := inv_ensure (inv_ensure h o) v
  unfold setInst
  generalize ensure e (ensure e f o) v = g at h'
  simp only
  split
  · exact h'
  · refine ⟨h'.names, h'.tys, ?_⟩
    intro t x hx
    simp only [queue_push] at hx
    split at hx
    · rename_i ht
      subst ht
      rcases List.mem_append.mp hx with hx | hx
      · exact h'.inst t x hx
      · simp only [List.mem_singleton] at hx
        subst hx
        exact ⟨rfl, rfl⟩
    · exact h'.inst t x hx

theorem reachable_inv {e : Env} {f : Factory} (h : Reachable e f) : Inv e f := by
  induction h with
  | init => exact inv_init e
  | step fuel op _ hop ih =>
    cases op with
    | register t => exact inv_register ih t
    | typeByType o v r => exact inv_setTypeByType ih o v r
    | typeByName on vn r => exact inv_setTypeByName ih on vn r (hop on vn r rfl)
    | inst o v p => exact inv_setInst ih o v p
    | create t p n => exact ⟨ih.names, ih.tys, ih.inst⟩
    | createByName t p n => exact ⟨ih.names, ih.tys, ih.inst⟩

/-! ## Candidates and `Next` -/

theorem applies_iff {e : Env} {f : Factory} (h : Inv e f) (hn : UniqueNames e) {t : Ty} {o : Ovr} (ho : o ∈ f.typeOvr) :
    typeApplies e t o = decide (o.orig = some t) := by
  obtain ⟨u, hu, hname⟩ := h.tys o ho
  rw [Bool.eq_iff_iff]
  simp only [typeApplies, Bool.or_eq_true, Bool.and_eq_true, beq_iff_eq, bne_iff_ne, decide_eq_true_eq]
  constructor
  · rintro (ha | ⟨⟨h1, h2⟩, h3⟩)
    · exact ha
    · rw [hname] at h1 h2 h3
      have : u = t := hn u t (by simp [usable, h1, h2]) h3
      rw [hu, this]
  · exact Or.inl

theorem candidates_eq {e : Env} {f : Factory} (h : Inv e f) (hn : UniqueNames e) (t : Ty) (path : String) :
    candidates e f t path =
      (if path ≠ "" then (queue f.inst t).filter (fun x => decide (e.isMatch x.path path = true)) else []) ++
        f.typeOvr.filter (fun x => decide (x.orig = some t)) := by
  unfold candidates
  congr 1
  · split
    · apply List.filter_congr
      intro o ho
      obtain ⟨h1, h2⟩ := h.inst t o ho
      simp [instApplies, h1]
    · rfl
  · apply List.filter_congr
    intro o ho
    exact applies_iff h hn ho

theorem next_iff {e : Env} {f : Factory} (h : Inv e f) (hn : UniqueNames e) (t : Ty) (path : String) (o : Ovr) :
    Next e f path t o ↔ (candidates e f t path).head? = some o := by
  rw [candidates_eq h hn, Next, firstWith_iff, firstWith_iff]
  by_cases hp : path = ""
  · simp [hp]
  · simp only [hp, ne_eq, not_false_eq_true, if_true, true_and, false_or]
    cases hq : (queue f.inst t).filter (fun x => decide (e.isMatch x.path path = true)) with
    | nil =>
      have : ∀ x ∈ queue f.inst t, ¬ e.isMatch x.path path = true := by
        intro x hx; simpa using List.filter_eq_nil_iff.mp hq x hx
      simp only [List.head?_nil, List.nil_append, reduceCtorEq, false_or]
      exact ⟨fun h => h.2, fun h => ⟨this, h⟩⟩
    | cons x xs =>
      have hx : x ∈ queue f.inst t ∧ e.isMatch x.path path = true := by
        have : x ∈ (queue f.inst t).filter (fun x => decide (e.isMatch x.path path = true)) := by rw [hq]; simp
        simpa using this
      simp only [List.head?_cons, List.cons_append]
      constructor
      · rintro (h | ⟨h, _⟩)
        · exact h
        · exact absurd hx.2 (h x hx.1)
      · exact Or.inl

theorem candidates_orig {e : Env} {f : Factory} (h : Inv e f) (hn : UniqueNames e) {t : Ty} {path : String} {o : Ovr}
    (ho : o ∈ candidates e f t path) : o.orig = some t := by
  rw [candidates_eq h hn] at ho
  rcases List.mem_append.mp ho with ho | ho
  · split at ho
    · exact (h.inst t o (List.mem_filter.mp ho).1).1
    · simp at ho
  · simpa using (List.mem_filter.mp ho).2

/-! ## Termination -/

/-- All overrides. -/
def all (f : Factory) : List Ovr := f.typeOvr ++ f.inst.flatMap (·.2)

theorem all_length (f : Factory) : (all f).length = size f := by
  simp [all, size, List.length_flatMap]

theorem queue_sub (q : List (Ty × List Ovr)) (t : Ty) (o : Ovr) (h : o ∈ queue q t) : o ∈ q.flatMap (·.2) := by
  induction q with
  | nil => simp [queue] at h
  | cons a q ih =>
    obtain ⟨w, l⟩ := a
    simp only [queue] at h
    simp only [List.flatMap_cons, List.mem_append]
    split at h
    · exact Or.inl h
    · exact Or.inr (ih h)

theorem candidates_sub {e : Env} {f : Factory} {t : Ty} {path : String} {o : Ovr} (ho : o ∈ candidates e f t path) : o ∈ all f := by
  unfold candidates at ho
  rcases List.mem_append.mp ho with ho | ho
  · split at ho
    · exact List.mem_append_right _ (queue_sub _ _ _ (List.mem_filter.mp ho).1)
    · simp at ho
  · exact List.mem_append_left _ (List.mem_filter.mp ho).1

/-- How many registered originals are not yet in `info`. -/
def todo (f : Factory) (info : List Ovr) : Nat :=
  ((all f).filter fun o => !(info.any (·.orig == o.orig))).length

theorem filter_length_lt {α} (p q : α → Bool) (l : List α) (hpq : ∀ x ∈ l, q x = true → p x = true) (x : α) (hx : x ∈ l)
    (h1 : p x = true) (h2 : q x = false) : (l.filter q).length < (l.filter p).length := by
  induction l with
  | nil => simp at hx
  | cons a l ih =>
    have hle : (l.filter q).length ≤ (l.filter p).length := by
      clear ih hx
      induction l with
      | nil => simp
      | cons b l ihl =>
        have := ihl (fun x hx => hpq x (by simp at hx ⊢; grind))
        have hb := hpq b (by simp)
        simp only [List.filter_cons]
        split <;> split <;> simp_all <;> omega
    simp only [List.filter_cons]
    rcases List.mem_cons.mp hx with rfl | hx
    · simp [h1, h2]; omega
    · have := ih (fun x hx => hpq x (List.mem_cons_of_mem _ hx)) hx
      have ha := hpq a (by simp)
      split <;> split <;> simp_all <;> omega

theorem todo_lt {f : Factory} {info more : List Ovr} {t : Ty} {o : Ovr} (ho : o ∈ all f) (horig : o.orig = some t)
    (hnew : info.any (·.orig == some t) = false) (hmore : o ∈ more) : todo f (info ++ more) < todo f info := by
  apply filter_length_lt _ _ _ _ o ho
  · rw [horig]; simp [hnew]
  · simp only [Bool.not_eq_false', List.any_append, Bool.or_eq_true]
    right
    rw [List.any_eq_true]
    exact ⟨o, hmore, by simp⟩
  · intro x _ hx
    simp only [List.any_append] at hx ⊢
    simp_all

theorem todo_le (f : Factory) (info : List Ovr) : todo f info ≤ size f := by
  rw [← all_length]; exact List.length_filter_le _ _

theorem debugInfo_some {e : Env} {f : Factory} (h : Inv e f) (hn : UniqueNames e) (path : String) :
    ∀ (fuel : Nat) (t : Ty) (info : List Ovr), todo f info < fuel → (debugInfo e f path fuel t info).isSome := by
  intro fuel
  induction fuel with
  | zero => intro t info h; omega
  | succ fuel ih =>
    intro t info hf
    unfold debugInfo
    split
    · simp
    · rename_i hany
      split
      · simp
      · rename_i o os hc
        split
        · simp
        · apply ih
          have ho : o ∈ candidates e f t path := by rw [hc]; simp
          have := todo_lt (f := f) (info := info) (more := o :: os) (candidates_sub ho) (candidates_orig h hn ho)
            (by simpa using hany) (by simp)
          omega

/-! ## Resolution -/

theorem Steps.tail {e : Env} {f : Factory} {path : String} {t u v : Ty} (h : Steps e f path t u) (s : Step e f path u v) :
    Steps e f path t v := by
  induction h with
  | refl t => exact .head s (.refl _)
  | head s' _ ih => exact .head s' (ih s)

theorem Steps.trans {e : Env} {f : Factory} {path : String} {t u v : Ty} (h : Steps e f path t u) (s : Steps e f path u v) :
    Steps e f path t v := by
  induction h with
  | refl t => exact s
  | head s' _ ih => exact .head s' (ih s)

theorem step_iff {e : Env} {f : Factory} (h : Inv e f) (hn : UniqueNames e) (path : String) (t u : Ty) :
    Step e f path t u ↔ ∃ o os, candidates e f t path = o :: os ∧ o.ovrd = u ∧ u ≠ t := by
  unfold Step
  constructor
  · rintro ⟨o, ho, h1, h2⟩
    rw [next_iff h hn] at ho
    obtain ⟨os, hos⟩ := List.head?_eq_some_iff.mp ho
    exact ⟨o, os, hos, h1, h2⟩
  · rintro ⟨o, os, hos, h1, h2⟩
    exact ⟨o, by rw [next_iff h hn, hos]; rfl, h1, h2⟩

theorem findByType_spec {e : Env} {f : Factory} (h : Inv e f) (hn : UniqueNames e) (path : String) :
    ∀ (fuel : Nat) (t : Ty) (info : List Ovr), todo f info + size f < fuel →
    (∀ o ∈ info, ∃ u, o.orig = some u ∧ ∃ w, Step e f path u w ∧ Steps e f path w t) →
    ∃ t', Steps e f path t t' ∧
      ((findByType e f path fuel t info = .found t' false ∧ Final e f path t') ∨
       (OnCycle e f path t' ∧ (findByType e f path fuel t info = .found t' true ∨
          f.debugPass = true ∧ findByType e f path fuel t info = .indexError))) := by
  intro fuel
  induction fuel with
  | zero => intro t info h; omega
  | succ fuel ih =>
    intro t info hf hinfo
    unfold findByType
    cases hi : info.findIdx? (·.orig == some t) with
    | some i =>
      refine ⟨t, .refl t, Or.inr ⟨?_, ?_⟩⟩
      · obtain ⟨hlt, hp, _⟩ := List.findIdx?_eq_some_iff_getElem.mp hi
        obtain ⟨u, hu, w, hw1, hw2⟩ := hinfo _ (List.getElem_mem hlt)
        simp only [beq_iff_eq] at hp
        rw [hu] at hp
        cases hp
        exact ⟨w, hw1, hw2⟩
      · simp only
        have hd := debugInfo_some h hn path (fuel + 1) t [] (by have := todo_le f []; omega)
        obtain ⟨l, hl⟩ := Option.isSome_iff_exists.mp hd
        rw [hl]
        by_cases hdp : f.debugPass = true
        · by_cases hil : i < l.length <;> simp [hdp, hil]
        · simp [hdp]
    | none =>
      have hany : info.any (·.orig == some t) = false := by
        rw [List.findIdx?_eq_none_iff] at hi
        rw [List.any_eq_false]; intro x hx; simpa using hi x hx
      cases hc : candidates e f t path with
      | nil =>
        refine ⟨t, .refl t, Or.inl ⟨rfl, ?_⟩⟩
        intro u hu
        rw [step_iff h hn, hc] at hu
        obtain ⟨_, _, h', _⟩ := hu
        cases h'
      | cons o os =>
        simp only
        by_cases hot : o.ovrd = t
        · refine ⟨t, .refl t, Or.inl ⟨by simp [hot], ?_⟩⟩
          intro u hu
          rw [step_iff h hn, hc] at hu
          obtain ⟨o', _, h', h2, h3⟩ := hu
          cases h'
          exact h3 (h2.symm.trans hot)
        · simp only [hot, if_false]
          have ho : o ∈ candidates e f t path := by rw [hc]; simp
          have hs : Step e f path t o.ovrd := (step_iff h hn path t o.ovrd).mpr ⟨o, os, hc, rfl, hot⟩
          have hlt := todo_lt (f := f) (info := info) (more := [o]) (candidates_sub ho) (candidates_orig h hn ho) hany (by simp)
          obtain ⟨t', hst, hres⟩ := ih o.ovrd (info ++ [o]) (by omega) (by
            intro x hx
            rcases List.mem_append.mp hx with hx | hx
            · obtain ⟨u, hu, w, hw1, hw2⟩ := hinfo x hx
              exact ⟨u, hu, w, hw1, hw2.tail hs⟩
            · simp only [List.mem_singleton] at hx
              subst hx
              exact ⟨t, candidates_orig h hn ho, x.ovrd, hs, .refl _⟩)
          exact ⟨t', .head hs hst, hres⟩

theorem step_det {e : Env} {f : Factory} (h : Inv e f) (hn : UniqueNames e) {path : String} {t u v : Ty}
    (h1 : Step e f path t u) (h2 : Step e f path t v) : u = v := by
  rw [step_iff h hn] at h1 h2
  obtain ⟨o, os, a, b, _⟩ := h1
  obtain ⟨o', os', a', b', _⟩ := h2
  rw [a] at a'; cases a'; rw [← b, ← b']

/-! ## Type overrides set by type -/

theorem setTypeByType_typeOvr {e : Env} {f : Factory} (h : Inv e f) (hn : UniqueNames e) (o v t : Ty) (r : PyFlag) :
    ((setTypeByType e f o v r).typeOvr.find? (fun x => decide (x.orig = some t))).map (·.ovrd) =
      if t = o then
        match (f.typeOvr.find? (fun x => decide (x.orig = some o))).map (·.ovrd) with
        | some w => if r = .false_ then some w else some v
        | none => some v
      else (f.typeOvr.find? (fun x => decide (x.orig = some t))).map (·.ovrd) := by
  have h' := inv_ensure (inv_ensure h o) v
  have e1 : (ensure e (ensure e f o) v).typeOvr = f.typeOvr := by
    rw [(ensure_typeOvr _ _ _).1, (ensure_typeOvr _ _ _).1]
  unfold setTypeByType
  generalize ensure e (ensure e f o) v = g at h' e1
  simp only
  rw [← e1]
  have hap : ∀ x ∈ g.typeOvr, typeApplies e o x = decide (x.orig = some o) := fun x hx => applies_iff h' hn hx
  have hany : g.typeOvr.any (typeApplies e o) = (g.typeOvr.find? (fun x => decide (x.orig = some o))).isSome := by
    rw [List.isSome_find?]
    rw [Bool.eq_iff_iff, List.any_eq_true, List.any_eq_true]
    constructor
    · rintro ⟨x, hx, hp⟩; exact ⟨x, hx, by rw [← hap x hx]; exact hp⟩
    · rintro ⟨x, hx, hp⟩; exact ⟨x, hx, by rw [hap x hx]; exact hp⟩
  rw [hany]
  have hmap : (g.typeOvr.map fun x => if typeApplies e o x then { x with orig := some o, origName := e.name o, ovrd := v } else x) =
      g.typeOvr.map fun x => if x.orig = some o then { x with orig := some o, origName := e.name o, ovrd := v } else x := by
    apply List.map_congr_left
    intro x hx
    rw [hap x hx]; simp
  rw [hmap]
  clear hmap hany hap h' e1
  generalize hgl : g.typeOvr = l
  have hm1 : ∀ l : List Ovr, ((l.map fun x => if x.orig = some o then { x with orig := some o, origName := e.name o, ovrd := v } else x).find?
      (fun x => decide (x.orig = some t))).map (·.ovrd) =
      if t = o then (l.find? (fun x => decide (x.orig = some o))).map (fun _ => v) else
        (l.find? (fun x => decide (x.orig = some t))).map (·.ovrd) := by
    intro l
    induction l with
    | nil => simp
    | cons x l ih =>
      by_cases hx : x.orig = some o
      · by_cases ht : t = o
        · simp [hx, ht]
        · simp only [List.map_cons, hx, if_true, List.find?_cons, ht, if_false] at ih ⊢
          have : ¬ o = t := Ne.symm ht
          simpa [this] using ih
      · by_cases ht : t = o
        · simp only [List.map_cons, hx, if_false, List.find?_cons, ht, if_true] at ih ⊢
          simpa [hx] using ih
        · simp only [List.map_cons, hx, if_false, List.find?_cons, ht] at ih ⊢
          cases hxt : decide (x.orig = some t)
          · simpa using ih
          · simp
  cases hf : l.find? (fun x => decide (x.orig = some o)) with
  | none =>
    simp only [Option.isSome_none, Bool.false_eq_true, if_false, Option.map_none]
    rw [List.find?_append]
    by_cases ht : t = o
    · subst ht; simp [hf, mkOvr]
    · have : ¬ o = t := Ne.symm ht
      cases l.find? (fun x => decide (x.orig = some t)) <;> simp [ht, mkOvr, this]
  | some w =>
    simp only [Option.isSome_some, if_true, Option.map_some]
    by_cases hr : r = .false_
    · subst hr
      simp only [if_true, hgl]
      by_cases ht : t = o
      · subst ht; simp [hf]
      · simp [ht]
    · simp only [hr, if_false]
      rw [hm1 l]
      by_cases ht : t = o
      · subst ht; simp [hf]
      · simp [ht]

end Verif.Factory
