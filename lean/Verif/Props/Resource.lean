import Verif.Lemmas.Resource
import Verif.Util.Machine
/-! # Properties C23-C26, C61-C63: resources, resource database, configuration database -/
namespace Verif.Resource
variable {V : Type}

/-- Environment for the examples: values are integers, a scope matches itself and "*" matches everything; context 0 is the root, 1 is
"top", 2 is "top.env". -/
def exEnv : Env Int where
  none := -1
  eqv a b := a == b
  matchScope p s := p == s || p == "*"
  fullName c := match c with
    | 0 => "" | 1 => "top" | _ => "top.env"
  mName c := match c with
    | 0 => "" | 1 => "top" | _ => "top.env"

/-! ## C23 -/

/-- C23: in every queue of resources, the resource chosen has maximal precedence and is the earliest such; an empty queue gives
nothing, any other queue gives something. -/
theorem C23_highest_precedence (q : List (Rsrc V)) : (highest q = none ↔ q = []) ∧ ∀ r, highest q = some r → IsHighest q r := by
  refine ⟨?_, highest_spec q⟩
  cases q <;> simp [highest]

/-- C23: with a type given, the same among the resources that are instances of the type. -/
theorem C23_highest_precedence_of_type (isT : Rsrc V → Bool) (q : List (Rsrc V)) : highestT isT q = highest (q.filter isT) := by
  induction q with
  | nil => rfl
  | cons x q ih =>
    by_cases h : isT x = true
    · simp [highestT, h, highest, List.filter_cons]
    · simp [highestT, h, List.filter_cons, ih]

example : (highest [{ name := "a", scope := "", val := (1 : Int) }, { name := "a", scope := "", val := 2, prec := 1005 },
    { name := "a", scope := "", val := 3, prec := 1005 }, { name := "a", scope := "", val := 4 }]).map (·.val) = some 2 := by decide

/-- C23: in the pool, a lookup by name reads the first resource of highest precedence among those registered under the name whose
scope matches. -/
theorem C23_lookup_by_name (e : Env V) (d : Db V) (hd : Inv d) (scope name : String) (hn : name ≠ "") :
    (dbRead e d scope name = none ↔ ∀ r ∈ entries d name, e.matchScope r.scope scope = false) ∧
    ∀ v, dbRead e d scope name = some v → ∃ r, r.val = v ∧ IsHighest ((entries d name).filter fun r => e.matchScope r.scope scope) r := by
  rw [dbRead_eq hd scope name hn]
  refine ⟨?_, ?_⟩
  · rw [Option.map_eq_none_iff, (C23_highest_precedence _).1, List.filter_eq_nil_iff]
    simp
  · intro v hv
    obtain ⟨r, hr, h⟩ := Option.map_eq_some_iff.mp hv
    exact ⟨r, h, highest_spec _ _ hr⟩

example : Inv (setAll exEnv true [⟨1, "x", "f", 5, false⟩, ⟨0, "*", "f", 6, false⟩]) := inv_setAll _ _ _

/-- C95 fails in the code when a type is given to `UVMConfigDb.get`: the *resource* is tested against the type of the value, so
a type that no resource is an instance of (every value type) finds nothing. -/
theorem C95_config_get_with_type_fails : ∃ calls : List (Call Int), ∃ d, d = setAll exEnv true calls ∧
    cfgGet exEnv d 0 "top.x" "f" = some 5 ∧ cfgGetT exEnv (fun _ => false) d 0 "top.x" "f" = none :=
  ⟨[⟨1, "x", "f", 5, false⟩], _, rfl, by decide⟩

/-- C95 fails in general: whatever was set, a look-up with a type of which no resource is an instance finds nothing; the types of the values
play no part.  With a type of which every resource is an instance the look-up is the one without a type. -/
theorem C95_type_of_value_ignored_fails (e : Env V) (isT : Rsrc V → Bool) (d : Db V) (hd : Inv d) (ctx : Nat) (inst f : String) (hf : f ≠ "") :
    ((∀ r, isT r = false) → cfgGetT e isT d ctx inst f = none) ∧ ((∀ r, isT r = true) → cfgGetT e isT d ctx inst f = cfgGet e d ctx inst f) := by
  refine ⟨fun h => ?_, fun h => ?_⟩
  · unfold cfgGetT
    rw [C23_highest_precedence_of_type, List.filter_eq_nil_iff.2 (fun r _ => by simp [h r])]
    rfl
  · rw [cfgGet_eq hd ctx inst f hf, ← getByName_read hd _ f hf]
    unfold cfgGetT
    rw [C23_highest_precedence_of_type, List.filter_eq_self.2 (fun r _ => h r)]
    rw [lookup_read hd _ f hf, ← getByName_read hd _ f hf]

example : Inv (setAll exEnv true [⟨1, "x", "f", 5, false⟩]) ∧ cfgGet exEnv (setAll exEnv true [⟨1, "x", "f", 5, false⟩]) 0 "top.x" "f" = some 5 :=
  ⟨inv_setAll _ _ _, by decide⟩

/-! ## C24 -/

/-- C24 (partial): after any history of sets outside build, `get` returns the value of the last matching set, if that set was the
first one of its context, pattern and field, or if all earlier matching sets are of its context and pattern.  Missing: a set
repeated after another matching set (see `C24_repeated_set_loses_fails`). -/
theorem C24_last_set_wins_partial (e : Env V) (a : Bool) (pre post : List (Call V)) (c : Call V) (ctx : Nat) (inst : String)
    (hf : c.field ≠ "") (hcol : NoCollision e (pre ++ c :: post)) (hb : ∀ c' ∈ pre ++ c :: post, c'.build = false)
    (hm : c.Matches e (instName e ctx inst) c.field)
    (hlast : ∀ c' ∈ post, ¬ c'.Matches e (instName e ctx inst) c.field)
    (h : (∀ c' ∈ pre, ¬ c'.SameKey e c) ∨ (∀ c' ∈ pre, c'.Matches e (instName e ctx inst) c.field → c'.SameKey e c)) :
    ∃ w, cfgGet e (setAll e a (pre ++ c :: post)) ctx inst c.field = some w ∧ SameVal e w c.val := by
  rw [cfgGet_eq (inv_setAll e a _) ctx inst c.field hf, entries_setAll e a c.field hf _ hcol]
  generalize instName e ctx inst = path at *
  have hprec : ∀ r ∈ (specEntries e a c.field (pre ++ c :: post)).filter (fun r => e.matchScope r.scope path), r.prec = 1000 := by
    intro r hr
    obtain ⟨_, c', hc', _, _, _, hp⟩ := specEntries_mem e a c.field _ r (List.mem_filter.mp hr).1
    rw [hp, setPrec, hb c' hc']; rfl
  rw [highest_eq_head 1000 hprec]
  have heq : pre ++ c :: post = (pre ++ [c]) ++ post := by simp
  rw [heq, specEntries_post e a c.field path _ _ hlast, specEntries_snoc, if_pos rfl]
  have hro := fun r hr => (specEntries_mem e a c.field pre r hr).1
  -- the entry found (if any) has the key of `c`
  unfold specSet
  simp only
  split
  · rw [List.filter_cons, if_pos (by simpa [write_name] using hm.2)]
    exact ⟨_, rfl, write_val e a _ c.val _ rfl⟩
  · rename_i r0 hfind
    have hk : hasKey c.ctx (instName e c.ctx c.inst) r0 = true := List.find?_some (p := hasKey c.ctx (instName e c.ctx c.inst)) hfind
    have hmem := List.mem_of_find?_eq_some hfind
    obtain ⟨_, c0, hc0, hf0, hcr, hsc, _⟩ := specEntries_mem e a c.field pre r0 hmem
    simp only [hasKey, Bool.and_eq_true, beq_iff_eq] at hk
    have hsame : c0.SameKey e c := by
      rw [hcr] at hk
      simp at hk
      exact ⟨hk.1, by rw [← hsc, hk.2], hf0⟩
    rcases h with h | h
    · exact absurd hsame (h c0 hc0)
    · have hnil : ((specEntries e a c.field pre).filter fun r => !hasKey c.ctx (instName e c.ctx c.inst) r).filter
          (fun r => e.matchScope r.scope path) = [] := by
        rw [List.filter_eq_nil_iff]
        intro r hr hmr
        obtain ⟨hr, hnk⟩ := List.mem_filter.mp hr
        obtain ⟨_, c1, hc1, hf1, hcr1, hsc1, _⟩ := specEntries_mem e a c.field pre r hr
        have hs := h c1 hc1 ⟨hf1, by rw [← hsc1]; exact hmr⟩
        have : hasKey c.ctx (instName e c.ctx c.inst) r = true := by
          simp only [hasKey, Bool.and_eq_true, beq_iff_eq]
          exact ⟨by rw [hcr1, hs.1], by rw [hsc1, hs.2.1]⟩
        simp [this] at hnk
      rw [List.filter_append, hnil, List.nil_append, List.filter_cons, if_pos (by simpa [write_name, hk.2] using hm.2)]
      exact ⟨_, rfl, write_val e a _ c.val _ (hro r0 hmem)⟩

/-- Three contexts set the field; the last set is the first of its kind. -/
example : cfgGet exEnv (setAll exEnv true [⟨0, "*", "f", 1, false⟩, ⟨1, "x", "f", 2, false⟩, ⟨0, "*", "f", 3, false⟩, ⟨0, "top.x", "f", 4, false⟩,
    ⟨0, "top.y", "f", 5, false⟩]) 0 "top.x" "f" = some 4 := by decide

example : cfgGet exEnv (setAll exEnv true [⟨1, "x", "f", 2, false⟩, ⟨0, "*", "g", 3, false⟩, ⟨1, "x", "f", 4, false⟩]) 1 "x" "f" = some 4 := by decide

example : NoCollision exEnv [⟨1, "x", "f", 2, false⟩, ⟨0, "*", "g", 3, false⟩, ⟨1, "x", "f", 4, false⟩] := by
  intro c hc c' hc'
  simp only [List.mem_cons, List.not_mem_nil, or_false] at hc hc'
  rcases hc with rfl | rfl | rfl <;> rcases hc' with rfl | rfl | rfl <;> decide

/-- C24 fails in the code: a set repeated after another matching set loses against it (the pool's `set_priority` puts the
resource at the end for *high* priority as well as for low). -/
theorem C24_repeated_set_loses_fails : ∃ calls : List (Call Int), (∀ c ∈ calls, c.Matches exEnv "top.x" "f" ∧ c.build = false) ∧
    calls.getLast?.map (·.val) = some 3 ∧ cfgGet exEnv (setAll exEnv true calls) 0 "top.x" "f" = some 2 :=
  ⟨[⟨0, "*", "f", 1, false⟩, ⟨1, "x", "f", 2, false⟩, ⟨0, "*", "f", 3, false⟩], by
    refine ⟨?_, by decide, by decide⟩
    intro c hc
    simp only [List.mem_cons, List.not_mem_nil, or_false] at hc
    rcases hc with rfl | rfl | rfl <;> exact ⟨⟨rfl, by decide⟩, rfl⟩⟩

/-- C24 fails in the code: setting a value that compares equal to the stored one (as `True == 1`) keeps the old value. -/
theorem C24_equal_value_kept_fails : ∃ (e : Env Int) (calls : List (Call Int)), calls.getLast?.map (·.val) = some 2 ∧
    cfgGet e (setAll e true calls) 1 "x" "f" = some 1 :=
  ⟨{ exEnv with eqv := fun a b => a == b || (a == 1 && b == 2) }, [⟨1, "x", "f", 1, false⟩, ⟨1, "x", "f", 2, false⟩], by decide⟩

/-- C24 fails in the code: field and instance names are glued together with "__M_UVM__"; two different settings can collide, and the
second is then not found under its own name. -/
theorem C24_key_collision_fails : ∃ calls : List (Call Int), calls.getLast?.map (·.field) = some "c" ∧
    cfgGet exEnv (setAll exEnv true calls) 0 "a__M_UVM__b" "c" = none ∧ cfgGet exEnv (setAll exEnv true calls) 0 "a" "b__M_UVM__c" = some 2 :=
  ⟨[⟨0, "a", "b__M_UVM__c", 1, false⟩, ⟨0, "a__M_UVM__b", "c", 2, false⟩], by decide⟩

/-- C24: a get sees something exactly if some set of the field matches; `exists` says the same. -/
theorem C24_get_finds_iff (e : Env V) (a : Bool) (calls : List (Call V)) (ctx : Nat) (inst f : String) (hf : f ≠ "")
    (hcol : NoCollision e calls) :
    ((cfgGet e (setAll e a calls) ctx inst f).isSome ↔ ∃ c ∈ calls, c.Matches e (instName e ctx inst) f) ∧
    cfgExists e (setAll e a calls) ctx inst f = (cfgGet e (setAll e a calls) ctx inst f).isSome := by
  constructor
  · rw [cfgGet_eq (inv_setAll e a _) ctx inst f hf, entries_setAll e a f hf _ hcol]
    rw [Option.isSome_map]
    constructor
    · intro h
      obtain ⟨r, hr⟩ := Option.isSome_iff_exists.mp h
      obtain ⟨hr1, hr2⟩ := List.mem_filter.mp (highest_mem hr)
      obtain ⟨_, c, hc, h1, _, h2, _⟩ := specEntries_mem e a f _ r hr1
      exact ⟨c, hc, h1, by rw [← h2]; exact hr2⟩
    · rintro ⟨c0, hc0, hm⟩
      -- take the last call with the key of `c0`
      have : ∀ l : List (Call V), c0 ∈ l → ∃ pre c post, l = pre ++ c :: post ∧ c.SameKey e c0 ∧ ∀ c' ∈ post, ¬ c.SameKey e c' := by
        intro l
        induction l with
        | nil => simp
        | cons x l ih =>
          intro hx
          by_cases hin : ∃ c1 ∈ l, c1.SameKey e c0
          · obtain ⟨c1, hc1, hs⟩ := hin
            have hres : ∀ l : List (Call V), (∃ c1 ∈ l, c1.SameKey e c0) → ∃ pre c post, l = pre ++ c :: post ∧ c.SameKey e c0 ∧ ∀ c' ∈ post, ¬ c.SameKey e c' := by
              intro l
              induction l with
              | nil => simp
              | cons y l ih2 =>
                rintro ⟨c1, hc1, hs⟩
                by_cases hin2 : ∃ c1 ∈ l, c1.SameKey e c0
                · obtain ⟨pre, c, post, rfl, h⟩ := ih2 hin2
                  exact ⟨y :: pre, c, post, rfl, h⟩
                · rcases List.mem_cons.mp hc1 with rfl | hc1
                  · refine ⟨[], c1, l, rfl, hs, ?_⟩
                    intro c' hc' hs'
                    exact hin2 ⟨c', hc', hs'.1.symm.trans hs.1, hs'.2.1.symm.trans hs.2.1, hs'.2.2.symm.trans hs.2.2⟩
                  · exact absurd ⟨c1, hc1, hs⟩ hin2
            obtain ⟨pre, c, post, rfl, h⟩ := hres l ⟨c1, hc1, hs⟩
            exact ⟨x :: pre, c, post, rfl, h⟩
          · rcases List.mem_cons.mp hx with rfl | hx
            · refine ⟨[], c0, l, rfl, ⟨rfl, rfl, rfl⟩, ?_⟩
              intro c' hc' hs'
              exact hin ⟨c', hc', hs'.1.symm, hs'.2.1.symm, hs'.2.2.symm⟩
            · exact absurd ⟨c0, hx, rfl, rfl, rfl⟩ hin
      obtain ⟨pre, c, post, rfl, hs, hp⟩ := this calls hc0
      obtain ⟨r, ⟨h1, h2, _⟩, _⟩ := specEntries_key e a f pre post c (hs.2.2.trans hm.1) hp
      simp only [hasKey, Bool.and_eq_true, beq_iff_eq] at h2
      have hne : (specEntries e a f (pre ++ c :: post)).filter (fun r => e.matchScope r.scope (instName e ctx inst)) ≠ [] := by
        apply List.ne_nil_of_mem (a := r)
        exact List.mem_filter.mpr ⟨h1, by rw [h2.2, hs.2.1]; exact hm.2⟩
      obtain ⟨r', hr'⟩ := highest_some hne
      rw [hr']; rfl
  · have hinv := inv_setAll e a calls
    unfold cfgExists cfgGet
    cases hg : getByName e (setAll e a calls) (instName e ctx inst) f with
    | none => rfl
    | some id =>
      have := getByName_read (e := e) hinv (instName e ctx inst) f hf
      rw [hg] at this
      simp only [Option.bind_some] at this
      have hne : (entries (setAll e a calls) f).filter (fun r => e.matchScope r.scope (instName e ctx inst)) ≠ [] := by
        intro h0
        have hl : lookupName e (setAll e a calls) (instName e ctx inst) f = [] := by
          have hfm : (lookupName e (setAll e a calls) (instName e ctx inst) f) = [] ∨
              ∃ i, i ∈ lookupName e (setAll e a calls) (instName e ctx inst) f := by
            cases lookupName e (setAll e a calls) (instName e ctx inst) f with
            | nil => exact Or.inl rfl
            | cons i l => exact Or.inr ⟨i, by simp⟩
          rcases hfm with h | ⟨i, hi⟩
          · exact h
          · exfalso
            unfold lookupName at hi
            rw [if_neg hf] at hi
            obtain ⟨h1, h2⟩ := List.mem_filter.mp hi
            obtain ⟨r, hr, hnr⟩ := hinv.valid f i h1
            rw [hr] at h2
            have : r ∈ (entries (setAll e a calls) f).filter (fun r => e.matchScope r.scope (instName e ctx inst)) :=
              List.mem_filter.mpr ⟨List.mem_filterMap.mpr ⟨i, h1, hr⟩, h2⟩
            rw [h0] at this; simp at this
        rw [getByName_none.mpr hl] at hg
        cases hg
      obtain ⟨r', hr'⟩ := highest_some hne
      rw [hr'] at this
      simp [this]

example : (cfgGet exEnv (setAll exEnv true [⟨1, "x", "f", 2, false⟩]) 0 "top.x" "f").isSome ∧
    cfgExists exEnv (setAll exEnv true [⟨1, "x", "f", 2, false⟩]) 0 "top.y" "f" = false := by decide

/-- An entry of the pool as a setting. -/
def Shows (r : Rsrc V) (s : Setting V) : Prop :=
  r.creator = some s.ctx ∧ r.scope = s.path ∧ r.val = s.val ∧ r.prec = 1000 - (s.level : Int) ∧ r.readOnly = false

/-- A list of entries as a list of settings. -/
inductive AllShow : List (Rsrc V) → List (Setting V) → Prop
  | nil : AllShow [] []
  | cons {r s l m} : Shows r s → AllShow l m → AllShow (r :: l) (s :: m)

theorem shows_key {r : Rsrc V} {s : Setting V} (h : Shows r s) (c : Nat) (p : String) : hasKey c p r = (s.ctx == c && s.path == p) := by
  unfold hasKey
  rw [h.1, h.2.1]
  by_cases hc : s.ctx = c <;> simp [hc]

theorem shows_find {l : List (Rsrc V)} {m : List (Setting V)} (h : AllShow l m) (c : Nat) (p : String) :
    (l.find? (hasKey c p) = none ∧ m.find? (fun s => s.ctx == c && s.path == p) = none) ∨
    ∃ r s, l.find? (hasKey c p) = some r ∧ m.find? (fun s => s.ctx == c && s.path == p) = some s ∧ Shows r s := by
  induction h with
  | nil => exact .inl ⟨rfl, rfl⟩
  | @cons r s l m h _ ih =>
    rw [List.find?_cons, List.find?_cons, shows_key h]
    cases hk : (s.ctx == c && s.path == p) with
    | true => exact .inr ⟨r, s, rfl, rfl, h⟩
    | false => exact ih

theorem shows_filter {l : List (Rsrc V)} {m : List (Setting V)} (h : AllShow l m) (p : Rsrc V → Bool) (q : Setting V → Bool)
    (hpq : ∀ r s, Shows r s → p r = q s) : AllShow (l.filter p) (m.filter q) := by
  induction h with
  | nil => exact .nil
  | @cons r s l m h _ ih =>
    rw [List.filter_cons, List.filter_cons, hpq r s h]
    split
    · exact .cons h ih
    · exact ih

theorem shows_append {l l' : List (Rsrc V)} {m m' : List (Setting V)} (h : AllShow l m) (h' : AllShow l' m') :
    AllShow (l ++ l') (m ++ m') := by
  induction h with
  | nil => exact h'
  | cons h _ ih => exact .cons h ih

theorem shows_settle (e : Env V) (a : Bool) {l : List (Rsrc V)} {m : List (Setting V)} (h : AllShow l m) (c : Call V) :
    AllShow (specSet e a l c) (settle e m c) := by
  have hp : setPrec e c.ctx c.build = 1000 - ((if c.build then depth e c.ctx else 0 : Nat) : Int) := by
    unfold setPrec; cases c.build <;> simp
  unfold specSet settle
  dsimp only
  rcases shows_find h c.ctx (instName e c.ctx c.inst) with ⟨h1, h2⟩ | ⟨r, s, h1, h2, hs⟩
  · rw [h1, h2]
    refine .cons ⟨by simp [write_name], by simp [write_name], ?_, by simp only [write_name]; exact hp, by simp [write_name]⟩ h
    simp only [write, Bool.false_eq_true, if_false]
    split <;> rfl
  · rw [h1, h2]
    have hk := List.find?_some h2
    simp only [Bool.and_eq_true, beq_iff_eq] at hk
    refine shows_append (shows_filter h _ _ fun r s hs => by rw [shows_key hs]) (.cons ⟨?_, ?_, ?_, ?_, ?_⟩ .nil)
    · simp only [write_name, hs.1, hk.1]
    · simp only [write_name, hs.2.1, hk.2]
    · simp only [write, hs.2.2.2.2, Bool.false_eq_true, if_false, hs.2.2.1]
      split <;> rfl
    · simp only [write_name]; exact hp
    · simp only [write_name, hs.2.2.2.2]

theorem shows_settled (e : Env V) (a : Bool) (f : String) (calls : List (Call V)) : AllShow (specEntries e a f calls) (settled e f calls) := by
  have key : ∀ (calls : List (Call V)) (l : List (Rsrc V)) (m : List (Setting V)), AllShow l m →
      AllShow (calls.foldl (fun acc c => if c.field = f then specSet e a acc c else acc) l)
        ((calls.filter fun c => c.field == f).foldl (settle e) m) := by
    intro calls
    induction calls with
    | nil => intro l m h; exact h
    | cons c calls ih =>
      intro l m h
      rw [List.foldl_cons, List.filter_cons]
      by_cases hc : c.field = f
      · simp only [hc, if_true, beq_self_eq_true, List.foldl_cons]
        exact ih _ _ (shows_settle e a h c)
      · simp only [hc, if_false, beq_iff_eq]
        exact ih _ _ h
  exact key calls [] [] .nil

theorem shows_split {q pre post : List (Rsrc V)} {r : Rsrc V} {m : List (Setting V)} (h : AllShow q m) (hq : q = pre ++ r :: post) :
    ∃ s mpre mpost, m = mpre ++ s :: mpost ∧ Shows r s ∧ AllShow pre mpre ∧ AllShow post mpost := by
  induction pre generalizing q m with
  | nil =>
    subst hq
    cases h with
    | @cons _ s _ m h1 h2 => exact ⟨s, [], m, rfl, h1, .nil, h2⟩
  | cons x pre ih =>
    subst hq
    cases h with
    | @cons _ y _ m h1 h2 =>
      obtain ⟨s, mp, mq, e1, e2, e3, e4⟩ := ih h2 rfl
      exact ⟨s, y :: mp, mq, by rw [e1]; rfl, e2, .cons h1 e3, e4⟩

theorem shows_mem {l : List (Rsrc V)} {m : List (Setting V)} (h : AllShow l m) {s : Setting V} (hs : s ∈ m) : ∃ r ∈ l, Shows r s := by
  induction h with
  | nil => simp at hs
  | @cons r s' l m h _ ih =>
    rcases List.mem_cons.1 hs with rfl | hs
    · exact ⟨r, by simp, h⟩
    · obtain ⟨r', h1, h2⟩ := ih hs
      exact ⟨r', by simp [h1], h2⟩

/-- C24, C25: what a get returns, for every history of sets, in build and outside: nothing if no setting of the field matches; else, of the matching
settings of the level closest to the root, the first in the order the sets leave. -/
theorem C24_exact_partial (e : Env V) (a : Bool) (calls : List (Call V)) (hcol : NoCollision e calls) (ctx : Nat) (inst f : String) (hf : f ≠ "") :
    let q := (settled e f calls).filter fun s => e.matchScope s.path (instName e ctx inst)
    (cfgGet e (setAll e a calls) ctx inst f = none ↔ q = []) ∧
    ∀ v, cfgGet e (setAll e a calls) ctx inst f = some v →
      ∃ pre s post, q = pre ++ s :: post ∧ s.val = v ∧ (∀ x ∈ pre, s.level < x.level) ∧ ∀ x ∈ post, s.level ≤ x.level := by
  intro q
  rw [cfgGet_eq (inv_setAll e a _) ctx inst f hf, entries_setAll e a f hf _ hcol]
  have hall := shows_filter (shows_settled e a f calls) (fun r => e.matchScope r.scope (instName e ctx inst))
    (fun s => e.matchScope s.path (instName e ctx inst)) (fun r s h => by rw [h.2.1])
  generalize (specEntries e a f calls).filter (fun r => e.matchScope r.scope (instName e ctx inst)) = l at hall ⊢
  change AllShow l q at hall
  clear_value q
  refine ⟨?_, ?_⟩
  · cases hall with
    | nil => simp [highest]
    | cons => simp [highest]
  · intro v hv
    obtain ⟨r, hr, rfl⟩ := Option.map_eq_some_iff.1 hv
    obtain ⟨pre, post, e1, e2, e3⟩ := highest_spec l r hr
    obtain ⟨s, mp, mq, g1, g2, g3, g4⟩ := shows_split hall e1
    refine ⟨mp, s, mq, g1, g2.2.2.1.symm, fun x hx => ?_, fun x hx => ?_⟩
    · obtain ⟨y, hy, hs⟩ := shows_mem g3 hx
      have h1 := e2 y hy; have h2 := hs.2.2.2.1; have h3 := g2.2.2.2.1; omega
    · obtain ⟨y, hy, hs⟩ := shows_mem g4 hx
      have h1 := e3 y hy; have h2 := hs.2.2.2.1; have h3 := g2.2.2.2.1; omega

example : (settled exEnv "f" [⟨0, "top.x", "f", 1, false⟩, ⟨0, "*", "f", 2, false⟩, ⟨0, "top.x", "f", 3, false⟩]).map (fun s => (s.path, s.val, s.level)) =
    [("*", 2, 0), ("top.x", 3, 0)] := by decide

/-- C24: the path a setting or a request stands for: the context's full name, followed by the instance name after a dot; each alone if
the other is empty. -/
theorem C24_path (e : Env V) (ctx : Nat) (inst : String) :
    instName e ctx "" = e.fullName ctx ∧ (e.fullName ctx = "" → instName e ctx inst = inst) ∧
    (e.fullName ctx ≠ "" → inst ≠ "" → instName e ctx inst = e.fullName ctx ++ "." ++ inst) := by
  refine ⟨by simp [instName], ?_, ?_⟩
  · intro h; unfold instName; split <;> simp_all
  · intro h1 h2; simp [instName, h1, h2]

example : instName exEnv 1 "x" = "top.x" ∧ instName exEnv 0 "x" = "x" ∧ instName exEnv 1 "" = "top" := by decide

/-! ## C25 -/

/-- C25: "deeper" is what it should be: the root has depth 0, its children 1, and a child is one deeper than its parent. -/
theorem C25_depth (e : Env V) (ctx child : Nat) (leaf : String) (hl : '.' ∉ leaf.toList) :
    (e.mName ctx = "" → depth e ctx = 0) ∧
    (e.mName child = leaf → leaf ≠ "" → depth e child = 1) ∧
    (e.mName ctx ≠ "" → e.mName child = e.mName ctx ++ "." ++ leaf → depth e child = depth e ctx + 1) := by
  have h0 : leaf.toList.countP (· = '.') = 0 := by
    rw [List.countP_eq_zero]
    intro c hc h
    simp at h
    exact hl (h ▸ hc)
  refine ⟨by intro h; simp [depth, h], ?_, ?_⟩
  · intro h1 h2; rw [depth, h1, if_neg h2, h0]
  · intro h1 h2
    have hne : e.mName child ≠ "" := by
      rw [h2]
      intro h
      have := congrArg String.toList h
      simp at this
    have hd : (".".toList).countP (· = '.') = 1 := by decide
    rw [depth, depth, if_neg hne, if_neg h1, h2, String.toList_append, String.toList_append, List.countP_append, List.countP_append, h0, hd]
    omega

example : depth exEnv 0 = 0 ∧ depth exEnv 1 = 1 ∧ depth exEnv 2 = depth exEnv 1 + 1 := by decide

/-- C25: for every history of sets during build, in any order: if every matching set that is not of the same context, pattern and field
comes from a strictly deeper component, `get` returns the value last set by `c`. -/
theorem C25_higher_level_wins (e : Env V) (a : Bool) (pre post : List (Call V)) (c : Call V) (ctx : Nat) (inst : String)
    (hf : c.field ≠ "") (hcol : NoCollision e (pre ++ c :: post)) (hb : ∀ c' ∈ pre ++ c :: post, c'.build = true)
    (hm : c.Matches e (instName e ctx inst) c.field) (hlast : ∀ c' ∈ post, ¬ c.SameKey e c')
    (hdeep : ∀ c' ∈ pre ++ c :: post, c'.Matches e (instName e ctx inst) c.field → c'.SameKey e c ∨ depth e c.ctx < depth e c'.ctx) :
    ∃ w, cfgGet e (setAll e a (pre ++ c :: post)) ctx inst c.field = some w ∧ SameVal e w c.val := by
  rw [cfgGet_eq (inv_setAll e a _) ctx inst c.field hf, entries_setAll e a c.field hf _ hcol]
  generalize instName e ctx inst = path at *
  obtain ⟨r, ⟨h1, h2, h3, h4⟩, huniq⟩ := specEntries_key e a c.field pre post c rfl hlast
  have hk := h2
  simp only [hasKey, Bool.and_eq_true, beq_iff_eq] at hk
  have hin : r ∈ (specEntries e a c.field (pre ++ c :: post)).filter (fun r => e.matchScope r.scope path) :=
    List.mem_filter.mpr ⟨h1, by rw [hk.2]; exact hm.2⟩
  obtain ⟨r', hr'⟩ := highest_some (List.ne_nil_of_mem hin)
  rw [hr']
  obtain ⟨p, q, hq, hp1, hp2⟩ := highest_spec _ _ hr'
  obtain ⟨hm1, hm2⟩ := List.mem_filter.mp (highest_mem hr')
  obtain ⟨_, c', hc', hf', hcr', hsc', hpr'⟩ := specEntries_mem e a c.field _ r' hm1
  have hcb : c.build = true := hb c (by simp)
  have : r' = r := by
    rcases hdeep c' hc' ⟨hf', by rw [← hsc']; exact hm2⟩ with hs | hd
    · apply huniq r' hm1
      simp only [hasKey, Bool.and_eq_true, beq_iff_eq]
      exact ⟨by rw [hcr', hs.1], by rw [hsc', hs.2.1]⟩
    · exfalso
      have hle : r.prec ≤ r'.prec := by
        rw [hq] at hin
        rcases List.mem_append.mp hin with h | h
        · exact Int.le_of_lt (hp1 r h)
        · rcases List.mem_cons.mp h with h | h
          · rw [h]; exact Int.le_refl _
          · exact hp2 r h
      rw [h4, hpr'] at hle
      simp only [setPrec, hcb, hb c' hc', if_true] at hle
      omega
  rw [this]
  exact ⟨r.val, rfl, h3⟩

/-- The deeper component's sets come before and after the one of its parent. -/
example : cfgGet exEnv (setAll exEnv true [⟨2, "x", "f", 1, true⟩, ⟨1, "env.x", "f", 2, true⟩, ⟨2, "x", "f", 3, true⟩, ⟨2, "x", "f", 4, true⟩]) 2 "x" "f" = some 2
    ∧ depth exEnv 1 = 1 ∧ depth exEnv 2 = 2 := by decide

/-- C25: a set made after (or before) the build phase counts as one from the root: it beats every set made in build below the root. -/
theorem C25_after_build_wins (e : Env V) (a : Bool) (pre post : List (Call V)) (c : Call V) (ctx : Nat) (inst : String)
    (hf : c.field ≠ "") (hcol : NoCollision e (pre ++ c :: post)) (hcb : c.build = false)
    (hm : c.Matches e (instName e ctx inst) c.field) (hlast : ∀ c' ∈ post, ¬ c.SameKey e c')
    (hother : ∀ c' ∈ pre ++ c :: post, c'.Matches e (instName e ctx inst) c.field → c'.SameKey e c ∨ (c'.build = true ∧ e.mName c'.ctx ≠ "")) :
    ∃ w, cfgGet e (setAll e a (pre ++ c :: post)) ctx inst c.field = some w ∧ SameVal e w c.val := by
  rw [cfgGet_eq (inv_setAll e a _) ctx inst c.field hf, entries_setAll e a c.field hf _ hcol]
  generalize instName e ctx inst = path at *
  obtain ⟨r, ⟨h1, h2, h3, h4⟩, huniq⟩ := specEntries_key e a c.field pre post c rfl hlast
  have hk := h2
  simp only [hasKey, Bool.and_eq_true, beq_iff_eq] at hk
  have hin : r ∈ (specEntries e a c.field (pre ++ c :: post)).filter (fun r => e.matchScope r.scope path) :=
    List.mem_filter.mpr ⟨h1, by rw [hk.2]; exact hm.2⟩
  obtain ⟨r', hr'⟩ := highest_some (List.ne_nil_of_mem hin)
  rw [hr']
  obtain ⟨p, q, hq, hp1, hp2⟩ := highest_spec _ _ hr'
  obtain ⟨hm1, hm2⟩ := List.mem_filter.mp (highest_mem hr')
  obtain ⟨_, c', hc', hf', hcr', hsc', hpr'⟩ := specEntries_mem e a c.field _ r' hm1
  have : r' = r := by
    rcases hother c' hc' ⟨hf', by rw [← hsc']; exact hm2⟩ with hs | ⟨hcb', hd⟩
    · apply huniq r' hm1
      simp only [hasKey, Bool.and_eq_true, beq_iff_eq]
      exact ⟨by rw [hcr', hs.1], by rw [hsc', hs.2.1]⟩
    · exfalso
      have hle : r.prec ≤ r'.prec := by
        rw [hq] at hin
        rcases List.mem_append.mp hin with h | h
        · exact Int.le_of_lt (hp1 r h)
        · rcases List.mem_cons.mp h with h | h
          · rw [h]; exact Int.le_refl _
          · exact hp2 r h
      rw [h4, hpr'] at hle
      simp only [setPrec, hcb, hcb', if_true, Bool.false_eq_true, if_false, depth, hd] at hle
      omega
  rw [this]
  exact ⟨r.val, rfl, h3⟩

example : cfgGet exEnv (setAll exEnv true [⟨2, "x", "f", 1, false⟩, ⟨1, "env.x", "f", 2, true⟩]) 2 "x" "f" = some 1 := by decide

/-! ## C26 -/

/-- C26: a write to a read-only resource changes nothing at all; writing an equal value changes nothing at all; any other write makes
`read` return the new value and marks the resource modified. -/
theorem C26_write (e : Env V) (a : Bool) (r : Rsrc V) (v : V) (acc : Option String) :
    (r.readOnly = true → write e a r v acc = r) ∧
    (e.eqv r.val v = true → write e a r v acc = r) ∧
    (r.readOnly = false → e.eqv r.val v = false →
      (∀ acc', (read a (write e a r v acc) acc').2 = v) ∧ (write e a r v acc).modified = true) := by
  refine ⟨?_, ?_, ?_⟩
  · intro h; simp [write, h]
  · intro h; unfold write; split <;> simp [h]
  · intro h1 h2; simp [write, h1, h2, read]

example : let r : Rsrc Int := { name := "a", scope := "*", val := 3 }
    (write exEnv true r 4 none).val = 4 ∧ (write exEnv true { r with readOnly := true } 4 none).val = 3 := by decide

/-- The value a resource should hold after a history of calls: the last write that was allowed and different. -/
def specVal (e : Env V) : V × Bool → List (ROp V) → V × Bool
  | s, [] => s
  | (v, ro), .write w _ :: ops => specVal e (if ro then v else if e.eqv v w then v else w, ro) ops
  | (v, _), .setReadOnly :: ops => specVal e (v, true) ops
  | (v, _), .setReadWrite :: ops => specVal e (v, false) ops
  | s, _ :: ops => specVal e s ops

/-- C26: over every history of reads, writes and read-only changes, the value and the write protection are those of the specification;
reads never change them, and while the resource is read-only the value stays. -/
theorem C26_history (e : Env V) (a : Bool) (r : Rsrc V) (ops : List (ROp V)) :
    ((runS (rstep e a) r ops).val, (runS (rstep e a) r ops).readOnly) = specVal e (r.val, r.readOnly) ops := by
  induction ops generalizing r with
  | nil => rfl
  | cons op ops ih =>
    rw [runS_cons, ih]
    cases op with
    | read acc =>
      have : (recordRead a r acc).val = r.val ∧ (recordRead a r acc).readOnly = r.readOnly := by
        unfold recordRead; split <;> simp
      simp [rstep, specVal, read, this]
    | write v acc =>
      have h2 : (write e a r v acc).readOnly = r.readOnly := by simp [write_name]
      have h1 : (write e a r v acc).val = if r.readOnly then r.val else if e.eqv r.val v then r.val else v := by
        unfold write; (repeat' split) <;> simp_all
      simp only [rstep, specVal, h1, h2]
    | setReadOnly => rfl
    | setReadWrite => rfl
    | ackModified => rfl

/-- C26: `modified` is set after a history exactly if some write since the last acknowledgement changed the value. -/
theorem C26_modified (e : Env V) (a : Bool) (r : Rsrc V) (ops : List (ROp V)) (hops : ∀ op ∈ ops, op ≠ .ackModified) :
    (runS (rstep e a) r ops).modified = true ↔
      r.modified = true ∨ ∃ pre v acc post, ops = pre ++ .write v acc :: post ∧ (runS (rstep e a) r pre).readOnly = false ∧
        e.eqv (runS (rstep e a) r pre).val v = false := by
  induction ops generalizing r with
  | nil => simp
  | cons op ops ih =>
    rw [runS_cons, ih _ (fun o ho => hops o (by simp [ho]))]
    have hstep : (rstep e a r op).1.modified = true ↔ r.modified = true ∨ ∃ v acc, op = .write v acc ∧ r.readOnly = false ∧ e.eqv r.val v = false := by
      cases op with
      | read acc => simp [rstep, read, recordRead]; split <;> simp
      | write v acc =>
        simp only [rstep, write]
        by_cases h1 : r.readOnly = true
        · simp [h1]
        · by_cases h2 : e.eqv r.val v = true
          · simp [h1, h2]
          · simp [h1, h2]
      | setReadOnly => simp [rstep]
      | setReadWrite => simp [rstep]
      | ackModified => exact absurd rfl (hops _ (by simp))
    rw [hstep]
    constructor
    · rintro ((h | ⟨v, acc, rfl, h1, h2⟩) | ⟨pre, v, acc, post, rfl, h1, h2⟩)
      · exact Or.inl h
      · exact Or.inr ⟨[], v, acc, ops, rfl, h1, h2⟩
      · exact Or.inr ⟨op :: pre, v, acc, post, rfl, by rw [runS_cons]; exact h1, by rw [runS_cons]; exact h2⟩
    · rintro (h | ⟨pre, v, acc, post, heq, h1, h2⟩)
      · exact Or.inl (Or.inl h)
      · cases pre with
        | nil => simp at heq; exact Or.inl (Or.inr ⟨v, acc, heq.1, h1, h2⟩)
        | cons o pre =>
          simp at heq
          rw [runS_cons, ← heq.1] at h1 h2
          exact Or.inr ⟨pre, v, acc, post, heq.2, h1, h2⟩

example : (runS (rstep exEnv true) { name := "a", scope := "*", val := 3 } [.write 4 none, .setReadOnly, .write 5 none, .read none]).val = 4 := by decide

/-! ## C61: sorting by precedence -/

/-- C61 (partial): the sorted queue has the same resources, and resources of equal precedence keep their order.  Missing: that it is
sorted (`C61_not_sorted_fails`). -/
theorem C61_sort_partial (q : List (Rsrc V)) :
    (sortByPrecedence q).Perm q ∧
    ∀ p, (sortByPrecedence q).filter (fun r => r.prec = p) = q.filter (fun r => r.prec = p) := by
  rw [sort_eq]
  constructor
  · have := groups_perm q []
    simp at this
    exact (List.reverse_perm _).trans this
  · intro p
    rw [List.filter_reverse, groups_filter q p [] (by simp) (by simp)]
    simp

example : (sortByPrecedence [{ name := "a", scope := "", val := (1 : Int) }, { name := "b", scope := "", val := 2, prec := 1005 },
    { name := "c", scope := "", val := 3 }]).map (·.val) = [2, 1, 3] := by decide

/-- C61 fails in the code: the groups come in the order of first appearance, so the result need not be sorted by precedence. -/
theorem C61_not_sorted_fails : ∃ q : List (Rsrc Int), ((sortByPrecedence q).map (·.prec)) = [999, 1000] :=
  ⟨[{ name := "a", scope := "", val := 1, prec := 1000 }, { name := "b", scope := "", val := 2, prec := 999 }], by decide⟩

/-! ## C62: the resource database -/

/-- State after a history of `UVMResourceDb.set(scope, name, val, accessor)` calls. -/
def dbSetAll (e : Env V) (a : Bool) (calls : List (String × String × V × Option String)) : Db V :=
  calls.foldl (fun d c => dbSet e a d c.1 c.2.1 c.2.2.1 c.2.2.2) {}

theorem inv_dbSet {e : Env V} {a : Bool} {d : Db V} (hd : Inv d) (scope name : String) (v : V) (acc : Option String) :
    Inv (dbSet e a d scope name v acc) := by
  let r0 : Rsrc V := { name, scope, val := e.none }
  have key := inv_add hd (write e a r0 v acc) false d.cfg (by intro c k; simp [r0, write_name]) (by intro c hc; simp [r0, write_name] at hc)
  simpa [r0, write_name, dbSet] using key

theorem entries_dbSet {e : Env V} {a : Bool} {d : Db V} (hd : Inv d) (scope name : String) (v : V) (acc : Option String) (f : String) (hf : f ≠ "") :
    entries (dbSet e a d scope name v acc) f =
      if name = f then entries d f ++ [write e a { name, scope, val := e.none } v acc] else entries d f := by
  unfold dbSet
  have hold : ∀ id ∈ d.rtab f, ∀ x : Rsrc V, (d.heap ++ [x])[id]? = d.heap[id]? := by
    intro id hid x; rw [List.getElem?_append_left (rtab_lt hd hid)]
  by_cases hcf : name = f
  · subst hcf
    simp only [if_true]
    conv => lhs; unfold entries
    simp only [poolSet_eq, if_true, hf, ne_eq, not_false_eq_true, Bool.false_eq_true, if_false, List.filterMap_append]
    congr 1
    · exact entries_congr _ _ (fun id hid => hold id hid _)
    · simp
  · simp only [hcf, if_false]
    unfold entries
    simp only [poolSet_eq, Ne.symm hcf, if_false]
    exact entries_congr _ _ (fun id hid => hold id hid _)

/-- C62: after any history of `UVMResourceDb.set` calls, reading a name in a scope gives the value of the *first* set of that name whose
scope pattern matches, and nothing if there is none. -/
theorem C62_first_set_wins (e : Env V) (a : Bool) (calls : List (String × String × V × Option String)) (scope name : String) (hn : name ≠ "") :
    match calls.find? (fun c => c.2.1 == name && e.matchScope c.1 scope) with
    | none => dbRead e (dbSetAll e a calls) scope name = none
    | some c => ∃ w, dbRead e (dbSetAll e a calls) scope name = some w ∧ SameVal e w c.2.2.1 := by
  have hmain : Inv (dbSetAll e a calls) ∧ entries (dbSetAll e a calls) name =
      (calls.filter (fun c => c.2.1 == name)).map fun c => write e a { name := c.2.1, scope := c.1, val := e.none } c.2.2.1 c.2.2.2 := by
    obtain ⟨k, rfl⟩ : ∃ k, calls = List.reverse k := ⟨calls.reverse, by simp⟩
    induction k with
    | nil => exact ⟨inv_init, by simp [dbSetAll, entries]⟩
    | cons c k ih =>
      have hs : dbSetAll e a (List.reverse (c :: k)) = dbSet e a (dbSetAll e a (List.reverse k)) c.1 c.2.1 c.2.2.1 c.2.2.2 := by
        simp [dbSetAll, List.foldl_append]
      rw [hs]
      refine ⟨inv_dbSet ih.1 _ _ _ _, ?_⟩
      rw [entries_dbSet ih.1 _ _ _ _ _ hn, ih.2]
      by_cases h : c.2.1 = name
      · simp [h, List.filter_append]
      · simp [h, List.filter_append]
  rw [dbRead_eq hmain.1 scope name hn, hmain.2]
  have hprec : ∀ r ∈ ((calls.filter (fun c => c.2.1 == name)).map fun c => write e a { name := c.2.1, scope := c.1, val := e.none } c.2.2.1 c.2.2.2).filter
      (fun r => e.matchScope r.scope scope), r.prec = 1000 := by
    intro r hr
    obtain ⟨c, _, rfl⟩ := List.mem_map.mp (List.mem_filter.mp hr).1
    simp [write_name]
  rw [highest_eq_head 1000 hprec, List.filter_map, List.filter_filter]
  have hfun : (fun c : String × String × V × Option String => ((fun r : Rsrc V => e.matchScope r.scope scope) ∘ fun c => write e a { name := c.2.1, scope := c.1, val := e.none } c.2.2.1 c.2.2.2) c && (c.2.1 == name)) =
      fun c => (c.2.1 == name && e.matchScope c.1 scope) := by
    funext c; simp [write_name, Bool.and_comm]
  rw [hfun, List.head?_map, List.head?_filter]
  cases hfd : calls.find? (fun c => c.2.1 == name && e.matchScope c.1 scope) with
  | none => rfl
  | some c => exact ⟨_, rfl, write_val e a _ _ _ rfl⟩

example : dbRead exEnv (dbSetAll exEnv true [("y", "n", 1, none), ("x", "n", 2, none), ("*", "n", 3, none)]) "x" "n" = some 2 := by decide

/-- C62: `write_by_name` reports success exactly if the name can be read, and then the value written is read back in the same scope
(unless the resource is read-only); what is read under other names does not change. -/
theorem C62_write_by_name (e : Env V) (a : Bool) (d : Db V) (hd : Inv d) (scope name : String) (hn : name ≠ "") (v : V) (acc : Option String)
    (hro : ∀ r ∈ entries d name, r.readOnly = false) :
    ((dbWrite e a d scope name v acc).2 = true ↔ (dbRead e d scope name).isSome) ∧
    ((dbWrite e a d scope name v acc).2 = false → (dbWrite e a d scope name v acc).1 = d) ∧
    ((dbWrite e a d scope name v acc).2 = true →
      ∃ w, dbRead e (dbWrite e a d scope name v acc).1 scope name = some w ∧ SameVal e w v) ∧
    (∀ scope' name', name' ≠ name → name' ≠ "" → dbRead e (dbWrite e a d scope name v acc).1 scope' name' = dbRead e d scope' name') := by
  unfold dbWrite
  have hval : ∀ j ∈ lookupName e d scope name, ∃ r, d.heap[j]? = some r ∧ j ∈ d.rtab name := by
    intro j hj
    unfold lookupName at hj
    rw [if_neg hn] at hj
    obtain ⟨r, hr, _⟩ := hd.valid name j (List.mem_filter.mp hj).1
    exact ⟨r, hr, (List.mem_filter.mp hj).1⟩
  cases hg : getByName e d scope name with
  | none => simp [dbRead, hg]
  | some id =>
    have hid : id ∈ lookupName e d scope name := by
      unfold getByName at hg
      cases hl : lookupName e d scope name with
      | nil => rw [hl] at hg; simp at hg
      | cons i q =>
        rw [hl] at hg hval
        obtain ⟨r, hr, _⟩ := hval i (by simp)
        simp only [Option.some.injEq] at hg
        rw [← hg]
        exact (bestId_eq (d := d) q i r hr (fun j hj => by obtain ⟨r, h, _⟩ := hval j (by simp [hj]); exact ⟨r, h⟩)).2
    obtain ⟨r, hr, hrt⟩ := hval id hid
    have hi' := inv_modify hd id (fun r => write e a r v acc) (by intro r; simp [write_name])
    have hheap : ∀ j : Nat, (modify d id fun r => write e a r v acc).heap[j]? = (d.heap[j]?).map fun r => if j = id then write e a r v acc else r := by
      intro j
      simp only [modify, List.getElem?_modify]
      cases d.heap[j]? with
      | none => simp
      | some r => by_cases h : id = j <;> simp [h, eq_comm]
    -- lookups are unaffected by the write
    have hlook : ∀ s n, lookupName e (modify d id fun r => write e a r v acc) s n = lookupName e d s n := by
      intro s n
      unfold lookupName
      split
      · rfl
      · show (d.rtab n).filter _ = _
        apply List.filter_congr
        intro j _
        rw [hheap]
        cases d.heap[j]? with
        | none => rfl
        | some r => simp only [Option.map_some]; split <;> simp [write_name]
    have hprec : ∀ j : Nat, ((modify d id fun r => write e a r v acc).heap[j]?).map (fun r : Rsrc V => r.prec) = (d.heap[j]?).map (fun r : Rsrc V => r.prec) := by
      intro j
      rw [hheap]
      cases d.heap[j]? with
      | none => rfl
      | some r => simp only [Option.map_some]; split <;> simp [write_name]
    have hbest : ∀ q i, bestId (modify d id fun r => write e a r v acc) i q = bestId d i q := by
      intro q
      induction q with
      | nil => intro i; rfl
      | cons j q ih => intro i; simp only [bestId, hprec, ih]
    have hget : ∀ s n, getByName e (modify d id fun r => write e a r v acc) s n = getByName e d s n := by
      intro s n
      unfold getByName
      rw [hlook]
      cases lookupName e d s n with
      | nil => rfl
      | cons i q => simp [hbest]
    refine ⟨by simp [dbRead, hg, hr], by simp, ?_, ?_⟩
    · intro _
      unfold dbRead
      rw [hget, hg]
      simp only [hheap, hr, Option.map_some, if_true]
      refine ⟨_, rfl, write_val e a r v acc (hro r ?_)⟩
      exact List.mem_filterMap.mpr ⟨id, hrt, hr⟩
    · intro scope' name' hne hne2
      unfold dbRead
      rw [hget]
      cases hg' : getByName e d scope' name' with
      | none => rfl
      | some id' =>
        simp only [hheap]
        have : id' ≠ id := by
          rintro rfl
          have : id' ∈ d.rtab name' := by
            unfold getByName at hg'
            have hval' : ∀ j ∈ lookupName e d scope' name', ∃ r, d.heap[j]? = some r ∧ j ∈ d.rtab name' := by
              intro j hj
              unfold lookupName at hj
              rw [if_neg hne2] at hj
              obtain ⟨r, hr, _⟩ := hd.valid name' j (List.mem_filter.mp hj).1
              exact ⟨r, hr, (List.mem_filter.mp hj).1⟩
            cases hl : lookupName e d scope' name' with
            | nil => rw [hl] at hg'; simp at hg'
            | cons i q =>
              rw [hl] at hg' hval'
              obtain ⟨r1, hr1, _⟩ := hval' i (by simp)
              simp only [Option.some.injEq] at hg'
              have hm := (bestId_eq (d := d) q i r1 hr1 (fun j hj => by obtain ⟨r, h, _⟩ := hval' j (by simp [hj]); exact ⟨r, h⟩)).2
              rw [hg'] at hm
              obtain ⟨_, _, h⟩ := hval' id' hm
              exact h
          obtain ⟨r1, hr1, hn1⟩ := hd.valid name' id' this
          obtain ⟨r2, hr2, hn2⟩ := hd.valid name id' hrt
          rw [hr1] at hr2; cases hr2
          exact hne (hn1.symm.trans hn2)
        cases d.heap[id']? with
        | none => rfl
        | some r => simp [this]

example : (dbWrite exEnv true (dbSetAll exEnv true [("y", "n", 1, none), ("x", "n", 2, none)]) "x" "n" 9 none).2 = true ∧
    dbRead exEnv (dbWrite exEnv true (dbSetAll exEnv true [("y", "n", 1, none), ("x", "n", 2, none)]) "x" "n" 9 none).1 "x" "n" = some 9 ∧
    dbRead exEnv (dbWrite exEnv true (dbSetAll exEnv true [("y", "n", 1, none), ("x", "n", 2, none)]) "x" "n" 9 none).1 "y" "n" = some 1 := by decide

/-! ## C63: access records -/

/-- The reads by `s` in a history (`None` counts as "<empty>"). -/
def readsBy (s : String) (ops : List (ROp V)) : Nat :=
  ops.countP fun op => match op with
    | .read acc => acc.getD "<empty>" == s
    | _ => false

/-- The writes by `s` that changed the value. -/
def writesBy (e : Env V) (s : String) : V × Bool → List (ROp V) → Nat
  | _, [] => 0
  | (v, ro), .write w acc :: ops =>
    (if ro = false ∧ e.eqv v w = false ∧ acc = some s then 1 else 0) + writesBy e s (specVal e (v, ro) [.write w acc]) ops
  | st, op :: ops => writesBy e s (specVal e st [op]) ops

/-- C63: with auditing on, the record of an accessor counts exactly its reads and those of its writes that changed the value, over every
history; with auditing off nothing is recorded. -/
theorem C63_access_records (e : Env V) (r : Rsrc V) (ops : List (ROp V)) (s : String) :
    (runS (rstep e true) r ops).access s = ((r.access s).1 + readsBy s ops, (r.access s).2 + writesBy e s (r.val, r.readOnly) ops) ∧
    (runS (rstep e false) r ops).access s = r.access s := by
  constructor
  · induction ops generalizing r with
    | nil => simp [readsBy, writesBy]
    | cons op ops ih =>
      rw [runS_cons, ih]
      cases op with
      | read acc =>
        simp only [rstep, read, recordRead, Bool.not_true, Bool.false_eq_true, if_false, readsBy, List.countP_cons, writesBy, specVal, Prod.mk.injEq]
        by_cases h : acc.getD "<empty>" = s
        · simp [h]; omega
        · simp [h, Ne.symm h]
      | write v acc =>
        have h2 : (write e true r v acc).readOnly = r.readOnly := by simp [write_name]
        have h1 : (write e true r v acc).val = if r.readOnly then r.val else if e.eqv r.val v then r.val else v := by
          unfold write; (repeat' split) <;> simp_all
        have h3 : (write e true r v acc).access s = ((r.access s).1, (r.access s).2 + if r.readOnly = false ∧ e.eqv r.val v = false ∧ acc = some s then 1 else 0) := by
          unfold write
          by_cases hro : r.readOnly = true
          · simp [hro]
          · by_cases hev : e.eqv r.val v = true
            · simp [hro, hev]
            · cases acc with
              | none => simp [hro, hev, recordWrite]
              | some t =>
                by_cases ht : t = s
                · simp [hro, hev, recordWrite, ht]
                · simp [hro, hev, recordWrite, ht, Ne.symm ht]
        simp only [rstep, h1, h2, h3, writesBy, specVal, readsBy, List.countP_cons, Prod.mk.injEq]
        refine ⟨by simp, by omega⟩
      | setReadOnly => simp [rstep, writesBy, specVal, readsBy, List.countP_cons]
      | setReadWrite => simp [rstep, writesBy, specVal, readsBy, List.countP_cons]
      | ackModified => simp [rstep, writesBy, specVal, readsBy, List.countP_cons]
  · induction ops generalizing r with
    | nil => simp
    | cons op ops ih =>
      rw [runS_cons, ih]
      cases op with
      | read acc => simp [rstep, read, recordRead]
      | write v acc => simp only [rstep, write, recordWrite]; (repeat' split) <;> simp_all
      | setReadOnly => rfl
      | setReadWrite => rfl
      | ackModified => rfl

example : (runS (rstep exEnv true) { name := "a", scope := "*", val := 3 } [.write 4 (some "x"), .write 4 (some "x"), .read (some "x"), .read none]).access "x" = (1, 1) := by decide

end Verif.Resource
