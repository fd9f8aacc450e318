import Verif.Spec.ConfigAuto
import Verif.Lemmas.Text
import Verif.Props.Resource
/-! # C192–C196: configuration by registered fields -/
namespace Verif.ConfigAuto
open Verif.Resource (Rsrc Db Env)
open Verif.Text (GlobL plain isMatch_eq)

theorem globL_lit (n : Str) (h : ∀ c ∈ n, c ≠ '*' ∧ c ≠ '?') (m : Str) : GlobL n m ↔ m = n := by
  induction n generalizing m with
  | nil =>
    constructor
    · intro h; cases h; rfl
    · intro h; subst h; exact .nil
  | cons c n ih =>
    have hc := h c (List.mem_cons_self ..)
    have ih := ih (fun d hd => h d (List.mem_cons_of_mem _ hd))
    constructor
    · intro hg
      cases hg with
      | star => exact absurd rfl hc.1
      | quest => exact absurd rfl hc.2
      | lit _ _ hg => rw [(ih _).1 hg]
    · intro hm
      subst hm
      exact .lit hc.1 hc.2 ((ih _).2 rfl)

/-- No character that means something in a pattern; dots and brackets are escaped by the code. -/
def quiet (n : String) : Prop := ∀ c ∈ n.toList, c ∉ ['^', '$', '{', '}', '(', ')', '|', '+', '\\', '/', '*', '?']

theorem ordinary.quiet {n : String} (hn : ordinary n) : quiet n := by
  intro c hc h
  refine hn c hc ?_
  simp only [List.mem_cons, List.not_mem_nil, or_false] at h ⊢
  rcases h with h | h | h | h | h | h | h | h | h | h | h | h <;> simp [h]

theorem matched_quiet (n x : String) (hn : quiet n) : matched n x = true ↔ n.toList <:+: x.toList := by
  have hp : plain n.toList := by
    refine ⟨fun c hc h => hn c hc ?_, fun h => ?_⟩
    · simp only [List.mem_cons, List.not_mem_nil, or_false] at h ⊢
      rcases h with h | h | h | h | h | h | h | h | h <;> simp [h]
    · have := List.mem_of_mem_head? h.1
      exact hn '/' this (by simp)
  obtain ⟨r, hr, hi⟩ := isMatch_eq n.toList x.toList hp
  have hlit : ∀ c ∈ n.toList, c ≠ '*' ∧ c ≠ '?' := fun c hc => ⟨fun h => hn c hc (by simp [h]), fun h => hn c hc (by simp [h])⟩
  have : matched n x = r := by simp [matched, hr]
  rw [this, hi]
  constructor
  · rintro ⟨a, m, b, h1, h2⟩
    rw [globL_lit _ hlit] at h2
    subst h2
    exact ⟨a, b, h1.symm⟩
  · rintro ⟨a, b, h⟩
    exact ⟨a, n.toList, b, h.symm, (globL_lit _ hlit _).2 rfl⟩

theorem matched_iff (n x : String) (hn : ordinary n) : matched n x = true ↔ n.toList <:+: x.toList := matched_quiet n x hn.quiet

theorem not_pathLike (n : String) (hn : ordinary n) : pathLike n = false := by
  simp only [pathLike, List.any_eq_false, Bool.or_eq_true, beq_iff_eq, not_or]
  exact fun c hc => ⟨fun h => hn c hc (by simp [h]), fun h => hn c hc (by simp [h])⟩

theorem setPlain_eq (name : String) (v : Val) (fields : List Field) (a : String → Val) (x : String) :
    setPlain name v fields a x = if (writable fields x && matched name x) then v else a x := by
  induction fields generalizing a with
  | nil => simp [setPlain, writable]
  | cons f fs ih =>
    simp only [setPlain, ih]
    simp only [writable, List.any_cons]
    by_cases hx : x = f.name
    · subst hx
      by_cases h1 : matched name f.name = true <;> by_cases h2 : f.readOnly = true <;> simp [put, h1, h2]
    · have hx' : ¬ f.name = x := fun h => hx h.symm
      have : (f.name == x) = false := by simp [hx']
      simp only [this, Bool.false_and, Bool.false_or]
      congr 1
      split <;> simp [put, hx]

theorem setObj_eq (name : String) (v : Val) (fields : List Field) (s : State) (hs : s.raised = false) (hp : pathLike name = false) :
    (setObj name v fields s).raised = false ∧ ∀ x, (setObj name v fields s).attrs x = if (writable fields x && matched name x) then v else s.attrs x := by
  induction fields generalizing s with
  | nil => exact ⟨hs, fun x => by simp [setObj, writable]⟩
  | cons f fs ih =>
    have hr : (setObjField name v f s).raised = false := by
      simp only [setObjField, hp, Bool.and_false, Bool.false_eq_true, if_false]
      split
      · split <;> exact hs
      · exact hs
    simp only [setObj, hr, Bool.false_eq_true, if_false]
    have := ih (setObjField name v f s) hr
    refine ⟨this.1, fun x => ?_⟩
    rw [this.2 x]
    simp only [writable, List.any_cons]
    simp only [setObjField, hp, Bool.and_false, Bool.false_eq_true, if_false]
    by_cases hx : x = f.name
    · subst hx
      by_cases h1 : matched name f.name = true <;> by_cases h2 : f.readOnly = true <;> simp [put, h1, h2]
    · have hx' : ¬ f.name = x := fun h => hx h.symm
      have : (f.name == x) = false := by simp [hx']
      simp only [this, Bool.false_and, Bool.false_or]
      congr 1
      split
      · split
        · rfl
        · simp [put, hx]
      · rfl

/-- Only registered fields that may be configured change. -/
theorem setObj_only (name : String) (v : Val) (fields : List Field) (s : State) (x : String) (hx : writable fields x = false) :
    (setObj name v fields s).attrs x = s.attrs x := by
  induction fields generalizing s with
  | nil => rfl
  | cons f fs ih =>
    simp only [writable, List.any_cons, Bool.or_eq_false_iff] at hx
    have hf : (setObjField name v f s).attrs x = s.attrs x := by
      simp only [setObjField]
      split
      · split
        · rfl
        · next h1 h2 =>
          have : ¬ x = f.name := by
            rintro rfl
            simp [h2] at hx
          simp [put, this]
      · split
        · split <;> rfl
        · rfl
    simp only [setObj]
    split
    · exact hf
    · rw [ih _ hx.2, hf]

theorem assign_only (name : String) (v : Val) (fields : List Field) (s : State) (x : String) (hx : writable fields x = false) :
    (assign fields name v s).attrs x = s.attrs x := by
  cases v with
  | int n => simp [assign, setPlain_eq, hx]
  | str n => simp [assign, setPlain_eq, hx]
  | obj n => simp only [assign]; exact setObj_only _ _ _ _ _ hx
  | copy n => simp only [assign]; exact setObj_only _ _ _ _ _ hx
  | wrap o c => simp only [assign]; exact setObj_only _ _ _ _ _ hx
  | none => rfl
  | other n => rfl

theorem loop_only (fields : List Field) (rs : List (Rsrc Val)) (j : Nat) (s : State) (x : String) (hx : writable fields x = false) :
    (loop fields rs j s).attrs x = s.attrs x := by
  induction rs generalizing j s with
  | nil => rfl
  | cons r rs ih =>
    simp only [loop]
    split
    · split
      · exact assign_only _ _ _ _ _ hx
      · rw [ih, assign_only _ _ _ _ _ hx]
    · exact ih _ _

/-- C193: configuration changes nothing but registered fields without the flag `UVM_READONLY`, whatever is in the data base. -/
theorem C193_only_registered (fields : List Field) (rq : List (Rsrc Val)) (a : String → Val) (x : String)
    (hx : ∀ f ∈ fields, f.name = x → f.readOnly = true) : (apply fields rq a).attrs x = a x := by
  have hw : writable fields x = false := by
    simp only [writable, List.any_eq_false, Bool.and_eq_true, beq_iff_eq, Bool.not_eq_true', not_and, Bool.not_eq_false]
    exact fun f hf h => hx f hf h
  simp only [apply]
  split
  · rfl
  · exact loop_only _ _ _ _ _ hw

theorem takeWhile_all {α : Type} (p : α → Bool) (l : List α) (h : ∀ a ∈ l, p a = true) : l.takeWhile p = l := by
  induction l with
  | nil => rfl
  | cons a l ih => simp [h a (List.mem_cons_self ..), ih (fun b hb => h b (List.mem_cons_of_mem _ hb))]

theorem scan_ordinary (n : String) (hn : ordinary n) (j : Nat) : searchName n.toList (scan n.toList j) = n.toList := by
  have : ((n.toList.drop j).takeWhile (fun c => !(c == '[' || c == '.'))) = n.toList.drop j := by
    apply takeWhile_all
    intro c hc
    have := hn c (List.mem_of_mem_drop hc)
    have h1 : c ≠ '[' := fun h => this (by simp [h])
    have h2 : c ≠ '.' := fun h => this (by simp [h])
    simp [h1, h2]
  simp only [searchName, scan, this, List.length_drop]
  split
  · omega
  · rfl

theorem listed_iff (fields : List Field) (n : String) : listed fields n.toList = true ↔ (∃ g ∈ fields, g.name = n) ∨ n = "recording_detail" := by
  simp only [listed, Bool.or_eq_true, List.any_eq_true, beq_iff_eq]
  constructor
  · rintro (⟨g, hg, h⟩ | h)
    · exact .inl ⟨g, hg, String.toList_injective h⟩
    · exact .inr (String.toList_injective h)
  · rintro (⟨g, hg, h⟩ | h)
    · exact .inl ⟨g, hg, by rw [h]⟩
    · exact .inr (by rw [h])

theorem assign_eq (fields : List Field) (name : String) (hn : ordinary name) (v : Val) (s : State) (hs : s.raised = false) :
    (assign fields name v s).raised = false ∧
    ∀ x, (assign fields name v s).attrs x = if (writable fields x && matched name x) then (given v).getD (s.attrs x) else s.attrs x := by
  have hp := not_pathLike name hn
  cases v with
  | int n => exact ⟨hs, fun x => by simp [assign, setPlain_eq, given]⟩
  | str n => exact ⟨hs, fun x => by simp [assign, setPlain_eq, given]⟩
  | obj n => exact ⟨(setObj_eq _ _ _ _ hs hp).1, fun x => by simp only [assign, given]; exact (setObj_eq _ _ _ _ hs hp).2 x⟩
  | copy n => exact ⟨(setObj_eq _ _ _ _ hs hp).1, fun x => by simp only [assign, given]; exact (setObj_eq _ _ _ _ hs hp).2 x⟩
  | wrap o c =>
    refine ⟨(setObj_eq _ _ _ _ hs hp).1, fun x => ?_⟩
    simp only [assign]
    rw [(setObj_eq _ _ _ _ hs hp).2 x]
    cases c <;> rfl
  | none => exact ⟨hs, fun x => by simp [assign, given]⟩
  | other n => exact ⟨hs, fun x => by simp [assign, given]⟩

theorem touches_iff {fields : List Field} {x : String} {r : Rsrc Val} (hn : ordinary r.name) :
    Touches fields x r ↔ listed fields r.name.toList = true ∧ matched r.name x = true := by
  rw [listed_iff, matched_iff _ _ hn]; rfl

theorem loop_eq (fields : List Field) (rs : List (Rsrc Val)) (hrs : ∀ r ∈ rs, ordinary r.name) (j : Nat) (s : State) (hs : s.raised = false) (x : String)
    (hw : writable fields x = true) :
    (loop fields rs j s).raised = false ∧ (loop fields rs j s).attrs x = (touching fields x rs).getLast?.getD (s.attrs x) := by
  classical
  induction rs generalizing j s with
  | nil => exact ⟨hs, by simp [loop, touching]⟩
  | cons r rs ih =>
    have hn := hrs r (List.mem_cons_self ..)
    have ih := ih (fun x hx => hrs x (List.mem_cons_of_mem _ hx))
    simp only [loop, scan_ordinary r.name hn]
    have ha := assign_eq fields r.name hn r.val s hs
    cases hl : listed fields r.name.toList with
    | false =>
      simp only [Bool.false_eq_true, if_false]
      have ht : ¬ Touches fields x r := fun h => by rw [touches_iff hn, hl] at h; exact Bool.false_ne_true h.1
      refine ⟨(ih _ s hs).1, ?_⟩
      rw [(ih _ s hs).2]
      simp [touching, ht]
    | true =>
      simp only [if_true, ha.1, Bool.false_eq_true, if_false]
      refine ⟨(ih _ _ ha.1).1, ?_⟩
      rw [(ih _ _ ha.1).2, ha.2 x, hw, Bool.true_and]
      cases hm : matched r.name x with
      | false =>
        have ht : ¬ Touches fields x r := fun h => by rw [touches_iff hn, hm] at h; exact Bool.false_ne_true h.2
        simp [touching, ht]
      | true =>
        have ht : Touches fields x r := (touches_iff hn).2 ⟨hl, hm⟩
        simp only [touching, List.filter_cons, ht, decide_true, if_true, List.filterMap_cons]
        cases hg : given r.val with
        | none => simp
        | some v => simp [List.getLast?_cons]

/-- C192: what configuration does, exactly, for settings with ordinary names: a registered field gets the value of the last setting in the sorted list whose name is
registered and is contained in the name of the field; nothing is raised. -/
theorem C192_last_applied_partial (fields : List Field) (rq : List (Rsrc Val)) (a : String → Val) (hrs : ∀ r ∈ rq, ordinary r.name) (x : String)
    (hx : ∃ f ∈ fields, f.name = x ∧ f.readOnly = false) :
    (apply fields rq a).raised = false ∧ (apply fields rq a).attrs x = (touching fields x (Resource.sortByPrecedence rq)).getLast?.getD (a x) := by
  obtain ⟨f, hf, h1, h2⟩ := hx
  have hw : writable fields x = true := by
    simp only [writable, List.any_eq_true, Bool.and_eq_true, beq_iff_eq, Bool.not_eq_true']
    exact ⟨f, hf, h1, h2⟩
  have hne : fields ≠ [] := fun h => by rw [h] at hf; cases hf
  simp only [apply, hne, if_false]
  exact loop_eq fields _ (fun r hr => hrs r ((Resource.C61_sort_partial rq).1.mem_iff.1 hr)) 0 ⟨a, [], false⟩ rfl x hw

theorem touching_perm (fields : List Field) (x : String) {rs rs' : List (Rsrc Val)} (h : rs.Perm rs') : (touching fields x rs).Perm (touching fields x rs') :=
  (h.filter _).filterMap _

/-- C192: a field for which there is exactly one setting gets its value. -/
theorem C192_single_partial (fields : List Field) (rq : List (Rsrc Val)) (a : String → Val) (hrs : ∀ r ∈ rq, ordinary r.name) (x : String)
    (hx : ∃ f ∈ fields, f.name = x ∧ f.readOnly = false) (v : Val) (h1 : touching fields x rq = [v]) : (apply fields rq a).attrs x = v := by
  rw [(C192_last_applied_partial fields rq a hrs x hx).2]
  have := touching_perm fields x (Resource.C61_sort_partial rq).1
  rw [h1] at this
  rw [List.perm_singleton.1 this]
  rfl

theorem sort_equal (p : Int) (rq : List (Rsrc Val)) (h : ∀ r ∈ rq, r.prec = p) : Resource.sortByPrecedence rq = rq := by
  have h2 := (Resource.C61_sort_partial rq).2 p
  have h1 : rq.filter (fun r => r.prec = p) = rq := List.filter_eq_self.2 (fun r hr => by simp [h r hr])
  have h3 : (Resource.sortByPrecedence rq).filter (fun r => r.prec = p) = Resource.sortByPrecedence rq :=
    List.filter_eq_self.2 (fun r hr => by simp [h r ((Resource.C61_sort_partial rq).1.mem_iff.1 hr)])
  rw [← h3, h2, h1]

/-- C192 fails: of settings with equal precedence the last of the queue is the one that stays; the queue has the most recent first. -/
theorem C192_oldest_wins_fails (fields : List Field) (rq : List (Rsrc Val)) (a : String → Val) (hrs : ∀ r ∈ rq, ordinary r.name) (x : String)
    (hx : ∃ f ∈ fields, f.name = x ∧ f.readOnly = false) (p : Int) (hp : ∀ r ∈ rq, r.prec = p) :
    (apply fields rq a).attrs x = (touching fields x rq).getLast?.getD (a x) := by
  rw [(C192_last_applied_partial fields rq a hrs x hx).2, sort_equal p rq hp]

/-- Contexts: 0 is the root, 1 is `top`; scopes are names or `*`. -/
def exEnv : Env Val where
  none := .none
  eqv a b := a == b
  matchScope p s := p == s || p == "*"
  fullName c := if c = 0 then "" else if c = 1 then "top" else "top.x"
  mName c := if c = 0 then "" else if c = 1 then "top" else "top.x"

/-- A field `count` is set for everyone to 1, then for `top` to 2. -/
def twoSets : Db Val := Resource.cfgSet exEnv true (Resource.cfgSet exEnv true {} 0 "*" "count" (.int 1) false) 0 "top" "count" (.int 2) false

/-- During build the root sets `count` of `top.x` to 1, then `top` sets it to 2. -/
def twoLevels : Db Val := Resource.cfgSet exEnv true (Resource.cfgSet exEnv true {} 0 "top.x" "count" (.int 1) true) 1 "x" "count" (.int 2) true

/-- C192 fails, end to end: `UVMConfigDb.get` finds the latest setting, the registered field gets the oldest; at build, `get` finds the setting from above, the
field gets the one from below. -/
theorem C192_config_db_fails :
    Resource.cfgGet exEnv twoSets 1 "" "count" = some (.int 2) ∧ (apply [⟨"count", false⟩] (lookupScope exEnv twoSets ["count"] "top") (fun _ => .none)).attrs "count" = .int 1 ∧
    Resource.cfgGet exEnv twoLevels 2 "" "count" = some (.int 1) ∧
      (apply [⟨"count", false⟩] (lookupScope exEnv twoLevels ["count"] "top.x") (fun _ => .none)).attrs "count" = .int 2 := by
  decide +kernel

/-- C192: the settings looked at are those visible to the component, names used last first, each name in the order of its queue. -/
theorem C192_lookup_partial (e : Env Val) (d : Db Val) (scope : String) :
    (∀ keys n, lookupScope e d (keys ++ [n]) scope = ((d.rtab n).filterMap (d.heap[·]?)).filter (fun r => e.matchScope r.scope scope) ++ lookupScope e d keys scope) ∧
    ∀ keys r, r ∈ lookupScope e d keys scope ↔ ∃ n ∈ keys, ∃ i ∈ d.rtab n, d.heap[i]? = some r ∧ e.matchScope r.scope scope = true := by
  refine ⟨fun keys n => by simp [lookupScope], fun keys r => ?_⟩
  simp only [lookupScope, List.mem_flatMap, List.mem_reverse, List.mem_filter, List.mem_filterMap]
  constructor
  · rintro ⟨n, hn, ⟨i, hi, h⟩, hm⟩
    exact ⟨n, hn, i, hi, h, hm⟩
  · rintro ⟨n, hn, i, hi, h, hm⟩
    exact ⟨n, hn, ⟨i, hi, h⟩, hm⟩

/-- C194: a setting leaves all fields alone whose name does not contain its name. -/
theorem C194_others_partial (fields : List Field) (rq : List (Rsrc Val)) (a : String → Val) (hrs : ∀ r ∈ rq, ordinary r.name) (x : String)
    (hx : ∀ r ∈ rq, ¬ r.name.toList <:+: x.toList) : (apply fields rq a).attrs x = a x := by
  cases hw : writable fields x with
  | false =>
    simp only [apply]
    split
    · rfl
    · exact loop_only _ _ _ _ _ hw
  | true =>
    simp only [writable, List.any_eq_true, Bool.and_eq_true, beq_iff_eq, Bool.not_eq_true'] at hw
    rw [(C192_last_applied_partial fields rq a hrs x hw).2]
    have : touching fields x (Resource.sortByPrecedence rq) = [] := by
      simp only [touching, List.filterMap_eq_nil_iff, List.mem_filter]
      rintro r ⟨hr, ht⟩
      have ht : Touches fields x r := by simpa using ht
      exact absurd ht.2 (hx r ((Resource.C61_sort_partial rq).1.mem_iff.1 hr))
    rw [this]; rfl

/-- C194 fails: a setting for one field is also applied to every other field whose name contains the name of the first. -/
theorem C194_contained_fails (fields : List Field) (a : String → Val) (f x : String) (hf : ordinary f) (hr : ∃ g ∈ fields, g.name = f)
    (hx : ∃ g ∈ fields, g.name = x ∧ g.readOnly = false) (hfx : f.toList <:+: x.toList) (n : Int) :
    (apply fields [{ name := f, scope := "*", val := .int n }] a).attrs x = .int n := by
  refine C192_single_partial fields _ a (fun r h => by rw [List.mem_singleton.1 h]; exact hf) x hx _ ?_
  have : Touches fields x ({ name := f, scope := "*", val := .int n } : Rsrc Val) := ⟨.inl hr, hfx⟩
  simp [touching, this, given]

/-- C194 fails: setting `count` changes `max_count`. -/
theorem C194_count_fails :
    (apply [⟨"count", false⟩, ⟨"max_count", false⟩] [{ name := "count", scope := "*", val := .int 5 }] (fun _ => .int 100)).attrs "max_count" = .int 5 := by
  decide +kernel

/-- C195 fails: the type of the field is not looked at: a field that holds an object is replaced by an integer, one that holds an integer by an object. -/
theorem C195_type_fails :
    (apply [⟨"cfg", false⟩] [{ name := "cfg", scope := "*", val := .int 5 }] (fun _ => .obj 1)).attrs "cfg" = .int 5 ∧
    (apply [⟨"cfg", false⟩] [{ name := "cfg", scope := "*", val := .obj 1 }] (fun _ => .int 5)).attrs "cfg" = .obj 1 := by
  decide +kernel

theorem loop_unsupported (fields : List Field) (rs : List (Rsrc Val)) (h : ∀ r ∈ rs, given r.val = none) (j : Nat) (s : State) (hs : s.raised = false) :
    loop fields rs j s = s := by
  induction rs generalizing j with
  | nil => rfl
  | cons r rs ih =>
    have ih := ih (fun x hx => h x (List.mem_cons_of_mem _ hx))
    have : assign fields r.name r.val s = s := by
      have := h r (List.mem_cons_self ..)
      cases hv : r.val with
      | none => rfl
      | other n => rfl
      | wrap o c => rw [hv] at this; cases c <;> simp [given] at this
      | int _ => rw [hv] at this; simp [given] at this
      | str _ => rw [hv] at this; simp [given] at this
      | obj _ => rw [hv] at this; simp [given] at this
      | copy _ => rw [hv] at this; simp [given] at this
    simp only [loop, this, hs, Bool.false_eq_true, if_false, ih, ite_self]

/-- C195: values of other types than integers, texts and objects are not applied, and do no harm. -/
theorem C195_unsupported_partial (fields : List Field) (rq : List (Rsrc Val)) (a : String → Val) (h : ∀ r ∈ rq, given r.val = none) :
    apply fields rq a = ⟨a, [], false⟩ := by
  simp only [apply]
  split
  · rfl
  · exact loop_unsupported fields _ (fun r hr => h r ((Resource.C61_sort_partial rq).1.mem_iff.1 hr)) 0 _ rfl

/-- C196: a setting of an object inside a sub-object is handed to the sub-object, if it is the only setting and the component has only this field. -/
theorem C196_path_partial (f rest : String) (hf : ordinary f) (hr : quiet rest) (o p : Nat) (a : String → Val) (ha : a f = .obj p) :
    (apply [⟨f, false⟩] [{ name := f ++ "." ++ rest, scope := "*", val := .obj o }] a).visits = [f] ∧
    (apply [⟨f, false⟩] [{ name := f ++ "." ++ rest, scope := "*", val := .obj o }] a).attrs = a := by
  have hq : quiet (f ++ "." ++ rest) := by
    intro c hc
    simp only [String.toList_append, List.mem_append] at hc
    rcases hc with (hc | hc) | hc
    · exact hf.quiet c hc
    · rw [show c = '.' from by simpa using hc]; decide
    · exact hr c hc
  have hm : matched (f ++ "." ++ rest) f = false := by
    cases h : matched (f ++ "." ++ rest) f with
    | false => rfl
    | true =>
      have := ((matched_quiet _ _ hq).1 h).length_le
      have h1 : ("." : String).toList.length = 1 := rfl
      simp only [String.toList_append, List.length_append, h1] at this
      omega
  have hpl : pathLike (f ++ "." ++ rest) = true := by
    simp only [pathLike, List.any_eq_true]
    exact ⟨'.', by simp [String.toList_append], by decide⟩
  have htw : ∀ (l l' : List Char), (∀ c ∈ l, c ≠ '[' ∧ c ≠ '.') → ((l ++ '.' :: l').takeWhile (fun c => !(c == '[' || c == '.'))) = l := by
    intro l l' h
    induction l with
    | nil => simp
    | cons c l ih =>
      have := h c (List.mem_cons_self ..)
      simp [this.1, this.2]
      simpa using ih (fun d hd => h d (List.mem_cons_of_mem _ hd))
  have hl : (f ++ "." ++ rest).toList = f.toList ++ '.' :: rest.toList := by simp [String.toList_append]
  have hs : scan (f ++ "." ++ rest).toList 0 = f.toList.length := by
    simp only [scan, List.drop_zero, Nat.zero_add, hl]
    rw [htw _ _ (fun c hc => ⟨fun h => hf c hc (by simp [h]), fun h => hf c hc (by simp [h])⟩)]
  have hn : searchName (f ++ "." ++ rest).toList f.toList.length = f.toList := by
    simp only [searchName, hl]
    simp
  have hso : Resource.sortByPrecedence [({ name := f ++ "." ++ rest, scope := "*", val := .obj o } : Rsrc Val)] = [{ name := f ++ "." ++ rest, scope := "*", val := .obj o }] := rfl
  have hli : listed [⟨f, false⟩] f.toList = true := by simp [listed]
  simp only [apply, hso, loop, hs, hn, hli, if_true, assign, setObj, setObjField, hm, hpl, ha]
  simp

/-- C196 fails: such a setting is not handed on after another setting with a longer name: the index of the search goes on from the name before. -/
theorem C196_index_kept_fails :
    (apply [⟨"cfg", false⟩] [{ name := "cfg.sub", scope := "*", val := .obj 2 }] (fun _ => .obj 1)).visits = ["cfg"] ∧
    (apply [⟨"cfg", false⟩] [{ name := "something", scope := "*", val := .int 7 }, { name := "cfg.sub", scope := "*", val := .obj 2 }] (fun _ => .obj 1)).visits = [] := by
  decide +kernel

/-- C196 fails: it raises an exception if a field before holds an integer. -/
theorem C196_integer_field_fails :
    (apply [⟨"count", false⟩, ⟨"cfg", false⟩] [{ name := "cfg.sub", scope := "*", val := .obj 2 }] (fun f => if f = "cfg" then .obj 1 else .int 0)).raised = true := by
  decide +kernel

/-- C196 fails: a setting for an element of an array changes nothing. -/
theorem C196_element_fails : (apply [⟨"arr", false⟩] [{ name := "arr[0]", scope := "*", val := .int 7 }] (fun _ => .other 0)).attrs "arr" = .other 0 := by
  decide +kernel

-- three settings, two fields, one of them read-only
example : (apply [⟨"a1", false⟩, ⟨"b2", true⟩] [{ name := "a1", scope := "*", val := .int 7 }, { name := "b2", scope := "*", val := .int 8 }, { name := "zz", scope := "*", val := .str "t" }] (fun _ => .none)).attrs "a1" = .int 7 ∧
    ∀ n ∈ ["a1", "b2", "zz"], ∀ c ∈ n.toList, c ∉ ['^', '$', '{', '}', '(', ')', '|', '+', '\\', '/', '*', '?', '[', ']', '.'] := by decide +kernel

end Verif.ConfigAuto
