import Verif.Model.AgentCfg
import Verif.Props.Resource
import Verif.Props.PoolIter
/-! # C311, C312, C315: the agent and the printouts of the configuration -/
namespace Verif.AgentCfg
open Verif.Resource (Db Env Rsrc lookupName sortByPrecedence pushGroup entries Inv setAll cfgGet highest IsHighest exEnv instName)
open Verif.Printer (Text Knobs Obj St)
variable {V : Type}

/-! ## C311 -/

theorem readAll_eq (a : Bool) (acc : String) (q : List (Rsrc V)) (v : V) : readAll a acc q v = (q.getLast?.map (·.val)).getD v := by
  induction q generalizing v with
  | nil => rfl
  | cons r q ih =>
    simp only [readAll, ih, Resource.read]
    cases q with
    | nil => rfl
    | cons r' q =>
      have : (r' :: q).getLast? ≠ none := by simp
      rw [List.getLast?_cons_cons]
      cases h : (r' :: q).getLast? with
      | none => exact absurd h this
      | some x => rfl

theorem group_first (p : Int) (l : List (Rsrc V)) (g : List (Int × List (Rsrc V))) (q : List (Rsrc V)) : ∃ g',
    q.foldl pushGroup ((p, l) :: g) = (p, (q.filter (fun r => r.prec = p)).reverse ++ l) :: g' := by
  induction q generalizing l g with
  | nil => exact ⟨g, by simp⟩
  | cons r q ih =>
    simp only [List.foldl_cons, pushGroup]
    by_cases h : p = r.prec
    · obtain ⟨g', e⟩ := ih (r :: l) g
      rw [if_pos h]
      exact ⟨g', by rw [e]; simp [List.filter_cons, h]⟩
    · obtain ⟨g', e⟩ := ih l (pushGroup g r)
      rw [if_neg h]
      have h' : ¬ r.prec = p := fun hh => h hh.symm
      exact ⟨g', by rw [e]; simp [List.filter_cons, h']⟩

/-- The last of the "sorted" resources is the last that has the precedence of the first. -/
theorem sort_last (r : Rsrc V) (q : List (Rsrc V)) : (sortByPrecedence (r :: q)).getLast? = ((r :: q).filter (fun x => x.prec = r.prec)).getLast? := by
  rw [Resource.sort_eq]
  obtain ⟨g', e⟩ := group_first r.prec [r] [] q
  simp only [List.foldl_cons, pushGroup, e, List.flatMap_cons, List.getLast?_reverse]
  have : (r :: q).filter (fun x => decide (x.prec = r.prec)) = r :: q.filter (fun x => decide (x.prec = r.prec)) := by simp [List.filter_cons]
  rw [this, List.getLast?_eq_head?_reverse, List.reverse_cons]
  cases h : (q.filter (fun x => decide (x.prec = r.prec))).reverse ++ [r] with
  | nil => simp at h
  | cons a b => simp

theorem build_eq (e : Env V) (a : Bool) (d : Db V) (hd : Inv d) (agent : Nat) (active : V) :
    build e a d agent active =
      match (entries d "is_active").filter (fun r => e.matchScope r.scope (e.fullName agent)) with
      | [] => active
      | r :: q => ((((r :: q).filter (fun x => x.prec = r.prec)).getLast?).map (·.val)).getD active := by
  have hfm : (lookupName e d (e.fullName agent) "is_active").filterMap (d.heap[·]?) =
      (entries d "is_active").filter fun r => e.matchScope r.scope (e.fullName agent) := by
    unfold lookupName entries
    rw [if_neg (by decide)]
    generalize d.rtab "is_active" = l
    induction l with
    | nil => rfl
    | cons i l ih =>
      simp only [List.filter_cons, List.filterMap_cons]
      cases h : d.heap[i]? with
      | none => simpa using ih
      | some r =>
        by_cases hm : e.matchScope r.scope (e.fullName agent) = true
        · simp [hm, h, ih]
        · simp [hm, ih]
  simp only [build, hfm, readAll_eq]
  cases (entries d "is_active").filter (fun r => e.matchScope r.scope (e.fullName agent)) with
  | nil => rfl
  | cons r q => rw [sort_last]

/-- C311, part: with no setting for the agent it is active; with settings, if the newest is of strictly higher precedence than all others (in
particular if it is the only one), the agent takes the value `UVMConfigDb.get` gives for its `is_active`.  Missing: other histories
(`C311_lower_level_wins_fails`, `C311_older_setting_wins_fails`, `C311_not_highest_fails`). -/
theorem C311_agent_partial (e : Env V) (a : Bool) (calls : List (Resource.Call V)) (agent : Nat) (active : V) :
    (cfgGet e (setAll e a calls) agent "" "is_active" = none → build e a (setAll e a calls) agent active = active) ∧
    (∀ r q, (entries (setAll e a calls) "is_active").filter (fun r => e.matchScope r.scope (e.fullName agent)) = r :: q → (∀ x ∈ q, x.prec < r.prec) →
      cfgGet e (setAll e a calls) agent "" "is_active" = some (build e a (setAll e a calls) agent active)) := by
  have hd : Inv (setAll e a calls) := Resource.inv_setAll _ _ _
  have hn : instName e agent "" = e.fullName agent := by simp [instName]
  refine ⟨fun h => ?_, fun r q h hp => ?_⟩
  · rw [Resource.cfgGet_eq hd _ _ _ (by decide), hn, Option.map_eq_none_iff, (Resource.C23_highest_precedence _).1] at h
    rw [build_eq e a _ hd, h]
  · have hq : q.filter (fun x => decide (x.prec = r.prec)) = [] := by
      rw [List.filter_eq_nil_iff]
      intro x hx
      have := hp x hx
      simp; omega
    have hb : ∀ (q : List (Rsrc V)), (∀ x ∈ q, x.prec < r.prec) → Resource.bestOf r q = r := by
      intro q
      induction q with
      | nil => intro _; rfl
      | cons x q ih =>
        intro hx
        have := hx x (by simp)
        rw [Resource.bestOf, if_neg (by omega)]
        exact ih fun y hy => hx y (by simp [hy])
    rw [Resource.cfgGet_eq hd _ _ _ (by decide), hn, build_eq e a _ hd, h]
    simp [highest, hb q hp, List.filter_cons, hq]

/-- C311 fails, in general: whenever the newest setting is not of the highest precedence, the value the agent takes is that of a setting
that is not of the highest precedence either. -/
theorem C311_not_highest_fails (e : Env V) (a : Bool) (calls : List (Resource.Call V)) (agent : Nat) (active : V) (r : Rsrc V) (q : List (Rsrc V))
    (h : (entries (setAll e a calls) "is_active").filter (fun r => e.matchScope r.scope (e.fullName agent)) = r :: q) (hq : ∃ x ∈ q, r.prec < x.prec) :
    ∃ y ∈ r :: q, build e a (setAll e a calls) agent active = y.val ∧ ∃ x ∈ r :: q, y.prec < x.prec := by
  rw [build_eq e a _ (Resource.inv_setAll _ _ _), h]
  simp only
  cases hl : ((r :: q).filter (fun x => decide (x.prec = r.prec))).getLast? with
  | none =>
    rw [List.getLast?_eq_none_iff, List.filter_eq_nil_iff] at hl
    exact absurd (hl r (by simp)) (by simp)
  | some y =>
    have hy := List.mem_of_getLast? hl
    rw [List.mem_filter] at hy
    obtain ⟨x, hx, hlt⟩ := hq
    have := of_decide_eq_true hy.2
    exact ⟨y, hy.1, rfl, x, by simp [hx], by omega⟩

/-- C311 fails: a setting made in the build phase at a lower level beats that of the test above it, which `UVMConfigDb.get` gives. -/
theorem C311_lower_level_wins_fails : ∃ calls : List (Resource.Call Int), (∀ c ∈ calls, c.Matches exEnv "top.env" "is_active" ∧ c.build = true) ∧
    cfgGet exEnv (setAll exEnv true calls) 2 "" "is_active" = some 0 ∧ build exEnv true (setAll exEnv true calls) 2 1 = 1 :=
  ⟨[⟨0, "top.env", "is_active", 0, true⟩, ⟨1, "env", "is_active", 1, true⟩], by unfold Resource.Call.Matches; decide +kernel, by decide +kernel, by decide +kernel⟩

/-- C311 fails: of two settings from different contexts outside of the build phase the agent takes the older, `UVMConfigDb.get` the newer. -/
theorem C311_older_setting_wins_fails : ∃ calls : List (Resource.Call Int), (∀ c ∈ calls, c.Matches exEnv "top.env" "is_active" ∧ c.build = false) ∧
    cfgGet exEnv (setAll exEnv true calls) 2 "" "is_active" = some 0 ∧ build exEnv true (setAll exEnv true calls) 2 1 = 1 :=
  ⟨[⟨0, "*", "is_active", 1, false⟩, ⟨1, "env", "is_active", 0, false⟩], by unfold Resource.Call.Matches; decide +kernel, by decide +kernel, by decide +kernel⟩

example : build exEnv true (setAll exEnv true [⟨1, "env", "is_active", 1, true⟩, ⟨0, "*", "is_active", 0, true⟩]) 2 1 = 0 ∧
    build exEnv true (setAll exEnv true [⟨1, "x", "is_active", 0, true⟩]) 2 1 = 1 := by decide +kernel

/-! ## C312, C315 -/

/-- What is printed of a resource. -/
def dash : Text := ['-', ' ', ' ', '\n']

theorem popScopes_one (n : Text) : Printer.popScopes [n] = [] := by
  simp only [Printer.popScopes]; split <;> rfl

/-- Every resource is printed as a dash, and the printer is as before. -/
theorem sprint_dash (ty : Text) (d : Db V) (i : Nat) :
    Printer.sprint lineKnobs (asObj ty d) 2 (Printer.treeEmit lineKnobs [' ']) i {} = .ok (dash, {}) := by
  simp [Printer.sprint, Printer.printObject, Printer.printHeader, lineKnobs, asObj, Printer.each, Printer.upStack, popScopes_one, Printer.treeEmit,
    Printer.treeRows, Printer.treeHead, Printer.treeClose, Printer.pieceText, dash]

theorem printLoop_eq (ty : Text) (d : Db V) (rq : List Nat) : printLoop ty d false rq {} = (List.replicate rq.length (.out dash), .ret) := by
  induction rq with
  | nil => rfl
  | cons i rq ih => simp [printLoop, sprint_dash, ih, List.replicate_succ]

/-- What `print_config` prints for one component that sees `n` resources. -/
def shown (n : Nat) : List Line :=
  .info "CFGPRT" "visible resources:" :: if n = 0 then [.info "UVM/RESOURCE/PRINT" "<none>"] else List.replicate n (.out dash)

theorem printResources_eq (ty : Text) (d : Db V) (rq : List Nat) :
    .info "CFGPRT" "visible resources:" :: (printResources ty d false rq).1 = shown rq.length ∧ (printResources ty d false rq).2 = .ret := by
  unfold printResources shown
  by_cases h : rq.length = 0
  · simp [h]
  · simp [h, printLoop_eq]

theorem mem_visibleIn (e : Env V) (d : Db V) (scope : String) (i : Nat) (l : List Nat) :
    i ∈ visibleIn e d scope l ↔ i ∈ l ∧ ∃ r, d.heap[i]? = some r ∧ e.matchScope r.scope scope = true := by
  induction l with
  | nil => simp [visibleIn]
  | cons j l ih =>
    simp only [visibleIn, List.mem_append, ih, List.mem_cons]
    cases hj : d.heap[j]? with
    | none =>
      constructor
      · rintro (h | h)
        · simp at h
        · exact ⟨.inr h.1, h.2⟩
      · rintro ⟨h | h, r, hr, hm⟩
        · subst h; rw [hj] at hr; cases hr
        · exact .inr ⟨h, r, hr, hm⟩
    | some r =>
      by_cases hm : e.matchScope r.scope scope = true
      · simp only [hm, if_true, List.mem_singleton]
        grind
      · simp only [hm]
        grind

/-- The components in the order of a walk that visits each before its children; `none`: deeper than `n`. -/
def walk (kids : Nat → List Nat) : Nat → Nat → Option (List Nat)
  | 0, _ => none
  | n + 1, c => ((kids c).mapM (walk kids n)).map fun l => c :: l.flatten

/-- C312, part: `print_config` prints for the component — with `recurse` for it and everything below it, parents before children — "visible
resources:" and one line for each resource whose scope matches the component's full name, or "<none>"; with `print_config_with_audit` the same.
Missing: what the lines say (`C312_nothing_shown_fails`), and the audit (`C312_audit_fails`). -/
theorem C312_print_config_partial (e : Env V) (ty : Text) (d : Db V) (keys : List String) (kids : Nat → List Nat) (n c : Nat) :
    (∀ m, n = m + 1 → printConfig e ty d keys kids false false n c = (shown (lookupScope e d (e.fullName c) keys).length, .ret)) ∧
    (∀ cs, walk kids n c = some cs →
      printConfig e ty d keys kids true false n c = (cs.flatMap fun c => shown (lookupScope e d (e.fullName c) keys).length, .ret)) ∧
    (∀ b, printConfigWithAudit e ty d keys kids b n c = printConfig e ty d keys kids b false n c) ∧
    (∀ i scope, i ∈ lookupScope e d scope keys ↔ (∃ k ∈ keys, i ∈ d.rtab k) ∧ ∃ r, d.heap[i]? = some r ∧ e.matchScope r.scope scope = true) := by
  refine ⟨?_, ?_, fun _ => rfl, ?_⟩
  · rintro m rfl
    obtain ⟨h1, h2⟩ := printResources_eq ty d (lookupScope e d (e.fullName c) keys)
    simp only [printConfig, h1, h2, if_true, Bool.false_eq_true, if_false]
  · intro cs
    induction n generalizing c cs with
    | zero => intro h; simp [walk] at h
    | succ n ih =>
      intro h
      simp only [walk, Option.map_eq_some_iff] at h
      obtain ⟨l, hl, rfl⟩ := h
      have hk : ∀ (ks : List Nat) (l : List (List Nat)), ks.mapM (walk kids n) = some l →
          printKids e ty d keys kids true false n ks = (l.flatten.flatMap fun c => shown (lookupScope e d (e.fullName c) keys).length, .ret) := by
        intro ks
        induction ks with
        | nil =>
          intro l h
          simp at h
          subst h
          simp [printKids]
        | cons k ks ihk =>
          intro l h
          simp only [List.mapM_cons, Option.bind_eq_bind, Option.bind_eq_some_iff, Option.pure_def, Option.some.injEq] at h
          obtain ⟨x, hx, l', hl', rfl⟩ := h
          simp only [printKids, ih k x hx, if_true, ihk l' hl', List.flatten_cons, List.flatMap_append]
      obtain ⟨h1, h2⟩ := printResources_eq ty d (lookupScope e d (e.fullName c) keys)
      simp only [printConfig, h1, h2, if_true, hk _ _ hl, List.flatMap_cons]
  · intro i scope
    simp only [lookupScope, List.mem_flatMap, List.mem_reverse, mem_visibleIn]
    grind

/-- C312 fails: the printout says nothing about the resources: it is the same for any two databases in which as many resources are visible. -/
theorem C312_nothing_shown_fails (e : Env V) (ty ty' : Text) (d d' : Db V) (keys keys' : List String) (kids : Nat → List Nat) (n c : Nat)
    (h : (lookupScope e d (e.fullName c) keys).length = (lookupScope e d' (e.fullName c) keys').length) :
    printConfig e ty d keys kids false false n c = printConfig e ty' d' keys' kids false false n c := by
  cases n with
  | zero => simp [printConfig]
  | succ n => rw [(C312_print_config_partial e ty d keys kids (n + 1) c).1 n rfl, (C312_print_config_partial e ty' d' keys' kids (n + 1) c).1 n rfl, h]

/-- C312 fails: with `audit=True` the call raises `AttributeError` after the first resource, whenever one is visible. -/
theorem C312_audit_fails (e : Env V) (ty : Text) (d : Db V) (keys : List String) (kids : Nat → List Nat) (b : Bool) (n c : Nat)
    (h : lookupScope e d (e.fullName c) keys ≠ []) :
    printConfig e ty d keys kids b true (n + 1) c = ([.info "CFGPRT" "visible resources:", .out dash], .attributeError) := by
  cases hl : lookupScope e d (e.fullName c) keys with
  | nil => exact absurd hl h
  | cons i q =>
    simp [printConfig, hl, printResources, printLoop, sprint_dash]

def exDb : Db Int := setAll exEnv true [⟨1, "x", "f", 5, false⟩, ⟨0, "*", "g", 6, false⟩]

example : lookupScope exEnv exDb "top.env" ["f", "g"] = [1] ∧ lookupScope exEnv exDb "top.x" ["f", "g"] = [1, 0] ∧ walk (fun c => if c = 1 then [2, 3] else []) 2 1 = some [1, 2, 3] := by
  decide +kernel

example : printConfig exEnv [] exDb ["f", "g"] (fun c => if c = 1 then [2] else []) true false 3 1 =
    ([.info "CFGPRT" "visible resources:", .out dash, .info "CFGPRT" "visible resources:", .out dash], .ret) := by
  have := (C312_print_config_partial exEnv [] exDb ["f", "g"] (fun c => if c = 1 then [2] else []) 3 1).2.1 [1, 2] (by decide)
  rw [this]; decide +kernel

/-- C315 fails: `dump` prints no resource, whatever the pool has. -/
theorem C315_dump_prints_nothing_fails (d : Db V) (keys : List String) :
    dump d keys = ([.info "UVM/RESOURCE/DUMP" "\n=== resource pool ===", .info "UVM/RESOURCE/DUMP" "=== end of resource pool ==="], .ret) := by
  have : PoolIter.iter (keys.map fun n => (PoolIter.Key.other n, d.rtab n)) = [] := by
    apply PoolIter.C314_keys_not_visited_fails
    intro v hv
    obtain ⟨x, _, e⟩ := List.mem_map.1 hv
    cases e
  simp [dump, this, dumpLoop]

end Verif.AgentCfg
