import Verif.Lemmas.CmdCfg
import Verif.Props.BuildCfg
/-! # C360: configuration settings of the command line win -/
namespace Verif.BuildCfg
open Verif.Resource
open Verif.RootSettings (Cfg Val doConfigSettings Line IntArg StrArg)
open Verif.Traverse (Tree Builds topdown Desc)
open Verif.Text (Str)
variable {V : Type}

theorem acts_log (e : Env V) (c : Nat) (acts : List (Act V)) (hs : ∀ a ∈ acts, ∃ i f v, a = .set i f v) (st : St V) :
    (acts.foldl (exec e c) st).log = st.log ++ acts.map fun a => (c, a, none) := by
  induction acts generalizing st with
  | nil => simp
  | cons a acts ih =>
    rw [List.foldl_cons, ih (fun b hb => hs b (by simp [hb]))]
    obtain ⟨i, f, v, rfl⟩ := hs a (by simp)
    simp [exec]

theorem settings_root {c : Nat} {acts : List (Act V)} {cl : Call V} (h : cl ∈ settings (acts.map fun a => (c, a, none))) :
    cl.ctx = c ∧ cl.build = true ∧ Act.set cl.inst cl.field cl.val ∈ acts := by
  obtain ⟨r, h1, h2⟩ := mem_settings h
  obtain ⟨a, ha, he⟩ := List.mem_map.1 h1
  simp only [Prod.mk.injEq] at he
  exact ⟨he.1.symm, h2, he.2.1 ▸ ha⟩

theorem line_sets {argv : List Str} {is ss : List Cfg} (h : Line argv is ss) : ∀ x ∈ is ++ ss, ∃ c f v, x = .set c f v := by
  induction h with
  | nil => nofun
  | int _ _ ih =>
    intro x hx
    rcases List.mem_append.1 hx with hx | hx
    · rcases List.mem_cons.1 hx with rfl | hx
      · exact ⟨_, _, _, rfl⟩
      · exact ih x (List.mem_append_left _ hx)
    · exact ih x (List.mem_append_right _ hx)
  | str _ _ ih =>
    intro x hx
    rcases List.mem_append.1 hx with hx | hx
    · exact ih x (List.mem_append_left _ hx)
    · rcases List.mem_cons.1 hx with rfl | hx
      · exact ⟨_, _, _, rfl⟩
      · exact ih x (List.mem_append_right _ hx)
  | other _ _ ih => exact ih

theorem mem_cfgActs {emb : Val → V} {l : List Cfg} {i f : String} {v : V} (h : Act.set i f v ∈ l.filterMap (cfgAct emb)) :
    ∃ c' f' v', Cfg.set c' f' v' ∈ l ∧ i = String.ofList c' ∧ f = String.ofList f' ∧ v = emb v' := by
  obtain ⟨x, hx, he⟩ := List.mem_filterMap.1 h
  cases x with
  | set c' f' v' =>
    simp only [cfgAct, Option.some.injEq, Act.set.injEq] at he
    exact ⟨c', f', v', hx, he.1.symm, he.2.1.symm, he.2.2.symm⟩
  | error => cases he
  | raised => cases he

/-- C360. A setting on the command line - `+uvm_set_config_int=comp,field,value` or `+uvm_set_config_string=...` - reaches every component whose
path the pattern matches: in its build phase `get` finds the value, whatever the components set in theirs.  Among the settings of the
command line (integers first, then texts) and those made before `run_test`, it wins if no later one matches as well, and either nobody used the same
pattern for the field before, or all that match use this pattern. -/
theorem C360_command_line_wins {ex : Nat → Traverse.State → Traverse.State} (hex : Builds ex) (act : Nat → Bool) (m n root : Nat)
    (s s' : Traverse.State) (order : List Nat) (ht : Tree s) (htop : root < s.next) (h : topdown ex act m n root s = some (s', order))
    (hact : act root = true) (e : Env V) (hfull : e.fullName root = "") (hname : ∀ c, e.mName c = "" ↔ c = root)
    (argv : List Str) (is ss : List Cfg) (hline : Line argv is ss) (emb : Val → V) (before : List (String × String × V))
    (other : Nat → Db V → List (Act V)) (hcol : NoCollision e (settings (build e (withRoot emb argv root before other) order).log))
    (q1 q2 : List Cfg) (c f : Str) (v : Val) (hq : is ++ ss = q1 ++ .set c f v :: q2) (hf : f ≠ [])
    (x : Nat) (hx : x ≠ root) (inst : String) (hm : e.matchScope (String.ofList c) (instName e x inst) = true)
    (hlast : ∀ c' v', Cfg.set c' f v' ∈ q2 → e.matchScope (String.ofList c') (instName e x inst) = false)
    (hkey : ((∀ v', Cfg.set c f v' ∉ q1) ∧ ∀ v', (String.ofList c, String.ofList f, v') ∉ before) ∨
      ((∀ c' v', Cfg.set c' f v' ∈ q1 → e.matchScope (String.ofList c') (instName e x inst) = true → c' = c) ∧
        ∀ i v', (i, String.ofList f, v') ∈ before → e.matchScope i (instName e x inst) = true → i = String.ofList c))
    (r : Option V) (hget : (x, .get inst (String.ofList f), r) ∈ (build e (withRoot emb argv root before other) order).log) :
    ∃ w, r = some w ∧ SameVal e w (emb v) := by
  obtain ⟨full, hpre, hfil, hnd, hall⟩ := Traverse.C48_topdown_partial hex act m n root s s' order ht htop h
  have hno : order.Nodup := by rw [hfil]; exact hnd.sublist List.filter_sublist
  obtain ⟨rest, rfl⟩ : ∃ rest, order = root :: rest := by
    cases hpre with
    | @cons _ _ l1 l2 h1 h2 =>
      exact ⟨(l1 ++ l2).filter act, by rw [hfil, List.cons_append, List.filter_cons, if_pos hact]⟩
  have hrest : root ∉ rest := (List.nodup_cons.1 hno).1
  -- the calls of the root
  have hacts : rootActs emb argv = q1.filterMap (cfgAct emb) ++ .set (String.ofList c) (String.ofList f) (emb v) :: q2.filterMap (cfgAct emb) := by
    unfold rootActs
    rw [RootSettings.C205_settings hline, hq, List.filterMap_append,
      List.filterMap_cons_some (show cfgAct emb (.set c f v) = some (.set (String.ofList c) (String.ofList f) (emb v)) from rfl)]
  let a1 : List (Act V) := before.map (fun x => .set x.1 x.2.1 x.2.2) ++ q1.filterMap (cfgAct emb)
  let a2 : List (Act V) := q2.filterMap (cfgAct emb)
  have hcode : withRoot emb argv root before other root {} = a1 ++ .set (String.ofList c) (String.ofList f) (emb v) :: a2 := by
    unfold withRoot
    rw [if_pos rfl, hacts, List.append_assoc]
  have hsets : ∀ a ∈ a1 ++ .set (String.ofList c) (String.ofList f) (emb v) :: a2, ∃ i f v, a = .set i f v := by
    have hfm : ∀ (l : List Cfg), ∀ a ∈ l.filterMap (cfgAct emb), ∃ i f v, a = .set i f v := by
      intro l a ha
      obtain ⟨y, _, he⟩ := List.mem_filterMap.1 ha
      cases y with
      | set c' f' v' => simp only [cfgAct, Option.some.injEq] at he; exact ⟨_, _, _, he.symm⟩
      | error => cases he
      | raised => cases he
    intro a ha
    rcases List.mem_append.1 ha with ha | ha
    · rcases List.mem_append.1 ha with ha | ha
      · obtain ⟨y, _, rfl⟩ := List.mem_map.1 ha
        exact ⟨_, _, _, rfl⟩
      · exact hfm _ a ha
    · rcases List.mem_cons.1 ha with rfl | ha
      · exact ⟨_, _, _, rfl⟩
      · exact hfm _ a ha
  have hlog1 : (buildComp e (withRoot emb argv root before other) {} root).log =
      (a1 ++ .set (String.ofList c) (String.ofList f) (emb v) :: a2).map fun a => (root, a, none) := by
    unfold buildComp
    rw [show (({} : St V).db) = {} from rfl, hcode, acts_log e root _ hsets]
    rfl
  obtain ⟨l, hl, hlm⟩ := fold_log e (withRoot emb argv root before other) rest (buildComp e (withRoot emb argv root before other) {} root)
  have hlog : (build e (withRoot emb argv root before other) (root :: rest)).log =
      (a1 ++ .set (String.ofList c) (String.ofList f) (emb v) :: a2).map (fun a => (root, a, none)) ++ l := by
    rw [← hlog1, ← hl]; rfl
  have hgood := good_build e (withRoot emb argv root before other) (root :: rest)
  generalize build e (withRoot emb argv root before other) (root :: rest) = st at *
  rw [hlog] at hget
  rcases List.mem_append.1 hget with hg | hg
  · obtain ⟨a, _, he⟩ := List.mem_map.1 hg
    simp only [Prod.mk.injEq] at he
    exact absurd he.1.symm hx
  obtain ⟨l1, l2, rfl⟩ := List.append_of_mem hg
  have hr := hgood.gets _ x inst (String.ofList f) r l2 (by rw [hlog, ← List.append_assoc])
  have hsplit : settings ((a1 ++ .set (String.ofList c) (String.ofList f) (emb v) :: a2).map (fun a => (root, a, none)) ++ l1) =
      settings (a1.map fun a => (root, a, none)) ++
        ⟨root, String.ofList c, String.ofList f, emb v, true⟩ :: (settings (a2.map fun a => (root, a, none)) ++ settings l1) := by
    rw [settings_append, List.map_append, settings_append, List.map_cons]
    simp only [settings, List.append_assoc, List.cons_append]
  have hcol' : NoCollision e (settings ((a1 ++ .set (String.ofList c) (String.ofList f) (emb v) :: a2).map (fun a => (root, a, none)) ++ l1)) := by
    rw [hlog, ← List.append_assoc, settings_append] at hcol
    exact fun y hy z hz => hcol y (List.mem_append_left _ hy) z (List.mem_append_left _ hz)
  have hbuild : ∀ c' ∈ settings ((a1 ++ .set (String.ofList c) (String.ofList f) (emb v) :: a2).map (fun a => (root, a, none)) ++ l1),
      c'.build = true := fun c' hc' => (mem_settings hc').choose_spec.2
  rw [hsplit] at hr hcol' hbuild
  have hpath : ∀ i, instName e root i = i := fun i => (C24_path e root i).2.1 hfull
  have hd0 : depth e root = 0 := by unfold depth; rw [if_pos ((hname root).2 rfl)]
  have hdeep : ∀ c' ∈ settings l1, 0 < depth e c'.ctx := by
    intro c' hc'
    obtain ⟨r', hr', _⟩ := mem_settings hc'
    have hin := hlm _ (List.mem_append_left _ hr')
    unfold depth
    rw [if_neg (fun he => hrest ((hname _).1 he ▸ hin))]
    omega
  have hff : String.ofList f ≠ "" := by
    intro he
    have := congrArg String.toList he
    simp at this
    exact hf this
  have hinj : ∀ a b : Str, String.ofList a = String.ofList b → a = b := by
    intro a b he
    have := congrArg String.toList he
    simpa using this
  have h1 : ∀ c' ∈ settings (a1.map fun a => (root, a, (none : Option V))), c'.field = String.ofList f →
      (∃ y v', Cfg.set y f v' ∈ q1 ∧ c'.inst = String.ofList y) ∨ ∃ v', (c'.inst, String.ofList f, v') ∈ before := by
    intro c' hc' hfe
    have := (settings_root hc').2.2
    rcases List.mem_append.1 this with ha | ha
    · obtain ⟨y, hy, he⟩ := List.mem_map.1 ha
      simp only [Act.set.injEq] at he
      obtain ⟨i, g, w⟩ := y
      obtain ⟨rfl, rfl, rfl⟩ := he
      exact .inr ⟨_, hfe ▸ hy⟩
    · obtain ⟨y, g, w, hy, e1, e2, _⟩ := mem_cfgActs ha
      obtain rfl := hinj _ _ (e2.symm.trans hfe)
      exact .inl ⟨y, w, hy, e1⟩
  have h2 : ∀ c' ∈ settings (a2.map fun a => (root, a, (none : Option V))), ¬ c'.Matches e (instName e x inst) (String.ofList f) := by
    intro c' hc' hmm
    obtain ⟨hc, _, ha⟩ := settings_root hc'
    obtain ⟨y, g, w, hy, e1, e2, _⟩ := mem_cfgActs ha
    obtain rfl := hinj _ _ (e2.symm.trans hmm.1)
    have := hmm.2
    rw [hc, hpath, e1, hlast y w hy] at this
    cases this
  rw [hr]
  have hm' : Call.Matches e ⟨root, String.ofList c, String.ofList f, emb v, true⟩ (instName e x inst) (String.ofList f) :=
    ⟨rfl, by show e.matchScope (instName e root (String.ofList c)) _ = true; rw [hpath]; exact hm⟩
  rcases hkey with ⟨k1, k2⟩ | ⟨k1, k2⟩
  · refine fresh_wins e true _ _ ⟨root, String.ofList c, String.ofList f, emb v, true⟩ x inst hff hcol' hm' ?_ ?_ ?_
    · intro c' hc' hs
      have hi : c'.inst = String.ofList c := by
        have := hs.2.1
        rw [(settings_root hc').1] at this
        simpa only [hpath] using this
      rcases h1 c' hc' hs.2.2 with ⟨y, w, hy, e1⟩ | ⟨w, hw⟩
      · obtain rfl := hinj _ _ (e1.symm.trans hi)
        exact k1 w hy
      · exact k2 w (hi ▸ hw)
    · intro c' _ _
      show lev e ⟨root, _, _, _, true⟩ ≤ _
      simp only [lev, if_true, hd0]
      exact Nat.zero_le _
    · intro c' hc' hmm
      rcases List.mem_append.1 hc' with hc' | hc'
      · exact absurd hmm (h2 c' hc')
      · have hp := hdeep c' hc'
        refine ⟨?_, ?_⟩
        · have hb := hbuild c' (List.mem_append_right _ (List.mem_cons_of_mem _ (List.mem_append_right _ hc')))
          show lev e ⟨root, _, _, _, true⟩ < _
          simp only [lev, if_true, hd0, hb]
          exact hp
        · intro hs
          rw [hs.1] at hp
          exact absurd hp (by show ¬ 0 < depth e root; omega)
  · refine C25_higher_level_wins e true _ _ ⟨root, String.ofList c, String.ofList f, emb v, true⟩ x inst hff hcol' hbuild hm' ?_ ?_
    · intro c' hc' hs
      rcases List.mem_append.1 hc' with hc' | hc'
      · exact h2 c' hc' ⟨hs.2.2.symm, by rw [← hs.2.1]; exact hm'.2⟩
      · have hp := hdeep c' hc'
        rw [← hs.1] at hp
        exact absurd hp (by show ¬ 0 < depth e root; omega)
    · intro c' hc' hmm
      rcases List.mem_append.1 hc' with hc' | hc'
      · left
        have hc0 := (settings_root hc').1
        have hmi : e.matchScope c'.inst (instName e x inst) = true := by
          have := hmm.2
          rwa [hc0, hpath] at this
        have hi : c'.inst = String.ofList c := by
          rcases h1 c' hc' hmm.1 with ⟨y, w, hy, e1⟩ | ⟨w, hw⟩
          · rw [e1, k1 y w hy (e1 ▸ hmi)]
          · exact k2 _ w hw hmi
        refine ⟨hc0, ?_, hmm.1⟩
        show instName e c'.ctx c'.inst = instName e root (String.ofList c)
        rw [hc0, hi]
      · rcases List.mem_cons.1 hc' with rfl | hc'
        · exact .inl ⟨rfl, rfl, rfl⟩
        · rcases List.mem_append.1 hc' with hc' | hc'
          · exact absurd hmm (h2 c' hc')
          · right
            have hp := hdeep c' hc'
            show depth e root < _
            rw [hd0]; exact hp

/-! ## A concrete case: component 1 sets 7 for all below, component 4 sets 3 for itself, the command line says 9 (written as a text). -/
namespace Sample
open Verif.Traverse (flat flat_tree buildEx buildEx_builds)
open Verif.RootSettings (Unrelated)

def emb : Val → Int
  | .int n => n
  | .str t => t.length
def argv : List Str := ["+uvm_set_config_string=a.*,depth,123456789".toList]
theorem argv_line : Line argv [] [.set "a.*".toList "depth".toList (.str "123456789".toList)] :=
  .str ⟨"+uvm_set_config_string=", .inl rfl, by decide, by decide, by decide, by decide⟩ .nil
theorem code_log : (build env (withRoot emb argv 0 [("a.x", "depth", 1)] code) [0, 1, 4, 2, 3]).log =
    [(0, .set "a.x" "depth" 1, none), (0, .set "a.*" "depth" 9, none), (1, .set "*" "depth" 7, none), (4, .set "" "depth" 3, none),
      (4, .get "" "depth", some 9), (2, .get "" "other", none)] := by decide +kernel
/-- All hypotheses of C360 hold here; the setting made before `run_test` matches as well and loses. -/
example (s' : Traverse.State) (h : topdown buildEx (fun _ => true) 10 10 0 flat = some (s', [0, 1, 4, 2, 3])) (e : Env Int)
    (he : e.fullName 0 = "") (hn : ∀ c, e.mName c = "" ↔ c = 0)
    (hcol : NoCollision e (settings (build e (withRoot emb argv 0 [("a.x", "depth", 1)] code) [0, 1, 4, 2, 3]).log))
    (hm : e.matchScope (String.ofList "a.*".toList) (instName e 4 "") = true) (r : Option Int)
    (hr : (4, .get "" (String.ofList "depth".toList), r) ∈ (build e (withRoot emb argv 0 [("a.x", "depth", 1)] code) [0, 1, 4, 2, 3]).log) :
    ∃ w, r = some w ∧ SameVal e w 9 :=
  C360_command_line_wins buildEx_builds (fun _ => true) 10 10 0 flat s' [0, 1, 4, 2, 3] flat_tree (by decide) h rfl e he hn argv [] _ argv_line
    emb [("a.x", "depth", 1)] code hcol [] [] "a.*".toList "depth".toList (.str "123456789".toList) rfl (by decide) 4 (by decide) "" hm nofun
    (.inl ⟨nofun, by
      intro v' hv'
      have : String.ofList "a.*".toList = "a.x" := congrArg Prod.fst (List.mem_singleton.1 hv')
      exact absurd this (by decide)⟩) r hr
example : env.fullName 0 = "" ∧ env.matchScope (String.ofList "a.*".toList) (instName env 4 "") = true := by decide
end Sample

/-- C361 fails: a setting of the command line loses against one made before `run_test` if its pattern was used before that one:
with `set(None, "*", "f", 1)` and `set(None, "a.x", "f", 2)`, the argument `+uvm_set_config_string=*,f,123` does not reach component a.x, which gets 2. -/
theorem C361_pattern_used_before_fails : ∃ (e : Env Int), (∀ p q, e.matchScope p q = (p == q || p == "*")) ∧ e.fullName 0 = "" ∧ e.fullName 1 = "a.x" ∧
    (build e (withRoot Sample.emb ["+uvm_set_config_string=*,f,123".toList] 0 [("*", "f", 1), ("a.x", "f", 2)]
      (fun c _ => if c = 1 then [.get "" "f"] else [])) [0, 1]).log.getLast? = some (1, .get "" "f", some 2) :=
  ⟨{ none := 0, eqv := fun a b => a == b, matchScope := fun p q => p == q || p == "*", fullName := fun n => if n = 1 then "a.x" else "",
     mName := fun n => if n = 1 then "a.x" else "" }, fun _ _ => rfl, rfl, rfl, by decide +kernel⟩

/-- C361, the part that holds: it wins over everything set before `run_test` if nobody used its pattern for the field before. -/
theorem C361_new_pattern_partial {ex : Nat → Traverse.State → Traverse.State} (hex : Builds ex) (act : Nat → Bool) (m n root : Nat)
    (s s' : Traverse.State) (order : List Nat) (ht : Tree s) (htop : root < s.next) (h : topdown ex act m n root s = some (s', order))
    (hact : act root = true) (e : Env V) (hfull : e.fullName root = "") (hname : ∀ c, e.mName c = "" ↔ c = root)
    (argv : List Str) (is ss : List Cfg) (hline : Line argv is ss) (emb : Val → V) (before : List (String × String × V))
    (other : Nat → Db V → List (Act V)) (hcol : NoCollision e (settings (build e (withRoot emb argv root before other) order).log))
    (q1 q2 : List Cfg) (c f : Str) (v : Val) (hq : is ++ ss = q1 ++ .set c f v :: q2) (hf : f ≠ [])
    (x : Nat) (hx : x ≠ root) (inst : String) (hm : e.matchScope (String.ofList c) (instName e x inst) = true)
    (hlast : ∀ c' v', Cfg.set c' f v' ∈ q2 → e.matchScope (String.ofList c') (instName e x inst) = false)
    (h1 : ∀ v', Cfg.set c f v' ∉ q1) (h2 : ∀ v', (String.ofList c, String.ofList f, v') ∉ before)
    (r : Option V) (hget : (x, .get inst (String.ofList f), r) ∈ (build e (withRoot emb argv root before other) order).log) :
    ∃ w, r = some w ∧ SameVal e w (emb v) :=
  C360_command_line_wins hex act m n root s s' order ht htop h hact e hfull hname argv is ss hline emb before other hcol q1 q2 c f v hq hf x hx
    inst hm hlast (.inl ⟨h1, h2⟩) r hget

end Verif.BuildCfg
