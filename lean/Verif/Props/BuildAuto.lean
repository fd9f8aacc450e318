import Verif.Lemmas.BuildAuto
import Verif.Props.BuildFactory
import Verif.Props.BuildCfg
/-! # C365, C366: registered fields during a build phase -/
namespace Verif.BuildAuto
open Verif.Resource
open Verif.ConfigAuto (Val Field given Touches ordinary lookupScope)
open Verif.Traverse (Tree Builds topdown Desc)
open Verif.BuildFactory (chunks_mem chunks_earlier order_earlier)

/-- The settings `calls` give the field of `c` the value of the setting `s`. -/
theorem given_by (e : Env Val) (fields : Nat → List Field) (c : Nat) (x : String) (hx : ∃ g ∈ fields c, g.name = x ∧ g.readOnly = false) (hne : x ≠ "")
    (a : String → Val) (pre post : List (Call Val)) (s : Call Val) (hsx : s.field = x) (hm : e.matchScope (instName e s.ctx s.inst) (e.fullName c) = true)
    (hcol : NoCollision e (pre ++ s :: post)) (hord : ∀ s' ∈ pre ++ s :: post, ordinary s'.field)
    (hlast : ∀ s' ∈ post, ¬ s.SameKey e s') (honly : ∀ s' ∈ pre ++ s :: post, Concerns e fields c x s' → s.SameKey e s') :
    ∃ w, SameVal e w s.val ∧
      (ConfigAuto.apply (fields c) (lookupScope e (setAll e true (pre ++ s :: post)) (keysOf (pre ++ s :: post)) (e.fullName c)) a).attrs x = (given w).getD (a x) := by
  obtain ⟨r, ⟨hr, hk, hv, -⟩, huniq⟩ := specEntries_key e true x pre post s hsx hlast
  have hent := entries_setAll e true x hne _ hcol
  refine ⟨r.val, hv, apply_const ?_ hx ?_ ?_⟩
  · intro r' hr'
    obtain ⟨-, -, s', hs', h1, -⟩ := lookup_call hr'
    rw [h1]; exact hord s' hs'
  · intro r' hr' ht
    obtain ⟨hin, hmm, s', hs', h1, h2⟩ := lookup_call hr'
    have hkey := honly s' hs' ⟨h2 ▸ hmm, h1 ▸ ht.1, h1 ▸ ht.2⟩
    have hn : r'.name = x := by rw [h1, ← hkey.2.2, hsx]
    rw [hn, hent] at hin
    obtain ⟨-, s2, hs2, h3, h4, h5, -⟩ := specEntries_mem e true x _ r' hin
    have hkey2 := honly s2 hs2 ⟨h5 ▸ hmm, .inl (by obtain ⟨g, hg, hgx, -⟩ := hx; exact ⟨g, hg, hgx.trans h3.symm⟩), by rw [h3]; exact List.infix_rfl⟩
    rw [huniq r' hin (by unfold hasKey; rw [h4, h5, ← hkey2.2.1, ← hkey2.1]; simp)]
  · have hk' : r.creator = some s.ctx ∧ r.scope = instName e s.ctx s.inst := by simpa [hasKey] using hk
    rw [← hent] at hr
    obtain ⟨i, hi, hri⟩ := List.mem_filterMap.1 hr
    obtain ⟨r', hr', hname⟩ := (inv_setAll e true (pre ++ s :: post)).valid x i hi
    rw [hri] at hr'
    cases hr'
    refine ⟨r, ?_, .inl ?_, ?_⟩
    · refine ((ConfigAuto.C192_lookup_partial e _ (e.fullName c)).2 _ r).2 ⟨x, mem_keysOf.2 ⟨s, by simp, hsx⟩, i, hi, hri, ?_⟩
      rw [hk'.2]; exact hm
    · obtain ⟨g, hg, hgx, -⟩ := hx; exact ⟨g, hg, hgx.trans hname.symm⟩
    · rw [hname]; exact List.infix_rfl

/-- C365. A setting that a component makes in its `build_phase` reaches the registered fields of everything that is built below it: if the setting matches the
full name of a component below and names a writable registered field of it, and there is no other setting (of another component or for another
pattern) for this component and a registered field whose name is contained in that name, then the field has the value of the setting after
`super().build_phase(phase)` - its own value if the type of the value is not supported. -/
theorem C365_setting_reaches_fields {ex : Nat → Traverse.State → Traverse.State} (hex : Builds ex) (act : Nat → Bool) (m n top : Nat)
    (s s' : Traverse.State) (order : List Nat) (ht : Tree s) (htop : top < s.next) (h : topdown ex act m n top s = some (s', order))
    (e : Env Val) (fields : Nat → List Field) (code : Nat → Db Val → List Act) (a c : Nat) (hd : Desc s'.kids a c) (hne : a ≠ c)
    (i x : String) (v : Val) (hx : ∃ g ∈ fields c, g.name = x ∧ g.readOnly = false) (hx0 : x ≠ "")
    (hcol : NoCollision e (settings (build e fields code order).log)) (hord : ∀ t ∈ settings (build e fields code order).log, ordinary t.field)
    (p1 p2 : List (Nat × Act × Option (String → Val))) (ho : Option (String → Val)) (hset : (build e fields code order).log = p1 ++ (a, .set i x v, ho) :: p2)
    (hlast : ∀ t ∈ settings p2, ¬ Call.SameKey e ⟨a, i, x, v, true⟩ t)
    (hm : e.matchScope (instName e a i) (e.fullName c) = true)
    (honly : ∀ t ∈ settings (build e fields code order).log, Concerns e fields c x t → Call.SameKey e ⟨a, i, x, v, true⟩ t)
    (own : String → Val) (r : Option (String → Val)) (hsup : (c, .super own, r) ∈ (build e fields code order).log) :
    ∃ after w, r = some after ∧ SameVal e w v ∧ after x = (given w).getD (own x) := by
  obtain ⟨pre, post, hlog⟩ := List.append_of_mem hsup
  obtain ⟨hno, hE⟩ := order_earlier hex act m n top s s' order ht htop h
  have hch := build_chunks e fields code order
  have hg := good_build e fields code order
  have hao : a ∈ order := chunks_mem hch (a, .set i x v, ho) (by rw [hset]; simp)
  have hco : c ∈ order := chunks_mem hch (c, .super own, r) hsup
  obtain ⟨q, hq⟩ := chunks_earlier hch hno (hE a c hao hco hd hne) hlog p1 _ p2 hset
  have hr := hg.supers pre c own r post hlog
  have hsp : settings pre = settings p1 ++ ⟨a, i, x, v, true⟩ :: settings q := by rw [hq, settings_append]; rfl
  have hsub : ∀ t ∈ settings pre, t ∈ settings (build e fields code order).log := by
    intro t ht; rw [hlog, settings_append]; exact List.mem_append_left _ ht
  have hq2 : ∀ t ∈ settings q, t ∈ settings p2 := by
    intro t ht
    have : p2 = q ++ (c, .super own, r) :: post := by
      have := hset.symm.trans hlog
      rw [hq, List.append_assoc] at this
      exact (List.cons.inj (List.append_cancel_left this)).2
    rw [this, settings_append]; exact List.mem_append_left _ ht
  rw [hsp] at hr hsub
  obtain ⟨w, hw, hval⟩ := given_by e fields c x hx hx0 own (settings p1) (settings q) ⟨a, i, x, v, true⟩ rfl hm
    (fun t ht u hu => hcol t (hsub t ht) u (hsub u hu)) (fun t ht => hord t (hsub t ht)) (fun t ht => hlast t (hq2 t ht)) (fun t ht => honly t (hsub t ht))
  exact ⟨_, w, hr, hw, hval⟩

/-- C366. A field for which no setting was made before is left as the component's own code made it: settings for other components, for fields with other names
or made later in the phase, like all those of components below, do not matter. -/
theorem C366_others_alone {ex : Nat → Traverse.State → Traverse.State} (hex : Builds ex) (act : Nat → Bool) (m n top : Nat)
    (s s' : Traverse.State) (order : List Nat) (ht : Tree s) (htop : top < s.next) (h : topdown ex act m n top s = some (s', order))
    (e : Env Val) (fields : Nat → List Field) (code : Nat → Db Val → List Act) (c : Nat) (x : String)
    (hord : ∀ t ∈ settings (build e fields code order).log, ordinary t.field)
    (honly : ∀ t ∈ settings (build e fields code order).log, Concerns e fields c x t → Desc s'.kids c t.ctx ∧ t.ctx ≠ c)
    (own : String → Val) (r : Option (String → Val)) (hsup : (c, .super own, r) ∈ (build e fields code order).log) :
    ∃ after, r = some after ∧ after x = own x := by
  obtain ⟨pre, post, hlog⟩ := List.append_of_mem hsup
  obtain ⟨hno, hE⟩ := order_earlier hex act m n top s s' order ht htop h
  have hch := build_chunks e fields code order
  have hg := good_build e fields code order
  have hco : c ∈ order := chunks_mem hch (c, .super own, r) hsup
  have hr := hg.supers pre c own r post hlog
  refine ⟨_, hr, ?_⟩
  have hsub : ∀ t ∈ settings pre, t ∈ settings (build e fields code order).log := by
    intro t ht; rw [hlog, settings_append]; exact List.mem_append_left _ ht
  have hnone : ∀ t ∈ settings pre, ¬ Concerns e fields c x t := by
    intro t ht hc
    obtain ⟨hd, hne⟩ := honly t (hsub t ht) hc
    obtain ⟨y, hy, hyc⟩ := mem_settings ht
    obtain ⟨p1, p2, rfl⟩ := List.append_of_mem hy
    have hto : t.ctx ∈ order := hyc ▸ chunks_mem hch y (by rw [hlog]; simp)
    obtain ⟨q, hq⟩ := chunks_earlier hch hno (hE c t.ctx hco hto hd (fun h => hne h.symm)) (pre := p1) (y := y.2)
      (post := p2 ++ (c, .super own, r) :: post) (by rw [hlog, ← hyc]; simp) _ _ _ hlog
    have := congrArg List.length hq
    simp at this
  by_cases hw : ∃ g ∈ fields c, g.name = x ∧ g.readOnly = false
  · rw [(ConfigAuto.C192_last_applied_partial (fields c) _ own ?_ x hw).2]
    · have : ConfigAuto.touching (fields c) x (sortByPrecedence (lookupScope e (setAll e true (settings pre)) (keysOf (settings pre)) (e.fullName c))) = [] := by
        apply List.eq_nil_iff_forall_not_mem.2
        intro v hv
        obtain ⟨r', hr', -⟩ := List.mem_filterMap.1 hv
        have hr' := List.mem_filter.1 hr'
        obtain ⟨-, hmm, t, ht, h1, h2⟩ := lookup_call ((C61_sort_partial _).1.mem_iff.1 hr'.1)
        have htt : Touches (fields c) x r' := by simpa using hr'.2
        exact hnone t ht ⟨h2 ▸ hmm, h1 ▸ htt.1, h1 ▸ htt.2⟩
      rw [this]; rfl
    · intro r' hr'
      obtain ⟨-, -, t, ht, h1, -⟩ := lookup_call hr'
      rw [h1]; exact hord t (hsub t ht)
  · refine ConfigAuto.C193_only_registered _ _ _ _ fun f hf hfx => ?_
    cases hro : f.readOnly with
    | true => rfl
    | false => exact absurd ⟨f, hf, hfx, hro⟩ hw

/-! ## A concrete build: the root (0) has the components 1, 2 and 3; component 1 creates component 4 in its `build_phase`. -/
namespace Sample
open Verif.Traverse (flat flat_tree buildEx buildEx_builds)

def env : Env Val where
  none := .none
  eqv := fun a b => a == b
  matchScope := fun p s => p == s || (p == "a.*" && s == "a.x")
  fullName := fun n => ["", "a", "b", "c", "a.x"].getD n "other"
  mName := fun n => ["", "a", "b", "c", "a.x"].getD n "other"

def fields (c : Nat) : List Field := if c = 4 then [⟨"depth", false⟩, ⟨"width", false⟩] else []

/-- Component 1 wants 7 for everything below; component 4, which gives its fields the value 0 and sets `width` for a component below, is configured. -/
def code (c : Nat) (_ : Db Val) : List Act :=
  if c = 1 then [.set "*" "depth" (.int 7)] else if c = 4 then [.set "y" "width" (.int 3), .super (fun _ => .int 0)] else []

theorem settings_eq : settings (build env fields code [0, 1, 4, 2, 3]).log = [⟨1, "*", "depth", .int 7, true⟩, ⟨4, "y", "width", .int 3, true⟩] := rfl

theorem no_collision : NoCollision env (settings (build env fields code [0, 1, 4, 2, 3]).log) := by
  rw [settings_eq]
  intro x hx y hy
  simp only [List.mem_cons, List.not_mem_nil, or_false] at hx hy
  rcases hx with rfl | rfl <;> rcases hy with rfl | rfl <;> decide

theorem plain : ∀ t ∈ settings (build env fields code [0, 1, 4, 2, 3]).log, ordinary t.field := by
  rw [settings_eq]
  intro x hx
  simp only [List.mem_cons, List.not_mem_nil, or_false] at hx
  unfold ordinary
  rcases hx with rfl | rfl <;> decide

/-- All hypotheses of C365 hold for the setting of component 1 and the field of component 4: it is 7. -/
example (s' : Traverse.State) (h : topdown buildEx (fun _ => true) 10 10 0 flat = some (s', [0, 1, 4, 2, 3])) (hd : Desc s'.kids 1 4)
    (r : Option (String → Val)) (hsup : (4, .super (fun _ => .int 0), r) ∈ (build env fields code [0, 1, 4, 2, 3]).log) : ∃ after, r = some after ∧ after "depth" = .int 7 := by
  obtain ⟨after, w, h1, h2, h3⟩ := C365_setting_reaches_fields buildEx_builds (fun _ => true) 10 10 0 flat s' [0, 1, 4, 2, 3] flat_tree (by decide) h env fields code 1 4 hd
    (by decide) "*" "depth" (.int 7) ⟨⟨"depth", false⟩, by decide, rfl, rfl⟩ (by decide) no_collision plain
    [] ((build env fields code [0, 1, 4, 2, 3]).log.drop 1) none rfl
    (by
      intro t ht
      obtain rfl : t = ⟨4, "y", "width", .int 3, true⟩ := List.mem_singleton.1 ht
      unfold Call.SameKey; decide)
    (by decide)
    (by
      intro t ht hc
      rw [settings_eq] at ht
      simp only [List.mem_cons, List.not_mem_nil, or_false] at ht
      rcases ht with rfl | rfl
      · exact ⟨rfl, rfl, rfl⟩
      · exact absurd hc.1 (by decide)) (fun _ => .int 0) r hsup
  refine ⟨after, h1, ?_⟩
  have : w = .int 7 := by
    rcases h2 with h | h
    · exact h
    · simpa [env] using h
  rw [h3, this]; rfl

/-- It is configured in this build. -/
example : ∃ r, (4, .super (fun _ => .int 0), r) ∈ (build env fields code [0, 1, 4, 2, 3]).log :=
  ⟨_, List.mem_cons_of_mem _ (List.mem_cons_of_mem _ (List.mem_cons_self ..))⟩

/-- And those of C366 for its other field. -/
example (s' : Traverse.State) (h : topdown buildEx (fun _ => true) 10 10 0 flat = some (s', [0, 1, 4, 2, 3]))
    (r : Option (String → Val)) (hsup : (4, .super (fun _ => .int 0), r) ∈ (build env fields code [0, 1, 4, 2, 3]).log) : ∃ after, r = some after ∧ after "width" = .int 0 :=
  C366_others_alone buildEx_builds (fun _ => true) 10 10 0 flat s' [0, 1, 4, 2, 3] flat_tree (by decide) h env fields code 4 "width" plain
    (by
      intro t ht hc
      rw [settings_eq] at ht
      simp only [List.mem_cons, List.not_mem_nil, or_false] at ht
      rcases ht with rfl | rfl
      · exact absurd hc.2.2 (by simp [String.toList]; decide)
      · exact absurd hc.1 (by decide)) (fun _ => .int 0) r hsup
end Sample
end Verif.BuildAuto
