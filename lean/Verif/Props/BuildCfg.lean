import Verif.Lemmas.BuildCfg
/-! # C358, C359: configuration in the build phase -/
namespace Verif.BuildCfg
open Verif.Resource
open Verif.Traverse (Tree Builds topdown Desc)
variable {V : Type}

/-- C358. A setting made in the `build_phase` of a component reaches everything that is built below it, at any depth, also components created
later in the same phase: if it matches the path asked for, and all other matching settings of the field come from deeper components, then every `get` in
the `build_phase` of a component below finds its value - whoever else sets the field before or after. -/
theorem C358_setting_reaches_below {ex : Nat → Traverse.State → Traverse.State} (hex : Builds ex) (act : Nat → Bool) (m n top : Nat)
    (s s' : Traverse.State) (order : List Nat) (ht : Tree s) (htop : top < s.next) (h : topdown ex act m n top s = some (s', order))
    (e : Env V) (code : Nat → Db V → List (Act V)) (a c : Nat) (hd : Desc s'.kids a c) (hne : a ≠ c) (i f inst : String) (v : V) (r : Option V)
    (hf : f ≠ "") (hcol : NoCollision e (settings (build e code order).log))
    (p1 p2 : List (Nat × Act V × Option V)) (ho : Option V) (hset : (build e code order).log = p1 ++ (a, .set i f v, ho) :: p2)
    (hlast : ∀ c' ∈ settings p2, ¬ Call.SameKey e ⟨a, i, f, v, true⟩ c')
    (hm : Call.Matches e ⟨a, i, f, v, true⟩ (instName e c inst) f)
    (hdeep : ∀ c' ∈ settings (build e code order).log, c'.Matches e (instName e c inst) f →
      c'.SameKey e ⟨a, i, f, v, true⟩ ∨ depth e a < depth e c'.ctx)
    (hget : (c, .get inst f, r) ∈ (build e code order).log) :
    ∃ w, r = some w ∧ SameVal e w v := by
  obtain ⟨full, hpre, hfil, hnd, hall⟩ := Traverse.C48_topdown_partial hex act m n top s s' order ht htop h
  have hao : a ∈ order := log_order e code order (a, .set i f v, ho) (by rw [hset]; simp)
  have hco : c ∈ order := log_order e code order (c, .get inst f, r) hget
  have hfa := List.mem_filter.1 (hfil ▸ hao)
  have hfc := List.mem_filter.1 (hfil ▸ hco)
  have hE : Earlier order a c := by
    rw [hfil]
    exact earlier_filter act ((desc_earlier hpre hnd hfa.1 hd).resolve_left hne) hfa.2 hfc.2
  have hno : order.Nodup := by rw [hfil]; exact hnd.sublist List.filter_sublist
  obtain ⟨o1, o2, rfl, hao1⟩ := hE
  have hg := good_build e code (o1 ++ c :: o2)
  obtain ⟨s1, t1, rfl⟩ := List.append_of_mem hao1
  have hoe : s1 ++ a :: t1 ++ c :: o2 = s1 ++ a :: (t1 ++ c :: o2) := by simp
  have hcs : c ∉ s1 := fun hm => (List.nodup_append.1 hno).2.2 c (List.mem_append_left _ hm) c (List.mem_cons_self ..) rfl
  have hla := log_before e code s1 (t1 ++ c :: o2) a (hoe ▸ hno)
  rw [← hoe] at hla
  generalize (build e code (s1 ++ a :: t1 ++ c :: o2)) = st at *
  obtain ⟨pre, post, he⟩ := List.append_of_mem hget
  have hr := hg.gets pre c inst f r post he
  have hsplit : ∃ q2, pre = p1 ++ (a, .set i f v, ho) :: q2 ∧ ∃ t, p2 = q2 ++ t := by
    have hp1 := (hla p1 p2 _ ho hset).1
    rw [he] at hset
    rcases List.append_eq_append_iff.1 hset with ⟨k, hk1, hk2⟩ | ⟨k, hk1, hk2⟩
    · exfalso
      cases k with
      | nil =>
        simp only [List.nil_append, List.cons.injEq, Prod.mk.injEq] at hk2
        exact hne hk2.1.1.symm
      | cons y k =>
        simp only [List.cons_append, List.cons.injEq] at hk2
        exact (hp1 (c, .get inst f, r) (by rw [hk1, hk2.1]; simp)).elim hcs (fun h => hne h.symm)
    · cases k with
      | nil =>
        simp only [List.nil_append, List.cons.injEq, Prod.mk.injEq] at hk2
        exact absurd hk2.1.1 hne
      | cons y k =>
        simp only [List.cons_append, List.cons.injEq] at hk2
        exact ⟨k, by rw [hk1, hk2.1], _, hk2.2⟩
  obtain ⟨q2, hq, t, hq2⟩ := hsplit
  have hsp : settings pre = settings p1 ++ ⟨a, i, f, v, true⟩ :: settings q2 := by rw [hq, settings_append]; rfl
  have hsub : ∀ c' ∈ settings pre, c' ∈ settings st.log := by
    intro c' hc'
    rw [he, settings_append]; exact List.mem_append_left _ hc'
  rw [hr]
  rw [hsp] at hsub ⊢
  refine C25_higher_level_wins e true (settings p1) (settings q2) ⟨a, i, f, v, true⟩ c inst hf ?_ ?_ hm ?_ ?_
  · exact fun x hx y hy => hcol x (hsub x hx) y (hsub y hy)
  · intro c' hc'
    obtain ⟨_, _, hb⟩ := mem_settings (hsub c' hc')
    exact hb
  · intro c' hc'
    exact hlast c' (by rw [hq2, settings_append]; exact List.mem_append_left _ hc')
  · exact fun c' hc' hmm => hdeep c' (hsub c' hc') hmm

/-- C359. What a component finds in its `build_phase` is decided by the settings made before: all settings of all components above it are among them
(and its own earlier ones), and none of a component below it. -/
theorem C359_seen_in_build {ex : Nat → Traverse.State → Traverse.State} (hex : Builds ex) (act : Nat → Bool) (m n top : Nat)
    (s s' : Traverse.State) (order : List Nat) (ht : Tree s) (htop : top < s.next) (h : topdown ex act m n top s = some (s', order))
    (e : Env V) (code : Nat → Db V → List (Act V)) (c : Nat) (inst f : String) (r : Option V) (pre post : List (Nat × Act V × Option V))
    (hget : (build e code order).log = pre ++ (c, .get inst f, r) :: post) :
    r = cfgGet e (setAll e true (settings pre)) c inst f ∧
    (∀ x ∈ (build e code order).log, Desc s'.kids x.1 c → x.1 ≠ c → x ∈ pre) ∧
    (∀ x ∈ pre, Desc s'.kids c x.1 → x.1 = c) := by
  obtain ⟨full, hpre, hfil, hnd, hall⟩ := Traverse.C48_topdown_partial hex act m n top s s' order ht htop h
  have hno : order.Nodup := by rw [hfil]; exact hnd.sublist List.filter_sublist
  have hco : c ∈ order := log_order e code order (c, .get inst f, r) (by rw [hget]; simp)
  have hfc := List.mem_filter.1 (hfil ▸ hco)
  refine ⟨(good_build e code order).gets pre c inst f r post hget, ?_, ?_⟩
  · intro x hx hd hne
    have hxo := log_order e code order x hx
    have hfx := List.mem_filter.1 (hfil ▸ hxo)
    have hE : Earlier order x.1 c := by
      rw [hfil]
      exact earlier_filter act ((desc_earlier hpre hnd hfx.1 hd).resolve_left hne) hfx.2 hfc.2
    obtain ⟨o1, o2, rfl, hm⟩ := hE
    exact (log_before e code o1 o2 c hno pre post _ r hget).2 x hx hm
  · intro x hx hd
    have hxl : x ∈ (build e code order).log := by rw [hget]; exact List.mem_append_left _ hx
    have hxo := log_order e code order x hxl
    have hfx := List.mem_filter.1 (hfil ▸ hxo)
    by_cases hne : c = x.1
    · exact hne.symm
    · exfalso
      have hE : Earlier order c x.1 := by
        rw [hfil]
        exact earlier_filter act ((desc_earlier hpre hnd hfc.1 hd).resolve_left hne) hfc.2 hfx.2
      obtain ⟨o1, o2, rfl, hm⟩ := hE
      obtain ⟨u, w, rfl⟩ := List.append_of_mem hm
      have hoe : u ++ c :: w ++ x.1 :: o2 = u ++ c :: (w ++ x.1 :: o2) := by simp
      have hl := (log_before e code u (w ++ x.1 :: o2) c (hoe ▸ hno) pre post _ r (hoe ▸ hget)).1 x hx
      rcases hl with hl | hl
      · exact (List.nodup_append.1 hno).2.2 x.1 (List.mem_append_left _ hl) x.1 (List.mem_cons_self ..) rfl
      · exact hne hl.symm

/-! ## A concrete build: the root (0) has the components 1, 2 and 3; component 1 creates component 4 in its `build_phase`. -/
namespace Sample
open Verif.Traverse (flat flat_tree buildEx buildEx_builds)

def env : Env Int where
  none := 0
  eqv := fun a b => a == b
  matchScope := fun p s => p == s || p == "a.*"
  fullName := fun n => ["", "a", "b", "c", "a.x"].getD n "other"
  mName := fun n => ["", "a", "b", "c", "a.x"].getD n "other"

/-- Component 1 wants 7 for everything below; component 4 gives itself 3 and asks; component 2 asks as well. -/
def code (c : Nat) (_ : Db Int) : List (Act Int) :=
  if c = 1 then [.set "*" "depth" 7] else if c = 4 then [.set "" "depth" 3, .get "" "depth"] else if c = 2 then [.get "" "other"] else []

example : (topdown buildEx (fun _ => true) 10 10 0 flat).map Prod.snd = some [0, 1, 4, 2, 3] := by decide
theorem log_eq : (build env code [0, 1, 4, 2, 3]).log =
    [(1, .set "*" "depth" 7, none), (4, .set "" "depth" 3, none), (4, .get "" "depth", some 7), (2, .get "" "other", none)] := by decide
theorem settings_eq : settings (build env code [0, 1, 4, 2, 3]).log = [⟨1, "*", "depth", 7, true⟩, ⟨4, "", "depth", 3, true⟩] := rfl
theorem no_collision : NoCollision env (settings (build env code [0, 1, 4, 2, 3]).log) := by
  rw [settings_eq]
  intro x hx y hy
  simp only [List.mem_cons, List.not_mem_nil, or_false] at hx hy
  rcases hx with rfl | rfl <;> rcases hy with rfl | rfl <;> decide

/-- All hypotheses of C358 hold for the setting of component 1 and the question of component 4. -/
example (s' : Traverse.State) (h : topdown buildEx (fun _ => true) 10 10 0 flat = some (s', [0, 1, 4, 2, 3])) (hd : Desc s'.kids 1 4) :
    ∃ w, some (7 : Int) = some w ∧ SameVal env w 7 :=
  C358_setting_reaches_below buildEx_builds (fun _ => true) 10 10 0 flat s' [0, 1, 4, 2, 3] flat_tree (by decide) h env code 1 4 hd (by decide)
    "*" "depth" "" 7 (some 7) (by decide) no_collision [] [(4, .set "" "depth" 3, none), (4, .get "" "depth", some 7), (2, .get "" "other", none)]
    none (by rw [log_eq]; rfl)
    (by
      intro c' hc'
      obtain rfl : c' = ⟨4, "", "depth", 3, true⟩ := List.mem_singleton.1 hc'
      unfold Call.SameKey; decide)
    ⟨rfl, by decide⟩
    (by
      intro c' hc' _
      rw [settings_eq] at hc'
      simp only [List.mem_cons, List.not_mem_nil, or_false] at hc'
      rcases hc' with rfl | rfl
      · exact .inl ⟨rfl, rfl, rfl⟩
      · right; decide)
    (by rw [log_eq]; decide)
/-- And the traversal does leave component 4 below component 1. -/
example : ∃ s', topdown buildEx (fun _ => true) 10 10 0 flat = some (s', [0, 1, 4, 2, 3]) ∧ Desc s'.kids 1 4 :=
  ⟨_, rfl, .step .refl (by decide)⟩
end Sample
end Verif.BuildCfg
