import Verif.Lemmas.BuildFactory
/-! # C362, C363: overrides in the build phase -/
namespace Verif.BuildFactory
open Verif.Factory
open Verif.Traverse (Tree Builds topdown Desc)
open Verif.BuildCfg (Earlier desc_earlier earlier_filter)

/-- In the traversal, components come after those above them. -/
theorem order_earlier {ex : Nat → Traverse.State → Traverse.State} (hex : Builds ex) (act : Nat → Bool) (m n top : Nat)
    (s s' : Traverse.State) (order : List Nat) (ht : Tree s) (htop : top < s.next) (h : topdown ex act m n top s = some (s', order)) :
    order.Nodup ∧ ∀ a c, a ∈ order → c ∈ order → Desc s'.kids a c → a ≠ c → Earlier order a c := by
  obtain ⟨full, hpre, hfil, hnd, hall⟩ := Traverse.C48_topdown_partial hex act m n top s s' order ht htop h
  refine ⟨by rw [hfil]; exact hnd.sublist List.filter_sublist, ?_⟩
  intro a c ha hc hd hne
  have hfa := List.mem_filter.1 (hfil ▸ ha)
  have hfc := List.mem_filter.1 (hfil ▸ hc)
  rw [hfil]
  exact earlier_filter act ((desc_earlier hpre hnd hfa.1 hd).resolve_left hne) hfa.2 hfc.2

theorem firstInst_none {e : Env} {path : String} {t : Ty} {l : List Op} (h : ∀ w q, .inst t w q ∈ l → ¬ e.isMatch q path = true) :
    firstInst e path t l = none := by
  induction l with
  | nil => rfl
  | cons op l ih =>
    have ih := ih fun w q hm => h w q (List.mem_cons_of_mem _ hm)
    cases op with
    | inst o w q =>
      have : ¬ (o = t ∧ e.isMatch q path = true) := by
        rintro ⟨rfl, hm⟩
        exact h w q (List.mem_cons_self ..) hm
      rw [firstInst, if_neg this]; exact ih
    | _ => exact ih

theorem typeOverride_none {t : Ty} {l : List Op} (h : ∀ w q, .typeByType t w q ∉ l) : typeOverride t l = none := by
  unfold typeOverride
  induction l with
  | nil => rfl
  | cons op l ih =>
    have ih := ih fun w q hm => h w q (List.mem_cons_of_mem _ hm)
    rw [List.foldl_cons]
    have : typeCall t none op = none := by
      cases op with
      | typeByType o w q =>
        have : ¬ o = t := by
          rintro rfl
          exact h w q (List.mem_cons_self ..)
        simp [typeCall, this]
      | _ => rfl
    rw [this]; exact ih

/-- C362. What a component creates in its `build_phase` is decided by the calls made before: the type asked for, followed through the overrides that
these calls set (the first matching instance override, else the type override) up to one that is not replaced.  Among these calls are all of all
components above it, and none of a component below it. -/
theorem C362_created {ex : Nat → Traverse.State → Traverse.State} (hex : Builds ex) (act : Nat → Bool) (m n top : Nat)
    (s s' : Traverse.State) (order : List Nat) (ht : Tree s) (htop : top < s.next) (h : topdown ex act m n top s = some (s', order))
    (e : Env) (hn : UniqueNames e) (fuel : Nat) (code : Nat → Factory → List Op) (hb : ByType (ops (build e fuel code order).log))
    (hfuel : 2 * size (build e fuel code order).f < fuel)
    (c : Nat) (t : Ty) (parent name : String) (r : Option Res) (pre post : List (Nat × Op × Option Res))
    (hlog : (build e fuel code order).log = pre ++ (c, .create t parent name, r) :: post) :
    (∀ u, Leads e (instPath parent name) (ops pre) t u → r = some (.found u false)) ∧
    (∀ x ∈ (build e fuel code order).log, Desc s'.kids x.1 c → x.1 ≠ c → x ∈ pre) ∧
    (∀ x ∈ pre, Desc s'.kids c x.1 → x.1 = c) := by
  obtain ⟨hno, hE⟩ := order_earlier hex act m n top s s' order ht htop h
  have hch := build_chunks e fuel code order
  have hg := good_build e fuel code order
  have hco : c ∈ order := chunks_mem hch (c, .create t parent name, r) (by rw [hlog]; simp)
  generalize build e fuel code order = st at *
  refine ⟨?_, ?_, ?_⟩
  · intro u hu
    have hbp : ByType (ops pre) := by
      intro on vn r hm
      refine hb on vn r ?_
      rw [hlog]
      unfold ops at hm ⊢
      rw [List.map_append]
      exact List.mem_append_left _ hm
    obtain ⟨h1, h2⟩ := leads_steps hn fuel hbp hu
    have hr := hg.out pre c _ r post hlog
    rw [hr]
    refine congrArg some (C20_chain_end e _ (reachable_fold fuel _ hbp .init) hn fuel ?_ t u parent name h1 h2)
    refine Nat.lt_of_le_of_lt ?_ hfuel
    rw [hg.f, hlog]
    unfold ops
    rw [List.map_append, List.foldl_append]
    exact Nat.mul_le_mul_left 2 (size_fold e fuel _ _)
  · intro x hx hd hne
    obtain ⟨p1, p2, hp⟩ := List.append_of_mem hx
    obtain ⟨q, rfl⟩ := chunks_earlier hch hno (hE x.1 c (chunks_mem hch x hx) hco hd hne) hlog p1 x.2 p2 hp
    simp
  · intro x hx hd
    by_cases hne : c = x.1
    · exact hne.symm
    · exfalso
      obtain ⟨p1, p2, rfl⟩ := List.append_of_mem hx
      have hxo : x.1 ∈ order := chunks_mem hch x (by rw [hlog]; simp)
      obtain ⟨q, hq⟩ := chunks_earlier hch hno (hE c x.1 hco hxo hd hne) (pre := p1) (y := x.2)
        (post := p2 ++ (c, .create t parent name, r) :: post) (by rw [hlog]; simp) _ _ _ hlog
      have := congrArg List.length hq
      simp at this

/-- C363. An instance override that a component sets in its `build_phase` decides what is created below it: if the pattern matches the path of a component
that is created in the `build_phase` of any component below, the overriding type is created instead of the one asked for - whatever other overrides of that
type the components below set, and whatever type overrides there are - unless a matching instance override was set earlier (so
what a test sets wins over what its environments set). -/
theorem C363_override_above_wins {ex : Nat → Traverse.State → Traverse.State} (hex : Builds ex) (act : Nat → Bool) (m n top : Nat)
    (s s' : Traverse.State) (order : List Nat) (ht : Tree s) (htop : top < s.next) (h : topdown ex act m n top s = some (s', order))
    (e : Env) (hn : UniqueNames e) (fuel : Nat) (code : Nat → Factory → List Op) (hb : ByType (ops (build e fuel code order).log))
    (hfuel : 2 * size (build e fuel code order).f < fuel)
    (a c : Nat) (hd : Desc s'.kids a c) (hne : a ≠ c) (t v : Ty) (hv : v ≠ t) (p parent name : String) (hpath : instPath parent name ≠ "")
    (hm : e.isMatch p (instPath parent name) = true) (p1 p2 : List (Nat × Op × Option Res)) (ra : Option Res)
    (hset : (build e fuel code order).log = p1 ++ (a, .inst t v p, ra) :: p2)
    (hfirst : ∀ w q, .inst t w q ∈ ops p1 → ¬ e.isMatch q (instPath parent name) = true)
    (r : Option Res) (hcr : (c, .create t parent name, r) ∈ (build e fuel code order).log)
    (hfin : ∀ w q, .inst v w q ∈ ops (build e fuel code order).log → ¬ e.isMatch q (instPath parent name) = true)
    (hfin' : ∀ w q, .typeByType v w q ∉ ops (build e fuel code order).log) : r = some (.found v false) := by
  obtain ⟨pre, post, hlog⟩ := List.append_of_mem hcr
  have hc := C362_created hex act m n top s s' order ht htop h e hn fuel code hb hfuel c t parent name r pre post hlog
  obtain ⟨hno, hE⟩ := order_earlier hex act m n top s s' order ht htop h
  have hch := build_chunks e fuel code order
  have hao : a ∈ order := chunks_mem hch (a, .inst t v p, ra) (by rw [hset]; simp)
  have hco : c ∈ order := chunks_mem hch (c, .create t parent name, r) hcr
  obtain ⟨q, hq⟩ := chunks_earlier hch hno (hE a c hao hco hd hne) hlog p1 _ p2 hset
  refine hc.1 v (.next (u := v) ?_ hv (.stop (.inl ?_)))
  · unfold override
    rw [if_neg hpath, hq]
    have h0 : firstInst e (instPath parent name) t (ops p1) = none := firstInst_none hfirst
    rw [show ops (p1 ++ (a, .inst t v p, ra) :: q) = ops p1 ++ .inst t v p :: ops q by simp [ops], firstInst_append, h0]
    simp [firstInst, hm]
  · have hsub : ∀ x ∈ ops pre, x ∈ ops (build e fuel code order).log := by
      intro x hx
      rw [hlog]
      unfold ops at hx ⊢
      rw [List.map_append]
      exact List.mem_append_left _ hx
    unfold override
    rw [if_neg hpath, firstInst_none (fun w q hx => hfin w q (hsub _ hx)), typeOverride_none (fun w q hx => hfin' w q (hsub _ hx))]
    rfl

/-! ## A concrete build: component 1 (a) creates component 4 (a.x); both override type 10, component 4 also type-wide; then component 4 creates it. -/
namespace Sample
open Verif.Traverse (flat flat_tree buildEx buildEx_builds)

def env : Env := { name := fun t => if t = 10 then "drv" else if t = 11 then "drv1" else if t = 12 then "drv2" else "", isMatch := fun p s => p == s || (p == "a.*" && s == "a.x.d") }
theorem env_names : UniqueNames env := by
  intro a b h1 h2
  by_cases a0 : a = 10 <;> by_cases a1 : a = 11 <;> by_cases a2 : a = 12 <;> by_cases b0 : b = 10 <;> by_cases b1 : b = 11 <;>
    by_cases b2 : b = 12 <;> simp_all [env, usable]
def code (c : Nat) (_ : Factory) : List Op :=
  if c = 1 then [.inst 10 11 "a.*"]
  else if c = 4 then [.typeByType 10 12 .true_, .inst 10 12 "a.x.d", .create 10 "a.x" "d", .create 10 "b" "d"] else []

example : (topdown buildEx (fun _ => true) 10 10 0 flat).map Prod.snd = some [0, 1, 4, 2, 3] := by decide
theorem log_eq : (build env 10 code [0, 1, 4, 2, 3]).log =
    [(1, .inst 10 11 "a.*", none), (4, .typeByType 10 12 .true_, none), (4, .inst 10 12 "a.x.d", none),
      (4, .create 10 "a.x" "d", some (.found 11 false)), (4, .create 10 "b" "d", some (.found 12 false))] := by rfl
example : 2 * size (build env 10 code [0, 1, 4, 2, 3]).f < 10 := by decide
example : ByType (ops (build env 10 code [0, 1, 4, 2, 3]).log) := by
  rw [log_eq]
  intro on vn r h
  simp [ops] at h
example : ∃ s', topdown buildEx (fun _ => true) 10 10 0 flat = some (s', [0, 1, 4, 2, 3]) ∧ Desc s'.kids 1 4 :=
  ⟨_, rfl, .step .refl (by decide)⟩
example : env.isMatch "a.*" (instPath "a.x" "d") = true ∧ instPath "a.x" "d" ≠ "" := by decide
/-- The hypotheses of C362: the chain from type 10 ends at type 12 at path "b.d". -/
example : Leads env (instPath "b" "d") (ops ((build env 10 code [0, 1, 4, 2, 3]).log.take 3)) 10 12 :=
  .next (u := 12) (by decide) (by decide) (.stop (.inl (by decide)))
end Sample
end Verif.BuildFactory
