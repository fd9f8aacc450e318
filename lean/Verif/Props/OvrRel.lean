import Verif.Spec.OvrRel
import Verif.Lemmas.Factory
import Verif.Lemmas.Text
/-!
# C334: instance overrides relative to a component
-/
namespace Verif.OvrRel
open Verif.Factory Verif.Text

theorem path_eq (name : String) (parent : Option String) (contxt : String) : instPath (context parent contxt) name = pathOf name parent contxt := by
  have h : context parent contxt = if contxt = "" then parent.getD "" else contxt := by
    cases parent with
    | none => simp only [context, Option.getD_none]; split <;> simp_all
    | some p => rfl
  simp only [instPath, pathOf, h]
  generalize (if contxt = "" then parent.getD "" else contxt) = a
  by_cases h1 : a = "" <;> by_cases h2 : name = "" <;> simp [h1, h2]

/-- The overrides of one more instance override. -/
theorem setInst_spec (e : Env) (f : Factory) (o v : Ty) (path : String) :
    (Factory.setInst e f o v path).typeOvr = f.typeOvr ∧ (Factory.setInst e f o v path).debugPass = f.debugPass ∧
    ∀ u, queue (Factory.setInst e f o v path).inst u = queue f.inst u ∨
      u = o ∧ queue (Factory.setInst e f o v path).inst u = queue f.inst o ++ [mkOvr e path (e.name o) (some o) v] := by
  have hd : ∀ (g : Factory) (t : Ty), (ensure e g t).debugPass = g.debugPass := by
    intro g t
    exact (ensure_typeOvr e g t).2.2
  have h1 := ensure_typeOvr e f o
  have h2 := ensure_typeOvr e (ensure e f o) v
  unfold Factory.setInst
  simp only
  split
  · exact ⟨h2.1.trans h1.1, (hd _ _).trans (hd _ _), fun u => .inl (by rw [h2.2.1, h1.2.1])⟩
  · refine ⟨h2.1.trans h1.1, (hd _ _).trans (hd _ _), fun u => ?_⟩
    simp only [queue_push, h2.2.1, h1.2.1]
    by_cases hu : u = o
    · exact .inr ⟨hu, by simp [hu]⟩
    · exact .inl (by simp [hu])

theorem find_congr {e : Env} {f g : Factory} (path : String) (hd : g.debugPass = f.debugPass) (h : ∀ t, candidates e g t path = candidates e f t path) :
    ∀ (fuel : Nat) (t : Ty) (info : List Ovr), findByType e g path fuel t info = findByType e f path fuel t info := by
  have hdb : ∀ (fuel : Nat) (t : Ty) (info : List Ovr), debugInfo e g path fuel t info = debugInfo e f path fuel t info := by
    intro fuel
    induction fuel with
    | zero => intro t info; rfl
    | succ fuel ih =>
      intro t info
      simp only [debugInfo, h, ih]
  intro fuel
  induction fuel with
  | zero => intro t info; rfl
  | succ fuel ih =>
    intro t info
    simp only [findByType, h, hdb, hd, ih]

/-- An override that does not match the path changes nothing there. -/
theorem setInst_miss (e : Env) (f : Factory) (o v t : Ty) (path s : String) (fuel : Nat) (hm : e.isMatch path s = false) :
    findByType e (Factory.setInst e f o v path) s fuel t [] = findByType e f s fuel t [] := by
  obtain ⟨h1, h2, h3⟩ := setInst_spec e f o v path
  refine find_congr s h2 (fun u => ?_) fuel t []
  unfold candidates
  rw [h1]
  rcases h3 u with q | ⟨rfl, q⟩
  · rw [q]
  · rw [q, List.filter_append]
    have : ([mkOvr e path (e.name u) (some u) v].filter (instApplies e u s)) = [] := by
      simp [instApplies, mkOvr, hm]
    rw [this, List.append_nil]

/-- An override that matches is used if it is the first one. -/
theorem setInst_hit (e : Env) (f : Factory) (o v : Ty) (path s : String) (fuel : Nat) (hs : s ≠ "") (hm : e.isMatch path s = true) (hov : o ≠ v)
    (ho : NoneYet e f o s) (hv : Final e f v s) : findByType e (Factory.setInst e f o v path) s (fuel + 2) o [] = .found v false := by
  obtain ⟨h1, h2, h3⟩ := setInst_spec e f o v path
  have hq : queue (Factory.setInst e f o v path).inst o = queue f.inst o ++ [mkOvr e path (e.name o) (some o) v] := by
    rcases h3 o with q | ⟨_, q⟩
    · exfalso
      unfold Factory.setInst at q
      simp only at q
      split at q
      · rename_i hany
        obtain ⟨x, hx, hb⟩ := List.any_eq_true.1 hany
        have e1 := ensure_typeOvr e f o
        have e2 := ensure_typeOvr e (ensure e f o) v
        rw [e2.2.1, e1.2.1] at hx
        simp only [Bool.and_eq_true, beq_iff_eq] at hb
        have := ho x hx
        rw [hb.1.1.1, hm] at this
        cases this
      · have e1 := ensure_typeOvr e f o
        have e2 := ensure_typeOvr e (ensure e f o) v
        simp only [queue_push, e2.2.1, e1.2.1, if_true] at q
        have := congrArg List.length q
        simp at this
    · exact q
  have hc : candidates e (Factory.setInst e f o v path) o s = mkOvr e path (e.name o) (some o) v :: f.typeOvr.filter (typeApplies e o) := by
    unfold candidates
    rw [if_pos hs, h1, hq, List.filter_append]
    have e1 : (queue f.inst o).filter (instApplies e o s) = [] := by
      rw [List.filter_eq_nil_iff]
      intro x hx hb
      simp [instApplies, ho x hx] at hb
    have e2 : ([mkOvr e path (e.name o) (some o) v].filter (instApplies e o s)) = [mkOvr e path (e.name o) (some o) v] := by
      simp [instApplies, mkOvr, hm]
    rw [e1, e2]; rfl
  have hcv : candidates e (Factory.setInst e f o v path) v s = [] := by
    unfold candidates
    rw [if_pos hs, h1]
    have : queue (Factory.setInst e f o v path).inst v = queue f.inst v := by
      rcases h3 v with q | ⟨q, _⟩
      · exact q
      · exact absurd q.symm hov
    rw [this, List.append_eq_nil_iff, List.filter_eq_nil_iff, List.filter_eq_nil_iff]
    refine ⟨fun x hx hb => ?_, fun x hx hb => ?_⟩
    · simp [instApplies, hv.1 x hx] at hb
    · rw [hv.2 x hx] at hb; cases hb
  have hvo : ¬ v = o := fun q => hov q.symm
  have hov' : ¬ o = v := hov
  simp [findByType, hc, hcv, mkOvr, hvo, hov']

theorem plain_rel {p pat : String} (hp : Name p) (hq : Pattern pat) : plain (p ++ "." ++ pat).toList := by
  simp only [String.toList_append]
  constructor
  · intro c hc
    rw [List.mem_append, List.mem_append] at hc
    rcases hc with (hc | hc) | hc
    · exact hp.1.1 c hc
    · have : c = '.' := by simpa using hc
      subst this; decide
    · exact hq.1.1 c hc
  · rintro ⟨h1, _⟩
    have hm : '/' ∈ p.toList ++ ".".toList ++ pat.toList := by
      cases hl : p.toList ++ ".".toList ++ pat.toList with
      | nil => rw [hl] at h1; cases h1
      | cons a l => rw [hl] at h1; simp at h1; simp [h1]
    rw [List.mem_append, List.mem_append] at hm
    rcases hm with (hm | hm) | hm
    · exact hp.2.2.2 hm
    · simp at hm
    · exact hq.2 hm

theorem glob_name {n : Str} (h1 : '*' ∉ n) (h2 : '?' ∉ n) (q m : Str) : GlobL (n ++ q) m ↔ ∃ r, m = n ++ r ∧ GlobL q r := by
  induction n generalizing m with
  | nil => simp
  | cons c n ih =>
    simp only [List.mem_cons, not_or] at h1 h2
    constructor
    · intro h
      cases h with
      | star => exact absurd rfl h1.1
      | quest => exact absurd rfl h2.1
      | lit _ _ hg =>
        obtain ⟨r, rfl, hr⟩ := (ih h1.2 h2.2 _).1 hg
        exact ⟨r, rfl, hr⟩
    · rintro ⟨r, rfl, hr⟩
      exact .lit (fun e => h1.1 e.symm) (fun e => h2.1 e.symm) ((ih h1.2 h2.2 _).2 ⟨r, rfl, hr⟩)

theorem match_iff {p pat s : String} (name : Ty → String) (hp : Name p) (hq : Pattern pat) : (env name).isMatch (p ++ "." ++ pat) s = true ↔
    ∃ a sub b : Str, s.toList = a ++ (p.toList ++ '.' :: sub) ++ b ∧ GlobL pat.toList sub := by
  obtain ⟨r, h1, h2⟩ := isMatch_eq _ s.toList (plain_rel hp hq)
  have : (env name).isMatch (p ++ "." ++ pat) s = r := by
    simp only [env, h1]; cases r <;> rfl
  rw [this, h2]
  have e : (p ++ "." ++ pat).toList = (p.toList ++ ['.']) ++ pat.toList := by simp [String.toList_append]
  constructor
  · rintro ⟨a, m, b, hs, hg⟩
    rw [e, glob_name (by simp [hp.2.1]) (by simp [hp.2.2.1])] at hg
    obtain ⟨sub, rfl, hg⟩ := hg
    exact ⟨a, sub, b, by rw [hs]; simp, hg⟩
  · rintro ⟨a, sub, b, hs, hg⟩
    refine ⟨a, p.toList ++ '.' :: sub, b, hs, ?_⟩
    rw [e, glob_name (by simp [hp.2.1]) (by simp [hp.2.2.1])]
    exact ⟨sub, by simp, hg⟩

/-- C334, what holds: what is created at a path that does not contain the name of the component is as without the override. -/
theorem C334_outside_partial (name : Ty → String) (f : Factory) (o v t : Ty) (pat p nm : String) (parent : Option String) (contxt : String) (fuel : Nat)
    (hp : Name p) (hq : Pattern pat) (hpat : pat ≠ "") (h : ¬ Mentions (pathOf nm parent contxt) p) :
    create (env name) (setInst (env name) f o v pat (some p)) fuel t nm parent contxt = create (env name) f fuel t nm parent contxt := by
  unfold create setInst createByType
  rw [path_eq]
  refine setInst_miss _ _ _ _ _ _ _ _ ?_
  simp only [relPath, hpat, if_false]
  cases hm : (env name).isMatch (p ++ "." ++ pat) (pathOf nm parent contxt) with
  | false => rfl
  | true =>
    obtain ⟨a, sub, b, hs, _⟩ := (match_iff name hp hq).1 hm
    exact absurd ⟨a, '.' :: sub ++ b, by rw [hs]; simp⟩ h

/-- C334, what holds: the override is used for everything below the component that matches. -/
theorem C334_applies_partial (name : Ty → String) (f : Factory) (o v : Ty) (pat p nm : String) (parent : Option String) (contxt : String) (fuel : Nat)
    (hp : Name p) (hq : Pattern pat) (hpat : pat ≠ "") (hov : o ≠ v) (h : Below p pat (pathOf nm parent contxt)) (hn : '\n' ∉ (pathOf nm parent contxt).toList)
    (ho : NoneYet (env name) f o (pathOf nm parent contxt)) (hv : Final (env name) f v (pathOf nm parent contxt)) :
    create (env name) (setInst (env name) f o v pat (some p)) (fuel + 2) o nm parent contxt = .found v false := by
  unfold create setInst createByType
  rw [path_eq]
  obtain ⟨sub, hs, hg⟩ := h
  have hm : (env name).isMatch (p ++ "." ++ pat) (pathOf nm parent contxt) = true :=
    (match_iff name hp hq).2 ⟨[], sub, [], by simp [hs], hg.toGlobL (fun q => hn (by rw [hs]; simp [q]))⟩
  refine setInst_hit _ _ _ _ _ _ _ (fun q => ?_) (by simpa only [relPath, hpat, if_false] using hm) hov ho hv
  rw [q] at hs
  simp at hs

/-- C334, what holds: with a pattern that ends with `*`, at paths that contain the name of the component only at their beginning, the override is used
exactly for what is below the component and matches; elsewhere everything is as without it. -/
theorem C334_exact_partial (name : Ty → String) (f : Factory) (o v : Ty) (pat p nm : String) (parent : Option String) (contxt : String) (fuel : Nat)
    (hp : Name p) (hq : Pattern pat) (hstar : pat.toList.getLast? = some '*') (hov : o ≠ v) (hn : '\n' ∉ (pathOf nm parent contxt).toList)
    (hone : ∀ a b : Str, (pathOf nm parent contxt).toList = a ++ p.toList ++ b → a = [])
    (ho : NoneYet (env name) f o (pathOf nm parent contxt)) (hv : Final (env name) f v (pathOf nm parent contxt)) :
    (Below p pat (pathOf nm parent contxt) → create (env name) (setInst (env name) f o v pat (some p)) (fuel + 2) o nm parent contxt = .found v false) ∧
    (¬ Below p pat (pathOf nm parent contxt) → ∀ t, create (env name) (setInst (env name) f o v pat (some p)) fuel t nm parent contxt =
      create (env name) f fuel t nm parent contxt) := by
  have hpat : pat ≠ "" := fun q => by rw [q] at hstar; simp at hstar
  refine ⟨fun h => C334_applies_partial name f o v pat p nm parent contxt fuel hp hq hpat hov h hn ho hv, fun h t => ?_⟩
  unfold create setInst createByType
  rw [path_eq]
  refine setInst_miss _ _ _ _ _ _ _ _ ?_
  simp only [relPath, hpat, if_false]
  cases hm : (env name).isMatch (p ++ "." ++ pat) (pathOf nm parent contxt) with
  | false => rfl
  | true =>
    obtain ⟨a, sub, b, hs, hg⟩ := (match_iff name hp hq).1 hm
    have ha : a = [] := hone a ('.' :: sub ++ b) (by rw [hs]; simp)
    subst ha
    refine absurd ⟨sub ++ b, by rw [hs]; simp, (hg.extend_right hstar b (fun q => hn (by rw [hs]; simp [q]))).toGlob⟩ h

/-- C334, violated: an override for one instance is also used for instances with longer names and elsewhere in the hierarchy. -/
theorem C334_other_instances_fails : ∃ (name : Ty → String) (o v : Ty), o ≠ v ∧
    let f := setInst (env name) {} o v "agent" (some "top.env")
    create (env name) f 5 o "agent" (some "top.env") "" = .found v false ∧
    create (env name) f 5 o "agent2" (some "top.env") "" = .found v false ∧
    create (env name) f 5 o "drv" (some "x.top.env.agents") "" = .found v false ∧
    ¬ Below "top.env" "agent" (pathOf "agent2" (some "top.env") "") := by
  refine ⟨fun t => if t = 0 then "a" else "b", 0, 1, by decide, by decide +kernel, by decide +kernel, by decide +kernel, ?_⟩
  rintro ⟨sub, hs, hg⟩
  have e : sub = "agent2".toList := by
    have : "top.env.agent2".toList = "top.env".toList ++ '.' :: sub := hs
    have e2 : "top.env.agent2".toList = "top.env".toList ++ '.' :: "agent2".toList := by decide
    rw [e2] at this
    have := List.append_cancel_left this
    exact (List.cons.inj this).2.symm
  subst e
  have : "agent".toList = ['a', 'g', 'e', 'n', 't'] := by decide
  rw [this] at hg
  have : "agent2".toList = ['a', 'g', 'e', 'n', 't', '2'] := by decide
  rw [this] at hg
  cases hg with | lit _ _ hg => cases hg with | lit _ _ hg => cases hg with | lit _ _ hg => cases hg with | lit _ _ hg => cases hg with | lit _ _ hg => cases hg

/-! ### A case -/

def egName (t : Ty) : String := if t = 0 then "drv" else if t = 1 then "fast_drv" else "slow_drv"

example : Name "uvm_test_top.env" ∧ Pattern "*" ∧ Pattern "agent?.d*" := by
  refine ⟨⟨⟨by decide, by decide⟩, by decide, by decide, by decide⟩, ⟨⟨by decide, by decide⟩, by decide⟩, ⟨⟨by decide, by decide⟩, by decide⟩⟩

example : Below "uvm_test_top.env" "*" (pathOf "d" (some "uvm_test_top.env.agent1") "") :=
  ⟨"agent1.d".toList, by decide, by simpa using Glob.star "agent1.d".toList Glob.nil⟩

example : ∀ a b : Str, (pathOf "d" (some "uvm_test_top.env.agent1") "").toList = a ++ "uvm_test_top.env".toList ++ b → a = [] := by
  intro a b h
  have h1 : ((pathOf "d" (some "uvm_test_top.env.agent1") "").toList.drop a.length).take 16 = "uvm_test_top.env".toList := by
    rw [h, List.append_assoc, List.drop_left, List.take_left' (by decide)]
  have h2 : a.length ≤ 25 := by
    have := congrArg List.length h
    rw [List.length_append, List.length_append, show (pathOf "d" (some "uvm_test_top.env.agent1") "").toList.length = 25 by decide] at this
    omega
  have key : ∀ k, k ≤ 25 → ((pathOf "d" (some "uvm_test_top.env.agent1") "").toList.drop k).take 16 = "uvm_test_top.env".toList → k = 0 := by decide +kernel
  exact List.eq_nil_of_length_eq_zero (key _ h2 h1)

example : create (env egName) (setInst (env egName) {} 0 1 "agent?.d*" (some "uvm_test_top.env")) 5 0 "d" (some "uvm_test_top.env.agent1") "" = .found 1 false ∧
    create (env egName) (setInst (env egName) {} 0 1 "agent?.d*" (some "uvm_test_top.env")) 5 0 "d" (some "uvm_test_top.other.agent1") "" = .found 0 false ∧
    NoneYet (env egName) {} 0 "uvm_test_top.env.agent1.d" ∧ Final (env egName) {} 1 "uvm_test_top.env.agent1.d" := by
  exact ⟨by decide +kernel, by decide +kernel, by simp [NoneYet, queue], by simp [Final, NoneYet, queue]⟩

end Verif.OvrRel
