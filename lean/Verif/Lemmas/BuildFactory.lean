import Verif.Spec.BuildFactory
import Verif.Props.Factory
import Verif.Lemmas.BuildCfg
/-! # Lemmas: the factory during a build phase -/
namespace Verif.BuildFactory
open Verif.Factory

/-! ## The log -/

/-- Each component of the order has a part of the log. -/
inductive Chunks {ε : Type} : List Nat → List (Nat × ε) → Prop
  | nil : Chunks [] []
  | cons {c : Nat} {order : List Nat} {l l' : List (Nat × ε)} : (∀ x ∈ l, x.1 = c) → Chunks order l' → Chunks (c :: order) (l ++ l')

theorem chunks_mem {ε : Type} {order : List Nat} {log : List (Nat × ε)} (h : Chunks order log) : ∀ x ∈ log, x.1 ∈ order := by
  induction h with
  | nil => nofun
  | cons h _ ih =>
    intro x hx
    rcases List.mem_append.1 hx with hx | hx
    · rw [h x hx]; exact List.mem_cons_self ..
    · exact List.mem_cons_of_mem _ (ih x hx)

theorem chunks_split {ε : Type} {o1 o2 : List Nat} {log : List (Nat × ε)} (h : Chunks (o1 ++ o2) log) :
    ∃ l1 l2, log = l1 ++ l2 ∧ Chunks o1 l1 ∧ Chunks o2 l2 := by
  induction o1 generalizing log with
  | nil => exact ⟨[], log, rfl, .nil, h⟩
  | cons c o1 ih =>
    cases h with
    | @cons _ _ l l' h1 h2 =>
      obtain ⟨a, b, rfl, ha, hb⟩ := ih h2
      exact ⟨l ++ a, b, by rw [List.append_assoc], .cons h1 ha, hb⟩

/-- Two entries of different components are in the order of the components. -/
theorem chunks_earlier {ε : Type} {order : List Nat} {log : List (Nat × ε)} (h : Chunks order log) (hn : order.Nodup) {a c : Nat}
    (he : BuildCfg.Earlier order a c) {pre post : List (Nat × ε)} {y : ε} (hlog : log = pre ++ (c, y) :: post) :
    ∀ p1 x p2, log = p1 ++ (a, x) :: p2 → ∃ q, pre = p1 ++ (a, x) :: q := by
  obtain ⟨o1, o2, rfl, hm⟩ := he
  intro p1 x p2 hlog'
  obtain ⟨l1, l2, rfl, h1, h2⟩ := chunks_split h
  have hd := (List.nodup_append.1 hn).2.2
  have hc1 : ∀ z : ε, (c, z) ∉ l1 := fun z hz => hd c (chunks_mem h1 _ hz) c (List.mem_cons_self ..) rfl
  have ha2 : ∀ z : ε, (a, z) ∉ l2 := fun z hz => hd a hm a (chunks_mem h2 _ hz) rfl
  obtain ⟨k, rfl⟩ : ∃ k, pre = l1 ++ k := by
    rcases List.append_eq_append_iff.1 hlog with ⟨k, hk1, hk2⟩ | ⟨k, hk1, hk2⟩
    · exact ⟨k, hk1⟩
    · cases k with
      | nil => exact ⟨[], by simpa using hk1.symm⟩
      | cons z k =>
        simp only [List.cons_append, List.cons.injEq] at hk2
        exact absurd (by rw [hk1, hk2.1]; simp) (hc1 y)
  obtain ⟨j, hj⟩ : ∃ j, l1 = p1 ++ (a, x) :: j := by
    rcases List.append_eq_append_iff.1 hlog' with ⟨k, hk1, hk2⟩ | ⟨k, hk1, hk2⟩
    · exact absurd (by rw [hk2]; simp) (ha2 x)
    · cases k with
      | nil => exact absurd (by simp only [List.nil_append] at hk2; rw [← hk2]; simp) (ha2 x)
      | cons z k =>
        simp only [List.cons_append, List.cons.injEq] at hk2
        exact ⟨k, by rw [hk1, hk2.1]⟩
  exact ⟨j ++ k, by rw [hj]; simp⟩

theorem comp_log (e : Env) (fuel : Nat) (code : Nat → Factory → List Op) (st : St) (c : Nat) :
    ∃ l, (buildComp e fuel code st c).log = st.log ++ l ∧ ∀ x ∈ l, x.1 = c := by
  unfold buildComp
  generalize code c st.f = as
  induction as generalizing st with
  | nil => exact ⟨[], by simp, nofun⟩
  | cons a as ih =>
    obtain ⟨l, h1, h2⟩ := ih (exec e fuel c st a)
    refine ⟨(c, a, outcome e fuel st.f a) :: l, by rw [List.foldl_cons, h1]; simp [exec], ?_⟩
    intro x hx
    rcases List.mem_cons.1 hx with rfl | hx
    · rfl
    · exact h2 x hx

theorem fold_chunks (e : Env) (fuel : Nat) (code : Nat → Factory → List Op) (order : List Nat) : ∀ st : St,
    ∃ l, (order.foldl (buildComp e fuel code) st).log = st.log ++ l ∧ Chunks order l := by
  induction order with
  | nil => intro st; exact ⟨[], by simp, .nil⟩
  | cons c order ih =>
    intro st
    obtain ⟨l, h1, h2⟩ := comp_log e fuel code st c
    obtain ⟨l', h3, h4⟩ := ih (buildComp e fuel code st c)
    exact ⟨l ++ l', by rw [List.foldl_cons, h3, h1, List.append_assoc], .cons h2 h4⟩

theorem build_chunks (e : Env) (fuel : Nat) (code : Nat → Factory → List Op) (order : List Nat) :
    Chunks order (build e fuel code order).log := by
  obtain ⟨l, h1, h2⟩ := fold_chunks e fuel code order {}
  have : (build e fuel code order).log = l := by unfold build; rw [h1]; simp
  rw [this]; exact h2

/-- The factory is the one after the calls in the log, and outcomes are those at the time of the call. -/
structure Good (e : Env) (fuel : Nat) (st : St) : Prop where
  f : st.f = (ops st.log).foldl (step e fuel) {}
  out : ∀ pre c op r post, st.log = pre ++ (c, op, r) :: post → r = outcome e fuel ((ops pre).foldl (step e fuel) {}) op

theorem good_exec {e : Env} {fuel : Nat} {st : St} (h : Good e fuel st) (c : Nat) (op : Op) : Good e fuel (exec e fuel c st op) := by
  refine ⟨?_, ?_⟩
  · simp only [exec, ops, List.map_append, List.foldl_append, List.map_cons, List.map_nil, List.foldl_cons, List.foldl_nil]
    rw [h.f]; rfl
  · intro pre c' op' r post he
    simp only [exec] at he
    rcases List.eq_nil_or_concat post with rfl | ⟨post', z, rfl⟩
    · obtain ⟨h1, h2⟩ := List.append_inj' he rfl
      simp only [List.cons.injEq, Prod.mk.injEq, and_true] at h2
      obtain ⟨rfl, rfl, rfl⟩ := h2
      rw [h.f, h1]
    · have he' : st.log ++ [(c, op, outcome e fuel st.f op)] = (pre ++ (c', op', r) :: post') ++ [z] := by rw [he]; simp
      exact h.out pre c' op' r post' (List.append_inj' he' rfl).1

theorem good_build (e : Env) (fuel : Nat) (code : Nat → Factory → List Op) (order : List Nat) : Good e fuel (build e fuel code order) := by
  have hcomp : ∀ (l : List Op) (c : Nat) (st : St), Good e fuel st → Good e fuel (l.foldl (exec e fuel c) st) := by
    intro l c
    induction l with
    | nil => intro st h; exact h
    | cons a l ih => intro st h; exact ih _ (good_exec h c a)
  have key : ∀ (order : List Nat) (st : St), Good e fuel st → Good e fuel (order.foldl (buildComp e fuel code) st) := by
    intro order
    induction order with
    | nil => intro st h; exact h
    | cons c order ih => intro st h; exact ih _ (hcomp _ c st h)
  exact key order {} ⟨rfl, fun pre c op r post h => by cases pre <;> cases h⟩

/-! ## The factory after calls -/

theorem reachable_fold {e : Env} (fuel : Nat) (ops : List Op) (hb : ByType ops) {f : Factory} (hf : Reachable e f) :
    Reachable e (ops.foldl (step e fuel) f) := by
  induction ops generalizing f with
  | nil => exact hf
  | cons op ops ih =>
    refine ih (fun on vn r hm => hb on vn r (List.mem_cons_of_mem _ hm)) (.step fuel op hf ?_)
    intro on vn r h
    exact absurd (h ▸ List.mem_cons_self ..) (hb on vn r)

theorem keepFirst_first {α} [DecidableEq α] {P : α → Prop} [DecidablePred P] (l : List α) :
    (keepFirst l).find? (fun y => decide (P y)) = l.find? (fun y => decide (P y)) := by
  have key : ∀ (l acc : List α), (l.foldl (fun acc x => if x ∈ acc then acc else acc ++ [x]) acc).find? (fun y => decide (P y)) =
      (acc ++ l).find? (fun y => decide (P y)) := by
    intro l
    induction l with
    | nil => intro acc; simp
    | cons y l ih =>
      intro acc
      rw [List.foldl_cons, ih]
      by_cases hm : y ∈ acc
      · rw [if_pos hm, List.find?_append, List.find?_append, List.find?_cons]
        by_cases hp : P y
        · cases hf : acc.find? (fun y => decide (P y)) with
          | some z => rfl
          | none => exact absurd hp (by simpa using List.find?_eq_none.1 hf y hm)
        · simp [hp]
      · rw [if_neg hm, List.append_assoc]; rfl
  exact (key l []).trans (by simp)

theorem firstInst_eq (e : Env) (path : String) (t : Ty) (ops : List Op) :
    firstInst e path t ops = ((instCalls t ops).find? (fun c => decide (e.isMatch c.2 path = true))).map (·.1) := by
  induction ops with
  | nil => rfl
  | cons op ops ih =>
    cases op with
    | inst o v p =>
      by_cases ho : o = t
      · by_cases hm : e.isMatch p path = true
        · simp [firstInst, instCalls, ho, hm]
        · simp only [firstInst, ho, hm, and_false, if_false, ih]
          simp [instCalls, List.filterMap_cons, hm]
      · simp only [firstInst, ho, false_and, if_false, ih]
        simp [instCalls, List.filterMap_cons, ho]
    | _ => simp only [firstInst, ih]; simp [instCalls, List.filterMap_cons]

theorem queue_first (e : Env) (fuel : Nat) (ops : List Op) (path : String) (t : Ty) :
    ((queue (ops.foldl (step e fuel) {}).inst t).find? (fun o => decide (e.isMatch o.path path = true))).map (·.ovrd) = firstInst e path t ops := by
  rw [C20_instance_overrides_in_order, firstInst_eq, List.find?_map, Option.map_map]
  have := keepFirst_first (P := fun c : Ty × String => e.isMatch c.2 path = true) (instCalls t ops)
  simp only [Function.comp_def]
  rw [this]

theorem type_cur (e : Env) (hn : UniqueNames e) (fuel : Nat) (ops : List Op) (hb : ByType ops) (t : Ty) : ∀ {f : Factory}, Reachable e f →
    ((ops.foldl (step e fuel) f).typeOvr.find? (fun x => decide (x.orig = some t))).map (·.ovrd) =
      ops.foldl (typeCall t) ((f.typeOvr.find? (fun x => decide (x.orig = some t))).map (·.ovrd)) := by
  induction ops with
  | nil => intro f _; rfl
  | cons op ops ih =>
    intro f hf
    have hop : ∀ on vn r, op = .typeByName on vn r → (f.typeNames on).isSome := fun on vn r h => absurd (h ▸ List.mem_cons_self ..) (hb on vn r)
    rw [List.foldl_cons, ih (fun on vn r hm => hb on vn r (List.mem_cons_of_mem _ hm)) (.step fuel op hf hop), List.foldl_cons]
    congr 1
    cases op with
    | register u => simp only [step, (register_typeOvr e f u).1, typeCall]
    | typeByName on vn r => exact absurd (List.mem_cons_self ..) (hb on vn r)
    | create a b c => rfl
    | createByName a b c => rfl
    | inst o v p =>
      have e1 : (setInst e f o v p).typeOvr = f.typeOvr := by
        unfold setInst
        dsimp only
        split <;> simp [(ensure_typeOvr _ _ _).1]
      simp only [step, e1, typeCall]
    | typeByType o v r =>
      simp only [step, typeCall]
      rw [setTypeByType_typeOvr (reachable_inv hf) hn o v t r]
      by_cases ho : t = o
      · subst ho
        rw [if_pos rfl, if_pos rfl]
        cases (f.typeOvr.find? (fun x => decide (x.orig = some t))).map (·.ovrd) with
        | none => simp
        | some w => by_cases hr : r = .false_ <;> simp [hr]
      · rw [if_neg ho, if_neg (fun h => ho h.symm)]

/-- The overrides the factory applies are those told by the history. -/
theorem step_history (e : Env) (hn : UniqueNames e) (fuel : Nat) (ops : List Op) (hb : ByType ops) (path : String) (t u : Ty) :
    Factory.Step e (ops.foldl (step e fuel) {}) path t u ↔ override e path ops t = some u ∧ u ≠ t := by
  have hq := queue_first e fuel ops path t
  have ht := type_cur e hn fuel ops hb t (f := {}) .init
  generalize ops.foldl (step e fuel) {} = f at *
  replace ht : ((f.typeOvr.find? (fun x => decide (x.orig = some t))).map (·.ovrd)) = typeOverride t ops := ht
  unfold Factory.Step Next override
  simp only [firstWith_iff, List.head?_filter]
  rw [← hq, ← ht]
  by_cases hp : path = ""
  · simp only [hp, ne_eq, not_true_eq_false, false_and, false_or, true_or, true_and, if_true, Option.map_eq_some_iff]
    constructor
    · rintro ⟨o, h1, h2, h3⟩; exact ⟨⟨o, h1, h2⟩, h3⟩
    · rintro ⟨⟨o, h1, h2⟩, h3⟩; exact ⟨o, h1, h2, h3⟩
  · simp only [hp, ne_eq, not_false_eq_true, true_and, false_or, if_false]
    cases hf : (queue f.inst t).find? (fun o => decide (e.isMatch o.path path = true)) with
    | some o =>
      simp only [Option.map_some, Option.some_or, Option.some.injEq]
      have hin := List.mem_of_find?_eq_some hf
      have hm := List.find?_some hf
      constructor
      · rintro ⟨o', h1 | h1, h2, h3⟩
        · rw [h1]; exact ⟨h2, h3⟩
        · exact absurd (by simpa using hm) (h1.1 o hin)
      · rintro ⟨h2, h3⟩; exact ⟨o, .inl rfl, h2, h3⟩
    | none =>
      simp only [Option.map_none, Option.none_or, Option.map_eq_some_iff]
      constructor
      · rintro ⟨o', h1 | h1, h2, h3⟩
        · cases h1
        · exact ⟨⟨o', h1.2, h2⟩, h3⟩
      · rintro ⟨⟨o', h1, h2⟩, h3⟩
        refine ⟨o', .inr ⟨?_, h1⟩, h2, h3⟩
        intro x hx
        have := List.find?_eq_none.1 hf x hx
        simpa using this

theorem leads_steps {e : Env} (hn : UniqueNames e) (fuel : Nat) {ops : List Op} (hb : ByType ops) {path : String} {t u : Ty}
    (h : Leads e path ops t u) : Steps e (ops.foldl (step e fuel) {}) path t u ∧ Final e (ops.foldl (step e fuel) {}) path u := by
  induction h with
  | stop h =>
    refine ⟨.refl _, fun u hs => ?_⟩
    obtain ⟨h1, h2⟩ := (step_history e hn fuel ops hb path _ u).1 hs
    rcases h with h | h
    · rw [h] at h1; cases h1
    · rw [h] at h1; exact h2 (Option.some.inj h1).symm
  | next h1 h2 _ ih => exact ⟨.head ((step_history e hn fuel ops hb path _ _).2 ⟨h1, h2⟩) ih.1, ih.2⟩

theorem push_size (q : List (Ty × List Ovr)) (t : Ty) (o : Ovr) : ((push q t o).map (·.2.length)).sum = (q.map (·.2.length)).sum + 1 := by
  induction q with
  | nil => rfl
  | cons x q ih =>
    obtain ⟨u, l⟩ := x
    unfold push
    split
    · simp; omega
    · simp [ih]; omega

theorem ensure_size (e : Env) (f : Factory) (t : Ty) : size (ensure e f t) = size f := by
  unfold size
  rw [(ensure_typeOvr e f t).1, (ensure_typeOvr e f t).2.1]

theorem size_step (e : Env) (fuel : Nat) (f : Factory) (op : Op) : size f ≤ size (step e fuel f op) := by
  cases op with
  | register t =>
    have h := register_typeOvr e f t
    simp only [step, size, h.1, h.2.1]; exact Nat.le_refl _
  | typeByType o v r =>
    have h : size (ensure e (ensure e f o) v) = size f := by rw [ensure_size, ensure_size]
    simp only [step]
    unfold setTypeByType
    rw [← h]
    generalize ensure e (ensure e f o) v = g
    dsimp only
    (repeat' split) <;> simp [size]
  | typeByName on vn r =>
    simp only [step]
    unfold setTypeByName
    (repeat' split) <;> simp [size]
  | inst o v p =>
    have h : size (ensure e (ensure e f o) v) = size f := by rw [ensure_size, ensure_size]
    simp only [step]
    unfold setInst
    rw [← h]
    generalize ensure e (ensure e f o) v = g
    dsimp only
    split
    · exact Nat.le_refl _
    · simp only [size, push_size]; omega
  | create a b c => exact Nat.le_refl _
  | createByName a b c => exact Nat.le_refl _

theorem size_fold (e : Env) (fuel : Nat) (ops : List Op) (f : Factory) : size f ≤ size (ops.foldl (step e fuel) f) := by
  induction ops generalizing f with
  | nil => exact Nat.le_refl _
  | cons op ops ih => exact Nat.le_trans (size_step e fuel f op) (ih _)

theorem firstInst_append (e : Env) (path : String) (t : Ty) (a b : List Op) :
    firstInst e path t (a ++ b) = (firstInst e path t a).or (firstInst e path t b) := by
  rw [firstInst_eq, firstInst_eq, firstInst_eq]
  simp only [instCalls, List.filterMap_append, List.find?_append]
  cases (List.find? (fun c : Ty × String => decide (e.isMatch c.2 path = true)) (List.filterMap (fun op => match op with
    | .inst o' v p => if o' = t then some (v, p) else none
    | _ => none) a)) <;> rfl

end Verif.BuildFactory
