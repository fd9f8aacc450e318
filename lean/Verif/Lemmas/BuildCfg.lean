import Verif.Spec.BuildCfg
import Verif.Props.Traverse
import Verif.Props.Resource
/-! # Lemmas: order of the calls of a build phase -/
namespace Verif.BuildCfg
open Verif.Resource
open Verif.Traverse (Pre Desc)
variable {V : Type}

theorem settings_append (a b : List (Nat × Act V × Option V)) : settings (a ++ b) = settings a ++ settings b := by
  induction a with
  | nil => rfl
  | cons x a ih => obtain ⟨c, y, r⟩ := x; cases y <;> simp [settings, ih]

theorem mem_settings {cl : Call V} {log : List (Nat × Act V × Option V)} (h : cl ∈ settings log) :
    ∃ r, (cl.ctx, .set cl.inst cl.field cl.val, r) ∈ log ∧ cl.build = true := by
  induction log with
  | nil => cases h
  | cons x log ih =>
    obtain ⟨c, a, r⟩ := x
    cases a with
    | set i f v =>
      rcases List.mem_cons.1 h with h | h
      · subst h; exact ⟨r, List.mem_cons_self .., rfl⟩
      · obtain ⟨r', h1, h2⟩ := ih h; exact ⟨r', List.mem_cons_of_mem _ h1, h2⟩
    | get i f => obtain ⟨r', h1, h2⟩ := ih h; exact ⟨r', List.mem_cons_of_mem _ h1, h2⟩

/-- What is true of the log at every time. -/
structure Good (e : Env V) (st : St V) : Prop where
  db : st.db = setAll e true (settings st.log)
  gets : ∀ pre c inst f r post, st.log = pre ++ (c, .get inst f, r) :: post → r = cfgGet e (setAll e true (settings pre)) c inst f

theorem good_exec {e : Env V} {st : St V} (h : Good e st) (c : Nat) (a : Act V) : Good e (exec e c st a) := by
  cases a with
  | set i f v =>
    refine ⟨?_, ?_⟩
    · simp only [exec, settings_append, setAll, List.foldl_append, settings, List.foldl_cons, List.foldl_nil]
      rw [h.db]; rfl
    · intro pre c' inst f' r post he
      simp only [exec] at he
      rcases List.eq_nil_or_concat post with rfl | ⟨post', x, rfl⟩
      · have := List.append_inj_right' he rfl
        simp at this
      · rw [List.concat_eq_append, ← List.cons_append, ← List.append_assoc] at he
        exact h.gets pre c' inst f' r post' (List.append_inj_left' he rfl)
  | get i f =>
    refine ⟨?_, ?_⟩
    · simp only [exec, settings_append, settings, List.append_nil]; exact h.db
    · intro pre c' inst f' r post he
      simp only [exec] at he
      rcases List.eq_nil_or_concat post with rfl | ⟨post', x, rfl⟩
      · have h1 := List.append_inj_right' he rfl
        have h2 := List.append_inj_left' he rfl
        simp only [List.cons.injEq, Prod.mk.injEq, Act.get.injEq, and_true] at h1
        obtain ⟨rfl, ⟨rfl, rfl⟩, rfl⟩ := h1
        rw [h.db, h2]
      · rw [List.concat_eq_append, ← List.cons_append, ← List.append_assoc] at he
        exact h.gets pre c' inst f' r post' (List.append_inj_left' he rfl)

theorem good_comp {e : Env V} (code : Nat → Db V → List (Act V)) {st : St V} (h : Good e st) (c : Nat) : Good e (buildComp e code st c) := by
  unfold buildComp
  generalize code c st.db = l
  induction l generalizing st with
  | nil => exact h
  | cons a l ih => exact ih (good_exec h c a)

theorem good_fold {e : Env V} (code : Nat → Db V → List (Act V)) (order : List Nat) : ∀ {st : St V}, Good e st →
    Good e (order.foldl (buildComp e code) st) := by
  induction order with
  | nil => intro st h; exact h
  | cons c order ih => intro st h; exact ih (good_comp code h c)

theorem good_build (e : Env V) (code : Nat → Db V → List (Act V)) (order : List Nat) : Good e (build e code order) :=
  good_fold code order ⟨rfl, fun pre c inst f r post h => by cases pre <;> cases h⟩

/-- A component appends calls of its own. -/
theorem comp_log (e : Env V) (code : Nat → Db V → List (Act V)) (st : St V) (c : Nat) :
    ∃ l, (buildComp e code st c).log = st.log ++ l ∧ ∀ x ∈ l, x.1 = c := by
  unfold buildComp
  generalize code c st.db = as
  induction as generalizing st with
  | nil => exact ⟨[], by simp, nofun⟩
  | cons a as ih =>
    obtain ⟨l, h1, h2⟩ := ih (exec e c st a)
    cases a with
    | set i f v =>
      refine ⟨(c, .set i f v, none) :: l, by rw [List.foldl_cons, h1]; simp [exec], ?_⟩
      intro x hx; rcases List.mem_cons.1 hx with rfl | hx
      · rfl
      · exact h2 x hx
    | get i f =>
      refine ⟨(c, .get i f, cfgGet e st.db c i f) :: l, by rw [List.foldl_cons, h1]; simp [exec], ?_⟩
      intro x hx; rcases List.mem_cons.1 hx with rfl | hx
      · rfl
      · exact h2 x hx

theorem fold_log (e : Env V) (code : Nat → Db V → List (Act V)) (order : List Nat) : ∀ st : St V,
    ∃ l, (order.foldl (buildComp e code) st).log = st.log ++ l ∧ ∀ x ∈ l, x.1 ∈ order := by
  induction order with
  | nil => intro st; exact ⟨[], by simp, nofun⟩
  | cons c order ih =>
    intro st
    obtain ⟨l, h1, h2⟩ := comp_log e code st c
    obtain ⟨l', h3, h4⟩ := ih (buildComp e code st c)
    refine ⟨l ++ l', by rw [List.foldl_cons, h3, h1, List.append_assoc], ?_⟩
    intro x hx
    rcases List.mem_append.1 hx with hx | hx
    · rw [h2 x hx]; exact List.mem_cons_self ..
    · exact List.mem_cons_of_mem _ (h4 x hx)

/-- What is in the log before a call of `c`: all calls of the components before `c` in the order, and nothing of those after it. -/
theorem log_before (e : Env V) (code : Nat → Db V → List (Act V)) (o1 o2 : List Nat) (c : Nat) (hn : (o1 ++ c :: o2).Nodup)
    (pre post : List (Nat × Act V × Option V)) (a : Act V) (r : Option V)
    (h : (build e code (o1 ++ c :: o2)).log = pre ++ (c, a, r) :: post) :
    (∀ x ∈ pre, x.1 ∈ o1 ∨ x.1 = c) ∧ ∀ x ∈ (build e code (o1 ++ c :: o2)).log, x.1 ∈ o1 → x ∈ pre := by
  unfold build at *
  rw [List.foldl_append, List.foldl_cons] at h ⊢
  obtain ⟨l1, h1, m1⟩ := fold_log e code o1 {}
  generalize o1.foldl (buildComp e code) {} = st1 at *
  obtain ⟨l2, h2, m2⟩ := comp_log e code st1 c
  generalize buildComp e code st1 c = st2 at *
  obtain ⟨l3, h3, m3⟩ := fold_log e code o2 st2
  have e1 : st1.log = l1 := by simpa using h1
  rw [h3, h2, e1] at h
  rw [h3, h2, e1]
  have hc1 : c ∉ o1 := fun hm => (List.nodup_append.1 hn).2.2 c hm c (List.mem_cons_self ..) rfl
  have hc2 : c ∉ o2 := (List.nodup_cons.1 (List.nodup_append.1 hn).2.1).1
  have h12 : ∀ y ∈ o1, y ∉ o2 := fun y hy hy2 => (List.nodup_append.1 hn).2.2 y hy y (List.mem_cons_of_mem _ hy2) rfl
  rw [List.append_assoc] at h
  rcases List.append_eq_append_iff.1 h with ⟨k, hk1, hk2⟩ | ⟨k, hk1, hk2⟩
  · -- pre = l1 ++ k
    subst hk1
    refine ⟨?_, ?_⟩
    · intro x hx
      rcases List.mem_append.1 hx with hx | hx
      · exact .inl (m1 x hx)
      · refine .inr ?_
        rcases List.append_eq_append_iff.1 hk2 with ⟨j, hj1, hj2⟩ | ⟨j, hj1, hj2⟩
        · -- k = l2 ++ j: the call of c would be in l3
          exfalso
          cases j with
          | nil =>
            simp only [List.nil_append] at hj2
            exact hc2 (m3 (c, a, r) (by rw [hj2]; exact List.mem_cons_self ..))
          | cons y j => exact hc2 (m3 (c, a, r) (by rw [hj2]; simp))
        · exact m2 x (by rw [hj1]; exact List.mem_append_left _ hx)
    · intro x hx ho
      rcases List.mem_append.1 hx with hx | hx
      · rcases List.mem_append.1 hx with hx | hx
        · exact List.mem_append_left _ hx
        · exact absurd (m2 x hx ▸ ho) hc1
      · exact absurd (m3 x hx) (h12 _ ho)
  · -- l1 = pre ++ k
    cases k with
    | nil =>
      simp only [List.append_nil] at hk1
      simp only [List.nil_append] at hk2
      subst hk1
      refine ⟨fun x hx => .inl (m1 x hx), ?_⟩
      intro x hx ho
      rcases List.mem_append.1 hx with hx | hx
      · rcases List.mem_append.1 hx with hx | hx
        · exact hx
        · exact absurd (m2 x hx ▸ ho) hc1
      · exact absurd (m3 x hx) (h12 _ ho)
    | cons y k =>
      simp only [List.cons_append, List.cons.injEq] at hk2
      exact absurd (m1 (c, a, r) (by rw [hk1, hk2.1]; simp)) hc1

/-! ## Ancestors come first -/

theorem pre_roots {k : Nat → List Nat} {cs l : List Nat} (h : Pre k cs l) {x : Nat} (hx : x ∈ cs) : x ∈ l :=
  Verif.Traverse.pre_all h x hx x .refl

theorem pre_child {k : Nat → List Nat} {cs l : List Nat} (h : Pre k cs l) {p x : Nat} (hp : p ∈ l) (hx : x ∈ k p) : [p, x].Sublist l := by
  induction h with
  | nil => cases hp
  | @cons c cs l m h1 h2 ih1 ih2 =>
    rcases List.mem_append.1 hp with hp | hp
    · rcases List.mem_cons.1 hp with rfl | hp
      · exact (((List.singleton_sublist.2 (pre_roots h1 hx)).cons_cons p)).trans (List.sublist_append_left ..)
      · exact ((ih1 hp).cons c).trans (List.sublist_append_left ..)
    · exact (ih2 hp).trans (List.sublist_append_right ..)

/-- `a` comes before `x` in `l`. -/
def Earlier (l : List Nat) (a x : Nat) : Prop := ∃ o1 o2, l = o1 ++ x :: o2 ∧ a ∈ o1

theorem earlier_of_sublist {l : List Nat} {a x : Nat} (h : [a, x].Sublist l) : Earlier l a x := by
  obtain ⟨r1, r2, rfl, ha, hx⟩ := List.cons_sublist_iff.1 h
  obtain ⟨s, t, rfl⟩ := List.append_of_mem (List.singleton_sublist.1 hx)
  exact ⟨r1 ++ s, t, by simp, List.mem_append_left _ ha⟩

theorem earlier_trans {l : List Nat} (hn : l.Nodup) {a p x : Nat} (h1 : Earlier l a p) (h2 : Earlier l p x) : Earlier l a x := by
  obtain ⟨o1, o2, he, hm⟩ := h1
  obtain ⟨q1, q2, he', hm'⟩ := h2
  refine ⟨q1, q2, he', ?_⟩
  obtain ⟨s, t, rfl⟩ := List.append_of_mem hm'
  have heq : o1 ++ p :: o2 = s ++ p :: (t ++ x :: q2) := by rw [← he, he']; simp
  have hs : o1 = s := by
    rw [he] at hn
    rcases List.append_eq_append_iff.1 heq with ⟨k, hk1, hk2⟩ | ⟨k, hk1, hk2⟩
    · cases k with
      | nil => simpa using hk1.symm
      | cons y k =>
        simp only [List.cons_append, List.cons.injEq] at hk2
        have hp2 : p ∉ o2 := (List.nodup_cons.1 (List.nodup_append.1 hn).2.1).1
        exact absurd (by rw [hk2.2]; simp) hp2
    · cases k with
      | nil => simpa using hk1
      | cons y k =>
        simp only [List.cons_append, List.cons.injEq] at hk2
        have := (List.nodup_append.1 hn).2.2 p (by rw [hk1, hk2.1]; simp) p (List.mem_cons_self ..)
        exact absurd rfl this
  subst hs
  simp [hm]

theorem desc_earlier {k : Nat → List Nat} {cs l : List Nat} (h : Pre k cs l) (hn : l.Nodup) {a x : Nat} (ha : a ∈ l) (hd : Desc k a x) :
    a = x ∨ Earlier l a x := by
  have hmem : ∀ {y}, Desc k a y → y ∈ l := by
    intro y hy
    induction hy with
    | refl => exact ha
    | step _ hx ih => exact (List.singleton_sublist.1 ((List.sublist_cons_self ..).trans (pre_child h ih hx)))
  induction hd with
  | refl => exact .inl rfl
  | @step p x hp hx ih =>
    have h2 := earlier_of_sublist (pre_child h (hmem hp) hx)
    rcases ih with rfl | ih
    · exact .inr h2
    · exact .inr (earlier_trans hn ih h2)

theorem earlier_filter {l : List Nat} {a x : Nat} (act : Nat → Bool) (h : Earlier l a x) (ha : act a = true) (hx : act x = true) :
    Earlier (l.filter act) a x := by
  obtain ⟨o1, o2, rfl, hm⟩ := h
  exact ⟨o1.filter act, o2.filter act, by simp [List.filter_append, List.filter_cons, hx], List.mem_filter.2 ⟨hm, ha⟩⟩

theorem log_order (e : Env V) (code : Nat → Db V → List (Act V)) (order : List Nat) (x) (hx : x ∈ (build e code order).log) : x.1 ∈ order := by
  obtain ⟨l, h1, h2⟩ := fold_log e code order {}
  unfold build at hx
  rw [h1] at hx
  exact h2 x (by simpa using hx)

end Verif.BuildCfg
