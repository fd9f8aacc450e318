import Verif.Spec.BuildAuto
import Verif.Props.ConfigAuto
import Verif.Lemmas.BuildFactory
/-! # Lemmas: registered fields during a build phase -/
namespace Verif.BuildAuto
open Verif.Resource
open Verif.ConfigAuto (Val Field given Touches touching ordinary lookupScope)
open Verif.BuildFactory (Chunks)

abbrev Log := List (Nat × Act × Option (String → Val))

theorem settings_append (a b : Log) : settings (a ++ b) = settings a ++ settings b := by
  induction a with
  | nil => rfl
  | cons x a ih => obtain ⟨c, y, r⟩ := x; cases y <;> simp [settings, ih]

theorem mem_settings {t : Call Val} {log : Log} (h : t ∈ settings log) : ∃ y ∈ log, y.1 = t.ctx := by
  induction log with
  | nil => cases h
  | cons x log ih =>
    obtain ⟨c, a, r⟩ := x
    cases a with
    | set i f v =>
      rcases List.mem_cons.1 h with h | h
      · subst h; exact ⟨(c, .set i f v, r), List.mem_cons_self .., rfl⟩
      · obtain ⟨y, h1, h2⟩ := ih h; exact ⟨y, List.mem_cons_of_mem _ h1, h2⟩
    | super a => obtain ⟨y, h1, h2⟩ := ih h; exact ⟨y, List.mem_cons_of_mem _ h1, h2⟩

/-- The names used, in the order of their first use. -/
def keysOf (calls : List (Call Val)) : List String := calls.foldl (fun k c => addKey k c.field) []

theorem mem_addKey {k : List String} {f n : String} : n ∈ addKey k f ↔ n ∈ k ∨ n = f := by
  unfold addKey
  split
  · rename_i h
    exact ⟨.inl, fun h' => h'.elim id (fun e => e ▸ h)⟩
  · simp

theorem mem_keysOf {calls : List (Call Val)} {n : String} : n ∈ keysOf calls ↔ ∃ c ∈ calls, c.field = n := by
  have : ∀ (calls : List (Call Val)) (k : List String), n ∈ calls.foldl (fun k c => addKey k c.field) k ↔ n ∈ k ∨ ∃ c ∈ calls, c.field = n := by
    intro calls
    induction calls with
    | nil => simp
    | cons c calls ih =>
      intro k
      rw [List.foldl_cons, ih, mem_addKey]
      constructor
      · rintro ((h | h) | ⟨c', h, h'⟩)
        · exact .inl h
        · exact .inr ⟨c, by simp, h.symm⟩
        · exact .inr ⟨c', by simp [h], h'⟩
      · rintro (h | ⟨c', h, h'⟩)
        · exact .inl (.inl h)
        · rcases List.mem_cons.1 h with rfl | h
          · exact .inl (.inr h'.symm)
          · exact .inr ⟨c', h, h'⟩
  rw [keysOf, this]
  simp

/-- What is true of the log at every time. -/
structure Good (e : Env Val) (fields : Nat → List Field) (st : St) : Prop where
  db : st.db = setAll e true (settings st.log)
  keys : st.keys = keysOf (settings st.log)
  supers : ∀ pre c a r post, st.log = pre ++ (c, .super a, r) :: post →
    r = some (ConfigAuto.apply (fields c) (lookupScope e (setAll e true (settings pre)) (keysOf (settings pre)) (e.fullName c)) a).attrs

theorem good_exec {e : Env Val} {fields : Nat → List Field} {st : St} (h : Good e fields st) (c : Nat) (a : Act) : Good e fields (exec e fields c st a) := by
  cases a with
  | set i f v =>
    refine ⟨?_, ?_, ?_⟩
    · simp only [exec, settings_append, setAll, List.foldl_append, settings, List.foldl_cons, List.foldl_nil]
      rw [h.db]; rfl
    · simp only [exec, settings_append, keysOf, List.foldl_append, settings, List.foldl_cons, List.foldl_nil]
      rw [h.keys]; rfl
    · intro pre c' a r post he
      simp only [exec] at he
      rcases List.eq_nil_or_concat post with rfl | ⟨post', x, rfl⟩
      · have := List.append_inj_right' he rfl
        simp at this
      · rw [List.concat_eq_append, ← List.cons_append, ← List.append_assoc] at he
        exact h.supers pre c' a r post' (List.append_inj_left' he rfl)
  | super a =>
    refine ⟨?_, ?_, ?_⟩
    · simp only [exec, settings_append, settings, List.append_nil]; exact h.db
    · simp only [exec, settings_append, settings, List.append_nil]; exact h.keys
    · intro pre c' a' r post he
      simp only [exec] at he
      rcases List.eq_nil_or_concat post with rfl | ⟨post', x, rfl⟩
      · have h1 := List.append_inj_right' he rfl
        have h2 := List.append_inj_left' he rfl
        simp only [List.cons.injEq, Prod.mk.injEq, Act.super.injEq, and_true] at h1
        obtain ⟨rfl, rfl, rfl⟩ := h1
        rw [h.db, h.keys, h2]
      · rw [List.concat_eq_append, ← List.cons_append, ← List.append_assoc] at he
        exact h.supers pre c' a' r post' (List.append_inj_left' he rfl)

theorem good_comp {e : Env Val} {fields : Nat → List Field} (code : Nat → Db Val → List Act) {st : St} (h : Good e fields st) (c : Nat) :
    Good e fields (buildComp e fields code st c) := by
  unfold buildComp
  generalize code c st.db = l
  induction l generalizing st with
  | nil => exact h
  | cons a l ih => exact ih (good_exec h c a)

theorem good_build (e : Env Val) (fields : Nat → List Field) (code : Nat → Db Val → List Act) (order : List Nat) : Good e fields (build e fields code order) := by
  have : ∀ (order : List Nat) {st : St}, Good e fields st → Good e fields (order.foldl (buildComp e fields code) st) := by
    intro order
    induction order with
    | nil => intro st h; exact h
    | cons c order ih => intro st h; exact ih (good_comp code h c)
  exact this order ⟨rfl, rfl, fun pre c a r post h => by cases pre <;> cases h⟩

theorem comp_log (e : Env Val) (fields : Nat → List Field) (code : Nat → Db Val → List Act) (st : St) (c : Nat) :
    ∃ l, (buildComp e fields code st c).log = st.log ++ l ∧ ∀ x ∈ l, x.1 = c := by
  unfold buildComp
  generalize code c st.db = as
  induction as generalizing st with
  | nil => exact ⟨[], by simp, nofun⟩
  | cons a as ih =>
    obtain ⟨l, h1, h2⟩ := ih (exec e fields c st a)
    have : ∃ r, (exec e fields c st a).log = st.log ++ [(c, a, r)] := by cases a <;> exact ⟨_, rfl⟩
    obtain ⟨r, hr⟩ := this
    refine ⟨(c, a, r) :: l, by rw [List.foldl_cons, h1, hr]; simp, ?_⟩
    intro x hx
    rcases List.mem_cons.1 hx with rfl | hx
    · rfl
    · exact h2 x hx

theorem build_chunks (e : Env Val) (fields : Nat → List Field) (code : Nat → Db Val → List Act) (order : List Nat) :
    Chunks order (build e fields code order).log := by
  have : ∀ (order : List Nat) (st : St), ∃ l, (order.foldl (buildComp e fields code) st).log = st.log ++ l ∧ Chunks order l := by
    intro order
    induction order with
    | nil => intro st; exact ⟨[], by simp, .nil⟩
    | cons c order ih =>
      intro st
      obtain ⟨l, h1, h2⟩ := comp_log e fields code st c
      obtain ⟨l', h3, h4⟩ := ih (buildComp e fields code st c)
      exact ⟨l ++ l', by rw [List.foldl_cons, h3, h1, List.append_assoc], .cons h2 h4⟩
  obtain ⟨l, h1, h2⟩ := this order {}
  have : (build e fields code order).log = l := by unfold build; rw [h1]; simp
  rw [this]; exact h2

/-- A visible setting is one of the calls. -/
theorem lookup_call {e : Env Val} {calls : List (Call Val)} {scope : String} {r : Rsrc Val}
    (h : r ∈ lookupScope e (setAll e true calls) (keysOf calls) scope) :
    r ∈ entries (setAll e true calls) r.name ∧ e.matchScope r.scope scope = true ∧
      ∃ c ∈ calls, r.name = c.field ∧ r.scope = instName e c.ctx c.inst := by
  obtain ⟨n, hn, i, hi, hr, hm⟩ := (ConfigAuto.C192_lookup_partial e (setAll e true calls) scope).2 (keysOf calls) r |>.1 h
  obtain ⟨r', hr', rfl⟩ := (inv_setAll e true calls).valid n i hi
  rw [hr] at hr'
  cases hr'
  refine ⟨List.mem_filterMap.2 ⟨i, hi, hr⟩, hm, heap_setAll e true calls i r hr⟩

/-- If all visible settings for a field have the same value, the field gets it. -/
theorem apply_const {fields : List Field} {rq : List (Rsrc Val)} {a : String → Val} (hrs : ∀ r ∈ rq, ordinary r.name) {x : String}
    (hx : ∃ f ∈ fields, f.name = x ∧ f.readOnly = false) {w : Val} (h1 : ∀ r ∈ rq, Touches fields x r → r.val = w) (h2 : ∃ r ∈ rq, Touches fields x r) :
    (ConfigAuto.apply fields rq a).attrs x = (given w).getD (a x) := by
  rw [(ConfigAuto.C192_last_applied_partial fields rq a hrs x hx).2]
  have hmem : ∀ {r : Rsrc Val}, r ∈ sortByPrecedence rq ↔ r ∈ rq := (C61_sort_partial rq).1.mem_iff
  have hall : ∀ v ∈ touching fields x (sortByPrecedence rq), some v = given w := by
    intro v hv
    obtain ⟨r, hr, hg⟩ := List.mem_filterMap.1 hv
    have hr := List.mem_filter.1 hr
    rw [← h1 r (hmem.1 hr.1) (by simpa using hr.2), hg]
  cases hg : given w with
  | none =>
    have : touching fields x (sortByPrecedence rq) = [] := by
      apply List.eq_nil_iff_forall_not_mem.2
      intro v hv
      have := hall v hv
      rw [hg] at this
      exact nomatch this
    rw [this]; rfl
  | some u =>
    obtain ⟨r, hr, ht⟩ := h2
    have hu : u ∈ touching fields x (sortByPrecedence rq) :=
      List.mem_filterMap.2 ⟨r, List.mem_filter.2 ⟨hmem.2 hr, by simpa using ht⟩, by rw [h1 r hr ht, hg]⟩
    cases hl : (touching fields x (sortByPrecedence rq)).getLast? with
    | none => rw [List.getLast?_eq_none_iff.1 hl] at hu; exact nomatch hu
    | some v =>
      have := hall v (List.mem_of_getLast? hl)
      rw [hg] at this
      cases this
      rfl

end Verif.BuildAuto
