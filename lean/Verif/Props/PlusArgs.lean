import Verif.Model.PlusArgs
/-! # C356, C357: plusargs

`args` are the plusargs of the command line; a name has no `=` (it ends at the first one). -/
namespace Verif.PlusArgs
variable {V : Type}

theorem scan_same (l a : List Char) (h : l ≠ []) : scan l a = .same ↔ l <+: a := by
  induction l generalizing a with
  | nil => exact absurd rfl h
  | cons c l ih =>
    cases a with
    | nil => cases l <;> simp [scan]
    | cons d a =>
      cases l with
      | nil => by_cases hc : c = d <;> simp [scan, hc]
      | cons c' l =>
        by_cases hc : c = d
        · subst hc
          rw [scan, if_neg (by simp), ih a (by simp)]; simp
        · rw [scan, if_pos hc]; simp [hc]

theorem scan_raises (l a : List Char) : scan l a = .raises ↔ a <+: l ∧ a ≠ l := by
  induction l generalizing a with
  | nil => simp [scan]
  | cons c l ih =>
    cases a with
    | nil => cases l <;> simp [scan]
    | cons d a =>
      cases l with
      | nil =>
        by_cases hc : c = d <;> simp [scan, hc]
      | cons c' l =>
        by_cases hc : c = d
        · subst hc
          rw [scan, if_neg (by simp), ih a]; simp
        · rw [scan, if_pos hc]
          simp only [reduceCtorEq, List.cons_prefix_cons, false_iff, not_and]
          intro h; exact absurd h.1.symm hc

theorem prefix_eq_name {n k r : List Char} (hn : '=' ∉ n) (hk : '=' ∉ k) : n ++ ['='] <+: k ++ '=' :: r ↔ n = k := by
  constructor
  · intro h
    induction n generalizing k with
    | nil =>
      cases k with
      | nil => rfl
      | cons d k => simp at h; exact absurd (h ▸ List.mem_cons_self ..) hk
    | cons c n ih =>
      cases k with
      | nil => simp at h; exact absurd (h.1 ▸ List.mem_cons_self ..) hn
      | cons d k =>
        simp only [List.cons_append, List.cons_prefix_cons] at h
        rw [h.1, ih (fun hm => hn (List.mem_cons_of_mem _ hm)) (fun hm => hk (List.mem_cons_of_mem _ hm)) h.2]
  · rintro rfl
    exact ⟨r, by simp⟩

theorem not_raises {n k r : List Char} (hn : '=' ∉ n) : ¬ (k ++ '=' :: r <+: n ++ ['='] ∧ k ++ '=' :: r ≠ n ++ ['=']) := by
  rintro ⟨h, hne⟩
  induction n generalizing k with
  | nil =>
    cases k with
    | nil => simp at h; subst h; exact hne rfl
    | cons d k => simp at h
  | cons c n ih =>
    cases k with
    | nil => simp at h; exact hn (h.1 ▸ List.mem_cons_self ..)
    | cons d k =>
      simp only [List.cons_append, List.cons_prefix_cons] at h
      refine ih (fun hm => hn (List.mem_cons_of_mem _ hm)) h.2 (fun he => hne ?_)
      simp only [List.cons_append, he, h.1]

/-- C356. `value_plusargs("NAME=...")` returns the value of the plusarg NAME if it was given, and nothing otherwise, whatever other
plusargs there are (longer names that begin with NAME, prefixes of NAME, other letters); it never raises. -/
theorem C356_value (args : List (List Char × V)) (hn : ∀ p ∈ args, '=' ∉ p.1) (k r : List Char) (hk : '=' ∉ k) :
    (∀ v, valuePlusargs args (k ++ '=' :: r) = .value v ↔ ∃ xs ys, args = xs ++ (k, v) :: ys ∧ ∀ x ∈ xs, x.1 ≠ k) ∧
    (valuePlusargs args (k ++ '=' :: r) = .none ↔ ∀ p ∈ args, p.1 ≠ k) ∧ valuePlusargs args (k ++ '=' :: r) ≠ .raised := by
  induction args with
  | nil => simp [valuePlusargs]
  | cons p args ih =>
    obtain ⟨n, v⟩ := p
    have ih := ih (fun q hq => hn q (List.mem_cons_of_mem _ hq))
    have hnn : '=' ∉ n := hn (n, v) (List.mem_cons_self ..)
    have hs : scan (n ++ ['=']) (k ++ '=' :: r) = .same ↔ n = k := (scan_same _ _ (by simp)).trans (prefix_eq_name hnn hk)
    have hr : scan (n ++ ['=']) (k ++ '=' :: r) ≠ .raises := fun h => not_raises hnn ((scan_raises _ _).1 h)
    rw [valuePlusargs]
    cases hc : scan (n ++ ['=']) (k ++ '=' :: r) with
    | raises => exact absurd hc hr
    | same =>
      have hnk := hs.1 hc
      subst hnk
      refine ⟨fun w => ?_, by simp, by simp⟩
      constructor
      · intro h; cases h; exact ⟨[], args, rfl, by simp⟩
      · rintro ⟨xs, ys, he, hx⟩
        cases xs with
        | nil => cases he; rfl
        | cons x xs => cases he; exact absurd rfl (hx _ (List.mem_cons_self ..))
    | differs =>
      have hnk : n ≠ k := fun h => by rw [hs.2 h] at hc; cases hc
      refine ⟨fun w => ?_, ?_, ih.2.2⟩
      · simp only
        rw [ih.1 w]
        constructor
        · rintro ⟨xs, ys, he, hx⟩
          exact ⟨(n, v) :: xs, ys, by rw [he]; rfl, fun x hm => (List.mem_cons.1 hm).elim (fun h => h ▸ hnk) (hx x)⟩
        · rintro ⟨xs, ys, he, hx⟩
          cases xs with
          | nil => cases he; exact absurd rfl hnk
          | cons x xs => cases he; exact ⟨xs, ys, rfl, fun x hm => hx x (List.mem_cons_of_mem _ hm)⟩
      · simp only
        rw [ih.2.1]
        simp [hnk]

theorem prefix_eq {k n : List Char} (hk : '=' ∉ k) : (k <+: n ++ ['='] ∧ k ≠ n ++ ['=']) ↔ k <+: n := by
  constructor
  · rintro ⟨h, -⟩
    rcases List.prefix_concat_iff.1 h with h | h
    · rw [h] at hk; exact absurd (by simp) hk
    · exact h
  · intro h
    exact ⟨h.trans (List.prefix_append ..), fun he => hk (by rw [he]; simp)⟩

/-- C357 fails, for all plusargs and every name: `test_plusargs(NAME)` never says True.  It raises IndexError if some plusarg begins with
NAME, in particular if NAME was given, and says False otherwise. -/
theorem C357_never_true_fails (args : List (List Char × V)) (k : List Char) (hk : '=' ∉ k) :
    testPlusargs args k = if ∃ p ∈ args, k <+: p.1 then none else some false := by
  have hv : valuePlusargs args k = if ∃ p ∈ args, k <+: p.1 then .raised else .none := by
    induction args with
    | nil => simp [valuePlusargs]
    | cons p args ih =>
      obtain ⟨n, v⟩ := p
      rw [valuePlusargs]
      cases hc : scan (n ++ ['=']) k with
      | same =>
        have ⟨t, ht⟩ := (scan_same _ _ (by simp)).1 hc
        rw [← ht] at hk; exact absurd (by simp) hk
      | raises =>
        have := (prefix_eq hk).1 ((scan_raises _ _).1 hc)
        rw [if_pos ⟨(n, v), List.mem_cons_self .., this⟩]
      | differs =>
        have hne : ¬ k <+: n := fun h => by rw [(scan_raises _ _).2 ((prefix_eq hk).2 h)] at hc; cases hc
        have he : (∃ p ∈ (n, v) :: args, k <+: p.1) ↔ ∃ p ∈ args, k <+: p.1 :=
          ⟨fun ⟨p, hp, h⟩ => (List.mem_cons.1 hp).elim (fun e => absurd (by rw [e] at h; exact h) hne) (fun hp => ⟨p, hp, h⟩),
            fun ⟨p, hp, h⟩ => ⟨p, List.mem_cons_of_mem _ hp, h⟩⟩
        simp only [ih, he]
  unfold testPlusargs
  rw [hv]
  split <;> (split <;> simp_all)

/-- C357, the part that holds: `test_plusargs("NAME=")` says whether the plusarg NAME was given.  Missing: every name without `=`. -/
theorem C357_with_equals_partial (args : List (List Char × V)) (hn : ∀ p ∈ args, '=' ∉ p.1) (k r : List Char) (hk : '=' ∉ k) :
    testPlusargs args (k ++ '=' :: r) = some (args.any fun p => p.1 == k) := by
  obtain ⟨h1, h2, h3⟩ := C356_value args hn k r hk
  unfold testPlusargs
  cases hv : valuePlusargs args (k ++ '=' :: r) with
  | raised => exact absurd hv h3
  | none =>
    have := h2.1 hv
    have he : (args.any fun p => p.1 == k) = false := by
      rw [List.any_eq_false]; intro p hp; simpa using this p hp
    rw [he]
  | value v =>
    obtain ⟨xs, ys, he, -⟩ := (h1 v).1 hv
    rw [he]; simp

namespace Sample
/-- `+UVM_SEQ=abc +UVM_SEQUENCE=xyz +NSESS` -/
def args : List (List Char × String) := [("UVM_SEQ".toList, "abc"), ("UVM_SEQUENCE".toList, "xyz"), ("NSESS".toList, "True")]
example : ∀ p ∈ args, '=' ∉ p.1 := by decide
example : valuePlusargs args "UVM_SEQUENCE=%s".toList = .value "xyz" ∧ valuePlusargs args "UVM=%s".toList = .none ∧
    testPlusargs args "NSESS".toList = none ∧ testPlusargs args "NSES".toList = none ∧ testPlusargs args "SESS".toList = some false ∧
    testPlusargs args "NSESS=".toList = some true := by decide
end Sample
end Verif.PlusArgs
