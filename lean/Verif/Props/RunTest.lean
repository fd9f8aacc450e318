import Verif.Spec.RunTest
import Verif.Props.Cmdline
import Verif.Props.Traverse
import Verif.Props.Factory
/-!
# C252, C253: which test runs, and finding a component
-/
namespace Verif.RunTest
open Verif.Factory (Env Ty)

theorem asked_of (p : Cmdline.Proc) (arg test : String) (h : Asked p arg test) :
    chosen (cmdlineTests p) arg = test := by
  have hv : cmdlineTests p = (p.argv.filterMap (Cmdline.remainder "+UVM_TESTNAME=".toList)).map String.ofList := by
    simp only [cmdlineTests, Cmdline.C46_values]
  have hnone : ∀ l : List (List Char), (∀ a ∈ l, ¬ "+UVM_TESTNAME=".toList <+: a) → l.filterMap (Cmdline.remainder "+UVM_TESTNAME=".toList) = [] := by
    intro l hl
    rw [List.filterMap_eq_nil_iff]
    intro a ha
    exact if_neg (hl a ha)
  rw [hv]
  rcases h with ⟨pre, post, h1, h2⟩ | ⟨h1, rfl⟩
  · rw [h1, List.filterMap_append, hnone pre h2, List.nil_append, List.filterMap_cons]
    have : Cmdline.remainder "+UVM_TESTNAME=".toList ("+UVM_TESTNAME=".toList ++ test.toList) = some test.toList := by
      unfold Cmdline.remainder
      rw [if_pos (List.prefix_append _ _), List.drop_left]
    rw [this]
    simp [chosen]
  · rw [hnone _ h1]; rfl

/-- There is always exactly one test asked for. -/
theorem asked_exists (p : Cmdline.Proc) (arg : String) : ∃ test, Asked p arg test := by
  obtain ⟨argv, _, _⟩ := p
  by_cases h : ∀ a ∈ argv, ¬ "+UVM_TESTNAME=".toList <+: a
  · exact ⟨arg, .inr ⟨h, rfl⟩⟩
  · have key : ∀ l : List (List Char), ¬ (∀ a ∈ l, ¬ "+UVM_TESTNAME=".toList <+: a) →
        ∃ pre t post, l = pre ++ ("+UVM_TESTNAME=".toList ++ t) :: post ∧ ∀ a ∈ pre, ¬ "+UVM_TESTNAME=".toList <+: a := by
      intro l
      induction l with
      | nil => intro h; exact absurd (by simp) h
      | cons x l ih =>
        intro h
        by_cases hx : "+UVM_TESTNAME=".toList <+: x
        · obtain ⟨t, rfl⟩ := hx
          exact ⟨[], t, l, rfl, by simp⟩
        · have : ¬ ∀ a ∈ l, ¬ "+UVM_TESTNAME=".toList <+: a := by
            intro h'; apply h; intro a ha
            rcases List.mem_cons.1 ha with rfl | ha
            · exact hx
            · exact h' a ha
          obtain ⟨pre, t, post, h1, h2⟩ := ih this
          refine ⟨x :: pre, t, post, by rw [h1]; rfl, ?_⟩
          intro a ha
          rcases List.mem_cons.1 ha with rfl | ha
          · exact hx
          · exact h2 a ha
    obtain ⟨pre, t, post, h1, h2⟩ := key argv h
    exact ⟨String.ofList t, .inl ⟨pre, post, by simpa using h1, h2⟩⟩

/-- C252.  The test asked for is made once, of the type the factory resolves its name to for `uvm_test_top`, and the phases are run
and then summarised; they are not run if there is already a test, if the name is not known, or if there is no component at all. -/
theorem C252_test (e : Env) (f : Factory.Factory) (fuel : Nat) (p : Cmdline.Proc) (finish : Bool) (children : List String) (arg test : String)
    (h : Asked p arg test) :
    let r := runTest e f fuel p finish children arg
    (∀ t, .created t ∈ r.1 ↔ test ≠ "" ∧ "uvm_test_top" ∉ children ∧ ∃ l, Factory.createByName e f fuel test "" "uvm_test_top" = .found t l) ∧
    (.phases ∈ r.1 ↔ (test = "" ∧ children ≠ []) ∨
      (test ≠ "" ∧ "uvm_test_top" ∉ children ∧ ∃ t l, Factory.createByName e f fuel test "" "uvm_test_top" = .found t l)) ∧
    (.phases ∈ r.1 → (∃ pre, r.1 = pre ++ [.phases, .summary] ++ if finish then [.finish] else []) ∧
      r.2 = if test = "" then children else children ++ ["uvm_test_top"]) ∧
    (.phases ∉ r.1 → r.2 = children ∧ ∃ pre x, r.1 = pre ++ [x] ∧ (x = .resolution ∨ ∃ k, x = .fatal k)) ∧
    (∀ n c l, .multtst n c l ∈ r.1 ↔ 2 ≤ l.length ∧ n = l.length ∧ c = test ∧ l = cmdlineTests p) ∧
    (.fatal .ttinst ∈ r.1 ↔ test ≠ "" ∧ "uvm_test_top" ∈ children) ∧
    (.fatal .nocomp ∈ r.1 ↔ test = "" ∧ children = []) ∧
    ((∃ b, .fatal (.invtst b) ∈ r.1) ↔ test ≠ "" ∧ "uvm_test_top" ∉ children ∧ Factory.createByName e f fuel test "" "uvm_test_top" = .unknown) := by
  have ht := asked_of p arg test h
  simp only [runTest, ht]
  generalize hm : (if (cmdlineTests p).length > 1 then [Event.multtst (cmdlineTests p).length test (cmdlineTests p)] else []) = mult
  have hmult : ∀ x, x ∈ mult ↔ 2 ≤ (cmdlineTests p).length ∧ x = .multtst (cmdlineTests p).length test (cmdlineTests p) := by
    intro x; rw [← hm]
    by_cases h1 : (cmdlineTests p).length > 1
    · rw [if_pos h1, List.mem_singleton]; exact ⟨fun h => ⟨h1, h⟩, fun h => h.2⟩
    · rw [if_neg h1]; exact ⟨nofun, fun h => absurd h.1 h1⟩
  have hmm : ∀ n c l, (.multtst n c l ∈ mult ↔ 2 ≤ l.length ∧ n = l.length ∧ c = test ∧ l = cmdlineTests p) := by
    intro n c l
    rw [hmult]
    constructor
    · rintro ⟨h1, h2⟩; cases h2; exact ⟨h1, rfl, rfl, rfl⟩
    · rintro ⟨h1, rfl, rfl, rfl⟩; exact ⟨h1, rfl⟩
  have hno : ∀ x, (∀ n c l, x ≠ .multtst n c l) → x ∉ mult := fun x hx h => hx _ _ _ ((hmult x).1 h).2
  clear hm hmult
  by_cases h1 : test = ""
  · subst h1
    rw [if_neg (by simp)]
    by_cases h2 : children = []
    · subst h2
      simp [tail, hno, hmm]
      exact ⟨mult, _, ⟨rfl, rfl⟩, .inr ⟨_, rfl⟩⟩
    · have h3 : ¬ children.length = 0 := fun h => h2 (List.eq_nil_of_length_eq_zero h)
      simp only [tail, if_neg h3]
      refine ⟨?_, ?_, fun _ => ⟨⟨mult ++ [.running "" none], by simp⟩, ?_⟩, ?_, ?_, ?_, ?_, ?_⟩
      all_goals cases finish <;> simp [hno, hmm, h2]
  · rw [if_pos h1]
    by_cases h2 : "uvm_test_top" ∈ children
    · rw [if_pos h2]
      have h3 : children ≠ [] := by rintro rfl; cases h2
      simp [hno, hmm, h1, h2, h3]
      exact ⟨mult, _, ⟨rfl, rfl⟩, .inr ⟨_, rfl⟩⟩
    · rw [if_neg h2]
      cases hc : Factory.createByName e f fuel test "" "uvm_test_top" with
      | unknown => simp [hno, hmm, h1, h2]; exact ⟨mult, _, ⟨rfl, rfl⟩, .inr ⟨_, rfl⟩⟩
      | indexError => simp [hno, hmm, h1, h2]; exact ⟨mult, _, ⟨rfl, rfl⟩, .inl rfl⟩
      | recursion => simp [hno, hmm, h1, h2]; exact ⟨mult, _, ⟨rfl, rfl⟩, .inl rfl⟩
      | found t l =>
        have h3 : ¬ (children ++ ["uvm_test_top"]).length = 0 := by simp
        simp only [tail, if_neg h3]
        refine ⟨?_, ?_, fun _ => ⟨⟨mult ++ [.created t, .running test (some t)], by simp⟩, ?_⟩, ?_, ?_, ?_, ?_, ?_⟩
        all_goals cases finish <;> simp [hno, hmm, h1, h2]
        all_goals first
          | (intro t'; exact eq_comm)
          | skip

/-- C252.  Whatever calls of `run_test` are made, with other top-level components made in between, there is at most one test. -/
theorem C252_one_test (l : List (RunCall ⊕ String)) (hn : ∀ n, .inr n ∈ l → n ≠ "uvm_test_top") :
    (history [] l).count "uvm_test_top" ≤ 1 := by
  have key : ∀ (l : List (RunCall ⊕ String)) (c : List String), (∀ n, .inr n ∈ l → n ≠ "uvm_test_top") → c.count "uvm_test_top" ≤ 1 →
      (history c l).count "uvm_test_top" ≤ 1 := by
    intro l
    induction l with
    | nil => intro c _ h; exact h
    | cons x l ih =>
      intro c hn h
      cases x with
      | inr n =>
        apply ih _ (fun m hm => hn m (List.mem_cons_of_mem _ hm))
        have := hn n List.mem_cons_self
        rw [List.count_append, List.count_singleton]
        have hb : (n == "uvm_test_top") = false := by simpa using this
        simp [hb]; exact h
      | inl r =>
        apply ih _ (fun m hm => hn m (List.mem_cons_of_mem _ hm))
        obtain ⟨test, ht⟩ := asked_exists r.proc r.arg
        have ht := asked_of _ _ _ ht
        simp only [runTest, ht]
        by_cases h1 : test ≠ ""
        · rw [if_pos h1]
          by_cases h2 : "uvm_test_top" ∈ c
          · rw [if_pos h2]; exact h
          · rw [if_neg h2]
            cases Factory.createByName r.env r.fac r.fuel test "" "uvm_test_top" with
            | found t l => simp [List.count_append, List.count_eq_zero_of_not_mem h2]
            | _ => exact h
        · rw [if_neg h1]; exact h
  exact key l [] hn (by simp)

/-- With two test names on the command line. -/
example : Asked ⟨["+x".toList, "+UVM_TESTNAME=a".toList, "+UVM_TESTNAME=b".toList], [], []⟩ "c" "a" :=
  .inl ⟨["+x".toList], ["+UVM_TESTNAME=b".toList], by decide, by decide⟩

/-- The override of A by B applies to the test; the second name is only mentioned; a second test is refused. -/
example :
    runTest Factory.exEnv ([Factory.Op.register 0, .register 1, .typeByType 0 1 .true_].foldl (Factory.step Factory.exEnv 10) {}) 10
      ⟨["+UVM_TESTNAME=A".toList, "+UVM_TESTNAME=C".toList], [], []⟩ true ["tb"] "D" =
      ([.multtst 2 "A" ["A", "C"], .created 1, .running "A" (some 1), .phases, .summary, .finish], ["tb", "uvm_test_top"]) ∧
    runTest Factory.exEnv {} 10 ⟨[], [], []⟩ true ["uvm_test_top"] "D" = ([.fatal .ttinst], ["uvm_test_top"]) ∧
    runTest Factory.exEnv {} 10 ⟨[], [], []⟩ true [] "D" = ([.fatal (.invtst false)], []) := by decide +kernel

/-- C253, what holds: `find` gives a component that matches, with a warning exactly if there are more. -/
theorem C253_find_partial (act : Nat → Bool) (m n c : Nat) (s : Traverse.State) (ht : Traverse.Tree s) (hc : c < s.next) (hn : s.next ≤ n + c)
    (hm : ∀ d, (s.kids d).length ≤ m) (x : Nat) (hx : Traverse.Desc s.kids c x) (hax : act x = true) :
    ∃ s' found, Traverse.findAll act m n c s = some (s', found) ∧
      ((∃ y, find found = .one y ∧ ∀ z, (Traverse.Desc s.kids c z ∧ act z = true) ↔ z = y) ∨
       (∃ y z, find found = .first y ∧ Traverse.Desc s.kids c y ∧ act y = true ∧ Traverse.Desc s.kids c z ∧ act z = true ∧ y ≠ z)) := by
  obtain ⟨s', found, h1, h2, h3, _⟩ := Traverse.C77_find_all act m n c s ht hc hn hm
  refine ⟨s', found, h1, ?_⟩
  match found, h2, h3 with
  | [], _, h3 => exact absurd ((h3 x).2 ⟨hx, hax⟩) (by simp)
  | [y], _, h3 => exact .inl ⟨y, rfl, fun z => by rw [← h3 z]; simp⟩
  | y :: z :: l, h2, h3 =>
    have hy := (h3 y).1 (by simp)
    have hz := (h3 z).1 (by simp)
    refine .inr ⟨y, z, rfl, hy.1, hy.2, hz.1, hz.2, ?_⟩
    rintro rfl
    simp at h2

example : (Traverse.findAll (fun x => x == 1) 10 10 0 Traverse.flat).map (fun r => find r.2) = some (.one 1) ∧
    (Traverse.findAll (fun x => x != 0) 10 10 0 Traverse.flat).map (fun r => find r.2) = some (.first 1) := by decide

/-- C253, what holds: of several components that match, `find` gives the first in the order of the tree (what is below a component before it, siblings in order of creation). -/
theorem C253_first_partial (act : Nat → Bool) (m n c : Nat) (s : Traverse.State) (ht : Traverse.Tree s) (hc : c < s.next) (hn : s.next ≤ n + c)
    (hm : ∀ d, (s.kids d).length ≤ m) :
    ∃ s' found full, Traverse.findAll act m n c s = some (s', found) ∧ Traverse.Post s.kids [c] full ∧
      ∀ y before after, full = before ++ y :: after → (∀ x ∈ before, act x = false) → act y = true → find found = .one y ∨ find found = .first y := by
  obtain ⟨s', full, hp, h⟩ := Traverse.C77_find_order act m n c s ht hc hn hm
  refine ⟨s', _, full, h, hp, fun y before after e hb hy => ?_⟩
  have : full.filter act = y :: after.filter act := by
    rw [e, List.filter_append, List.filter_eq_nil_iff.2 (fun x hx => by simp [hb x hx]), List.nil_append, List.filter_cons_of_pos hy]
  rw [this]
  cases after.filter act with
  | nil => exact .inl rfl
  | cons z l => exact .inr rfl

/-- Component 2 is the first that matches of two. -/
example : ([1, 2, 3, 0] : List Nat) = [1] ++ 2 :: [3, 0] ∧ (∀ x ∈ [1], (fun x => x == 2 || x == 3) x = false) ∧
    (Traverse.findAll (fun x => x == 2 || x == 3) 10 10 0 Traverse.flat).map (fun r => find r.2) = some (.first 2) := by decide

/-- C253 fails for every hierarchy: if no component matches, `find` raises instead of warning and giving `None`. -/
theorem C253_none_fails (act : Nat → Bool) (m n c : Nat) (s : Traverse.State) (ht : Traverse.Tree s) (hc : c < s.next) (hn : s.next ≤ n + c)
    (hm : ∀ d, (s.kids d).length ≤ m) (hno : ∀ x, Traverse.Desc s.kids c x → act x = false) :
    ∃ s' found, Traverse.findAll act m n c s = some (s', found) ∧ find found = .raised := by
  obtain ⟨s', found, h1, _, h3, _⟩ := Traverse.C77_find_all act m n c s ht hc hn hm
  refine ⟨s', found, h1, ?_⟩
  cases found with
  | nil => rfl
  | cons y l =>
    obtain ⟨a, b⟩ := (h3 y).1 (by simp)
    rw [hno y a] at b; cases b

example : (Traverse.findAll (fun x => x == 9) 10 10 0 Traverse.flat).map (fun r => find r.2) = some .raised := by decide

end Verif.RunTest
