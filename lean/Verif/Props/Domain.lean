import Verif.Lemmas.Domain
/-!
# C234, C235: the standard phases and the domains, and C115 for them
-/
namespace Verif.Domain
open Verif.PhaseRun (Wf Paired Before St Calm Stuck Objected)

/-- C234.  However `get_common_domain`, `get_uvm_domain` and `get_uvm_schedule` are called, nothing goes wrong and each
always returns the same object once it returned one; the common domain is in place after the first call that asks for it. -/
theorem C234_same_domains (calls later : List Call) (k : Call) :
    (step (run init calls) k).2.2 = true ∧ (step (run init calls) k).2.1 ≠ none ∧
    (step (run (step (run init calls) k).1 later) k).2.1 = (step (run init calls) k).2.1 ∧
    (k = .common → (step (run init calls) k).1.common = (step (run init calls) k).2.1) := by
  have hr := reach_run calls Reach.init
  generalize run init calls = s at *
  have keepU : ∀ (later : List Call) {s : State}, Reach s → s.uvm ≠ none → (run s later).uvm = s.uvm ∧ (run s later).sched = s.sched := by
    intro later
    induction later with
    | nil => intro s _ _; exact ⟨rfl, rfl⟩
    | cons k l ih =>
      intro s h hu
      have hk : (step s k).1.uvm = s.uvm ∧ (step s k).1.sched = s.sched := by
        cases h with
        | init => exact absurd rfl hu
        | uvm =>
          cases k with
          | common => exact ⟨by rw [uvm_uvm]; exact both_uvm, by decide +kernel⟩
          | uvm => simp [step, getUvm_some uvm_uvm]
          | schedule => simp [step, getUvm_some uvm_uvm]
        | common =>
          cases k with
          | common => simp [step, getCommon_some common_common]
          | uvm => simp [step, getUvm_some common_uvm]
          | schedule => simp [step, getUvm_some common_uvm]
        | both =>
          cases k with
          | common => simp [step, getCommon_some both_common]
          | uvm => simp [step, getUvm_some both_uvm]
          | schedule => simp [step, getUvm_some both_uvm]
      have := ih (reach_step h k) (by rw [hk.1]; exact hu)
      exact ⟨this.1.trans hk.1, this.2.trans hk.2⟩
  have keepC : ∀ (later : List Call) {s : State} {d : Nat}, s.common = some d → Reach s → (run s later).common = some d := by
    intro later
    induction later with
    | nil => intro s d h _; exact h
    | cons k l ih =>
      intro s d h hr
      refine ih ?_ (reach_step hr k)
      cases hr with
      | init => cases h
      | uvm => rw [uvm_common] at h; cases h
      | common =>
        cases k with
        | common => simp only [step, getCommon_some common_common]; exact h
        | uvm => simp only [step, getUvm_some common_uvm]; exact h
        | schedule => simp only [step, getUvm_some common_uvm]; exact h
      | both =>
        cases k with
        | common => simp only [step, getCommon_some both_common]; exact h
        | uvm => simp only [step, getUvm_some both_uvm]; exact h
        | schedule => simp only [step, getUvm_some both_uvm]; exact h
  have hu' := @keepU later _ (reach_step hr k)
  have hc' := fun d h => @keepC later (step s k).1 d h (reach_step hr k)
  have laterU : ∀ t : State, ∀ d, t.uvm = some d → (step t .uvm).2.1 = some d := fun t d h => by simp only [step, getUvm_some h]
  have laterS : ∀ t : State, ∀ d, t.uvm = some d → (step t .schedule).2.1 = t.sched := fun t d h => by simp only [step, getUvm_some h]
  have laterC : ∀ t : State, ∀ d, t.common = some d → (step t .common).2.1 = some d := fun t d h => by simp only [step, getCommon_some h]
  -- the call itself, from each state
  have cc : k = .common → ∃ d, (step s k).2.1 = some d ∧ (step s k).2.2 = true ∧ (step s k).1.common = some d := by
    rintro rfl
    cases hr with
    | init => exact ⟨0, by decide +kernel, by decide +kernel, by decide +kernel⟩
    | uvm => exact ⟨28, by decide +kernel, by decide +kernel, by decide +kernel⟩
    | common => exact ⟨0, by simp only [step, getCommon_some common_common], by simp only [step, getCommon_some common_common],
        by simp only [step, getCommon_some common_common]; exact common_common⟩
    | both => exact ⟨28, by simp only [step, getCommon_some both_common], by simp only [step, getCommon_some both_common],
        by simp only [step, getCommon_some both_common]; exact both_common⟩
  have cu : k ≠ .common → ∃ d e, (step s k).1.uvm = some d ∧ (step s k).1.sched = some e ∧ (step s k).2.2 = true ∧
      (step s k).2.1 = (if k = .uvm then some d else some e) := by
    intro hk
    cases hr with
    | init => cases k with
      | common => exact absurd rfl hk
      | uvm => exact ⟨0, 2, by decide +kernel, by decide +kernel, by decide +kernel, by decide +kernel⟩
      | schedule => exact ⟨0, 2, by decide +kernel, by decide +kernel, by decide +kernel, by decide +kernel⟩
    | uvm => cases k with
      | common => exact absurd rfl hk
      | uvm => simp only [step, getUvm_some uvm_uvm]; exact ⟨0, 2, uvm_uvm, by decide +kernel, trivial, by decide +kernel⟩
      | schedule => simp only [step, getUvm_some uvm_uvm]; exact ⟨0, 2, uvm_uvm, by decide +kernel, trivial, by decide +kernel⟩
    | common => cases k with
      | common => exact absurd rfl hk
      | uvm => simp only [step, getUvm_some common_uvm]; exact ⟨20, 22, common_uvm, by decide +kernel, trivial, by decide +kernel⟩
      | schedule => simp only [step, getUvm_some common_uvm]; exact ⟨20, 22, common_uvm, by decide +kernel, trivial, by decide +kernel⟩
    | both => cases k with
      | common => exact absurd rfl hk
      | uvm => simp only [step, getUvm_some both_uvm]; exact ⟨0, 2, both_uvm, by decide +kernel, trivial, by decide +kernel⟩
      | schedule => simp only [step, getUvm_some both_uvm]; exact ⟨0, 2, both_uvm, by decide +kernel, trivial, by decide +kernel⟩
  by_cases hk : k = .common
  · obtain ⟨d, h1, h2, h3⟩ := cc hk
    subst hk
    refine ⟨h2, by rw [h1]; simp, ?_, fun _ => h3.trans h1.symm⟩
    rw [laterC _ d (hc' d h3), h1]
  · obtain ⟨d, e, h1, h2, h3, h4⟩ := cu hk
    have hk' := hu' (by rw [h1]; simp)
    refine ⟨h3, by rw [h4]; split <;> simp, ?_, fun h => absurd h hk⟩
    cases k with
    | common => exact absurd rfl hk
    | uvm => rw [laterU _ d (hk'.1.trans h1), h4]; rfl
    | schedule => rw [laterS _ d (hk'.1.trans h1), hk'.2, h2, h4]; rfl

/-- C234.  In every execution of the schedule so built, each documented phase is there once, and whatever happens to one
(other than being scheduled) happens after all that are documented to come before it were done. -/
theorem C234_standard_order (calls : List Call) (c : Nat) (hc : (run init calls).common = some c) :
    (∀ name, name ∈ docCommon ∨ name ∈ docRuntime → ∃ p, Called (table (run init calls) c) p name) ∧
    (∀ p q name, Called (table (run init calls) c) p name → Called (table (run init calls) c) q name → p = q) ∧
    ∀ (ops : List PhaseRun.Op) (newer older : List (Nat × St)) (p q : Nat) (a b : String) (x : St),
      (PhaseRun.run (ofTable (table (run init calls) c)) {} ops).log = newer ++ (q, x) :: older → x ≠ .scheduled →
      Called (table (run init calls) c) p a → Called (table (run init calls) c) q b → DocBefore a b → (p, St.done) ∈ older := by
  obtain ⟨h1, h2, _⟩ := reach_schedule (reach_run calls Reach.init) hc
  obtain ⟨e1, e2, e3⟩ := places_spec h1
  refine ⟨e1, e2, fun ops newer older p q a b x hl hx hp hq hd => ?_⟩
  have := e3 q p b a hq hp hd
  exact before_done h2 ops this.2 this.1 newer older x hl hx

example : DocBefore "start_of_simulation" "pre_reset" ∧ DocBefore "post_shutdown" "extract" ∧ ¬ DocBefore "run" "reset" ∧ ¬ DocBefore "reset" "run" := by
  decide +kernel

example : (run init [.schedule, .common, .uvm]).common = some 28 ∧ (run init [.common]).common = some 0 := by decide +kernel

/-- The first eighteen steps of an execution: the build phase is started. -/
example : ∃ ops newer older, (PhaseRun.run (ofTable (table (run init [.common]) 0)) {} ops).log = newer ++ (2, St.started) :: older ∧
    Called (table (run init [.common]) 0) 2 "build" := by
  refine ⟨[.spawn, .adv 0, .adv 0, .adv 0, .adv 0, .adv 0, .adv 0, .spawn, .adv 2, .adv 2, .adv 2], ?_⟩
  have hl : ∀ l : List (Nat × St), (2, St.started) ∈ l → ∃ newer older, l = newer ++ (2, St.started) :: older := fun l h => List.append_of_mem h
  obtain ⟨n, o, h⟩ := hl _ (show (2, St.started) ∈ (PhaseRun.run (ofTable (table (run init [.common]) 0)) {}
    [.spawn, .adv 0, .adv 0, .adv 0, .adv 0, .adv 0, .adv 0, .spawn, .adv 2, .adv 2, .adv 2]).log from by decide +kernel)
  exact ⟨n, o, h, by decide +kernel⟩

/-- Is the name at this place that of a run-time phase? -/
def runtimeAt (t : List (Option String × List Nat × List Nat)) (q : Nat) : Bool :=
  match nameAt t q with
  | some n => decide (n ∈ docRuntime)
  | none => false

/-- Two sets closed under predecessors, one with the run-time phases only, the other with the run phase only. -/
theorem apart (t : List (Option String × List Nat × List Nat)) (ht : placesB t = true) (r : Nat) (rt S1 S2 : List Nat) (hr : Called t r "run")
    (hrt : ∀ q < t.length, runtimeAt t q = true → q ∈ rt) (h1 : ∀ x ∈ S1, ∀ y ∈ (ofTable t).preds x, y ∈ S1)
    (h2 : ∀ x ∈ S2, ∀ y ∈ (ofTable t).preds x, y ∈ S2) (hs : (∀ q ∈ rt, q ∈ S1 ∧ q ∉ S2) ∧ r ∈ S2 ∧ r ∉ S1) {p q : Nat} {name : String}
    (hn : name ∈ docRuntime) (hp : Called t p "run") (hq : Called t q name) : ¬ Before (ofTable t) p q ∧ ¬ Before (ofTable t) q p := by
  have closed : ∀ (S : List Nat), (∀ x ∈ S, ∀ y ∈ (ofTable t).preds x, y ∈ S) → ∀ a b, b ∈ S → a ∉ S → ¬ Before (ofTable t) a b := by
    intro S hS a b hb ha hbef
    refine ha ?_
    clear ha
    induction hbef with
    | refl => exact hb
    | step h hp ih => exact ih (hS _ hb _ hp)
  have hp' : p = r := (places_spec ht).2.1 p r "run" hp hr
  subst hp'
  have hq1 := called_nameAt hq
  have hq2 := hs.1 q (hrt q hq1.1 (by unfold runtimeAt; rw [hq1.2]; simpa using hn))
  exact ⟨closed S1 h1 _ _ hq2.1 hs.2.2, closed S2 h2 _ _ hs.2.1 hq2.2⟩

/-- C234: the run phase is not before a run-time phase nor after it. -/
theorem C234_run_parallel (calls : List Call) (c : Nat) (hc : (run init calls).common = some c) (p q : Nat) (name : String)
    (hn : name ∈ docRuntime) (hp : Called (table (run init calls) c) p "run") (hq : Called (table (run init calls) c) q name) :
    ¬ Before (ofTable (table (run init calls) c)) p q ∧ ¬ Before (ofTable (table (run init calls) c)) q p := by
  rcases reach_table (reach_run calls Reach.init) hc with e | e
  · rw [e] at hp hq ⊢
    exact apart tableC places_C 6 [15, 16, 17, 18, 19, 20, 21, 22, 23, 24, 25, 26]
      [0, 2, 3, 4, 5, 11, 13, 15, 16, 17, 18, 19, 20, 21, 22, 23, 24, 25, 26] [0, 2, 3, 4, 5, 6]
      (by decide +kernel) (by decide +kernel) (by decide +kernel) (by decide +kernel) (by decide) hn hp hq
  · rw [e] at hp hq ⊢
    exact apart tableB places_B 22 [5, 6, 7, 8, 9, 10, 11, 12, 13, 14, 15, 16]
      [0, 18, 19, 20, 21, 1, 3, 5, 6, 7, 8, 9, 10, 11, 12, 13, 14, 15, 16] [0, 18, 19, 20, 21, 22]
      (by decide +kernel) (by decide +kernel) (by decide +kernel) (by decide +kernel) (by decide) hn hp hq

/-- C115 for the schedule so built: without late objections it only stops when all phases are done or somebody objects, and
then the end of all phases is announced. -/
theorem C115_standard_partial (calls : List Call) (c : Nat) (hc : (run init calls).common = some c) (ops : List PhaseRun.Op)
    (hcalm : Calm (ofTable (table (run init calls) c)) {} ops)
    (hst : Stuck (ofTable (table (run init calls) c)) (PhaseRun.run (ofTable (table (run init calls) c)) {} ops))
    (ho : ¬ Objected (PhaseRun.run (ofTable (table (run init calls) c)) {} ops)) :
    (∀ p name, Called (table (run init calls) c) p name → (PhaseRun.run (ofTable (table (run init calls) c)) {} ops).st p = .done) ∧
    (PhaseRun.run (ofTable (table (run init calls) c)) {} ops).allDone = true := by
  have hr := reach_run calls Reach.init
  obtain ⟨_, h2, rk, h3⟩ := reach_schedule hr hc
  refine ⟨fun p name hp => PhaseRun.C115_progress_partial _ h2 rk h3 ops hcalm hst ho p (called_nameAt hp).1, ?_⟩
  have : ∃ e < (ofTable (table (run init calls) c)).n, (ofTable (table (run init calls) c)).succs e = [] := by
    rcases reach_table hr hc with e | e <;> rw [e]
    · exact ⟨1, by decide, by decide +kernel⟩
    · exact ⟨17, by decide, by decide +kernel⟩
  obtain ⟨e, he, hs⟩ := this
  exact PhaseRun.C115_end_partial _ h2 rk h3 ops hcalm hst ho e he hs

/-- The domain registered under a name. -/
def lookup (l : List (String × Nat)) (name : String) : Option Nat := (l.find? (·.1 == name)).map (·.2)

theorem lookup_set (l : List (String × Nat)) (n name : String) (d : Nat) :
    lookup (setDomain l n d) name = if n = name then some d else lookup l name := by
  unfold setDomain lookup
  by_cases h : l.any (·.1 == n) = true
  · rw [if_pos h]
    induction l with
    | nil => cases h
    | cons e l ih =>
      by_cases he : e.1 = n
      · by_cases hn : n = name
        · simp [he, hn]
        · simp only [List.map_cons, he, BEq.rfl, if_true]
          rw [List.find?_cons_of_neg (by simpa using hn), List.find?_cons_of_neg (by simpa [he] using hn)]
          by_cases h' : l.any (·.1 == n) = true
          · rw [ih h']
          · have : l.map (fun e => if e.1 == n then (n, d) else e) = l := by
              have h' : ∀ x ∈ l, ¬ x.1 = n := fun x hx e => h' (List.any_eq_true.mpr ⟨x, hx, by simpa using e⟩)
              exact (List.map_congr_left (g := id) (fun x hx => by simp [h' x hx])).trans (List.map_id _)
            rw [this]; simp [hn]
      · have h' : l.any (·.1 == n) = true := by simpa [he] using h
        have he' : (e.1 == n) = false := by simpa using he
        simp only [List.map_cons, he', Bool.false_eq_true, if_false]
        by_cases hn : e.1 = name
        · have : ¬ n = name := fun e' => he (hn.trans e'.symm)
          simp [hn, this]
        · rw [List.find?_cons_of_neg (by simpa using hn), List.find?_cons_of_neg (by simpa using hn)]
          exact ih h'
  · rw [if_neg h]
    have h' : ∀ x ∈ l, ¬ x.1 = n := fun x hx e => h (List.any_eq_true.mpr ⟨x, hx, by simpa using e⟩)
    rw [List.find?_append]
    by_cases hn : n = name
    · subst hn
      have : l.find? (fun x => x.1 == n) = none := List.find?_eq_none.mpr fun x hx => by simpa using h' x hx
      rw [this]; simp
    · cases l.find? (fun x => x.1 == name) <;> simp [hn]

theorem any_set (l : List (String × Nat)) (n name : String) (d : Nat) : (setDomain l n d).any (·.1 == name) = (n == name || l.any (·.1 == name)) := by
  have h : ∀ l : List (String × Nat), l.any (·.1 == name) = (lookup l name).isSome := by
    intro l
    induction l with
    | nil => rfl
    | cons e l ih =>
      by_cases he : e.1 = name
      · simp [lookup, he]
      · rw [List.any_cons, ih]
        simp only [lookup]
        rw [List.find?_cons_of_neg (by simpa using he)]
        simp [he]
  rw [h, h, lookup_set]
  by_cases hn : n = name <;> simp [hn]

theorem names_nodup (l : List (String × Nat)) (n : String) (d : Nat) (h : (l.map (·.1)).Nodup) : ((setDomain l n d).map (·.1)).Nodup := by
  unfold setDomain
  by_cases ha : l.any (·.1 == n) = true
  · rw [if_pos ha, List.map_map]
    have : (fun x : String × Nat => x.1) ∘ (fun e => if e.1 == n then (n, d) else e) = fun x => x.1 := by
      funext e
      by_cases he : e.1 = n <;> simp [he]
    rw [this]; exact h
  · rw [if_neg ha, List.map_append, List.nodup_append]
    refine ⟨h, by simp, ?_⟩
    intro a h1 b h2 hab
    subst hab
    have : a = n := by simpa using h2
    subst this
    apply ha
    simpa using h1

/-- The domains made one after another with these names. -/
def create (names : List String) : State := names.foldl (fun s n => (newDomain s n).1) init

/-- The number of the last of these names that is `name`. -/
def lastPlace (name : String) : List String → Nat → Option Nat
  | [], _ => none
  | n :: l, k => (lastPlace name l (k + 1)).or (if n = name then some k else none)

theorem lastPlace_snoc (name n : String) : ∀ (l : List String) (k : Nat),
    lastPlace name (l ++ [n]) k = if n = name then some (k + l.length) else lastPlace name l k
  | [], k => by by_cases h : n = name <;> simp [lastPlace, h]
  | x :: l, k => by
    simp only [List.cons_append, lastPlace, lastPlace_snoc name n l (k + 1)]
    by_cases h : n = name
    · simp [h]; omega
    · simp [h]

/-- C235.  Domains are registered by name, each name once: `get_domains` gives for every name the domain made last with it.
Making one with a name that is in use is reported, and only then.  (Domain `k` is the phase `2 k`: each has an end node.) -/
theorem C235_domains (names : List String) :
    (∀ name, lookup (create names).domains name = (lastPlace name names 0).map (2 * ·)) ∧
    ((create names).domains.map (·.1)).Nodup ∧
    ∀ n, (newDomain (create names) n).2.1 = 2 * names.length ∧ ((newDomain (create names) n).2.2 = true ↔ n ∈ names) := by
  have key : ∀ l : List String, (create l).ph.next = 2 * l.length ∧ (∀ name, lookup (create l).domains name = (lastPlace name l 0).map (2 * ·)) ∧
      ((create l).domains.map (·.1)).Nodup ∧ ∀ n, (create l).domains.any (·.1 == n) = true ↔ n ∈ l := by
    intro l
    have hrev : ∀ k, ∀ l : List String, l.length = k → (create l).ph.next = 2 * l.length ∧ (∀ name, lookup (create l).domains name = (lastPlace name l 0).map (2 * ·)) ∧
      ((create l).domains.map (·.1)).Nodup ∧ ∀ n, (create l).domains.any (·.1 == n) = true ↔ n ∈ l := by
      intro k
      induction k with
      | zero =>
        intro l hl
        have : l = [] := List.eq_nil_of_length_eq_zero hl
        subst this
        exact ⟨rfl, fun _ => rfl, by simp [create, init], by simp [create, init]⟩
      | succ k ih =>
        intro l hl
        have hne : l ≠ [] := by intro h; subst h; cases hl
        obtain ⟨m, x, rfl⟩ : ∃ m x, l = m ++ [x] := ⟨l.dropLast, l.getLast hne, (List.dropLast_concat_getLast hne).symm⟩
        obtain ⟨h1, h2, h3, h4⟩ := ih m (by simpa using hl)
        have hc : create (m ++ [x]) = (newDomain (create m) x).1 := by simp [create, List.foldl_append]
        have hn : (newDomain (create m) x).1.ph.next = (create m).ph.next + 2 := rfl
        have hd : (newDomain (create m) x).1.domains = setDomain (create m).domains x (create m).ph.next := rfl
        refine ⟨by rw [hc, hn, h1]; simp; omega, fun name => ?_, ?_, fun n => ?_⟩
        · rw [hc, hd, lookup_set, lastPlace_snoc, h2, h1]
          by_cases h : x = name <;> simp [h]
        · rw [hc, hd]; exact names_nodup _ _ _ h3
        · rw [hc, hd, any_set, Bool.or_eq_true, h4]
          rw [List.mem_append, List.mem_singleton, beq_iff_eq]
          exact ⟨fun h => h.symm.imp id Eq.symm, fun h => h.symm.imp Eq.symm id⟩
    exact hrev _ l rfl
  obtain ⟨h1, h2, h3, h4⟩ := key names
  exact ⟨h2, h3, fun n => ⟨h1, h4 n⟩⟩

example : lookup (create ["a", "b", "a"]).domains "a" = some 4 ∧ lookup (create ["a", "b", "a"]).domains "b" = some 2 := by decide +kernel

end Verif.Domain
