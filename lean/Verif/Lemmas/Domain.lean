import Verif.Spec.Domain
import Verif.Props.PhaseRun
/-!
# The standard schedule: which states the getters reach, and what their graphs are
-/
namespace Verif.Domain
open Verif.PhaseRun (Wf Paired Before St)

/-- After `get_uvm_domain`, after `get_common_domain`, after both in this order. -/
def afterUvm : State := (getUvm init).1
def afterCommon : State := (getCommon init).1
def afterBoth : State := (getCommon afterUvm).1

theorem uvm_uvm : afterUvm.uvm = some 0 := by decide +kernel
theorem uvm_common : afterUvm.common = none := by decide +kernel
theorem common_uvm : afterCommon.uvm = some 20 := by decide +kernel
theorem common_common : afterCommon.common = some 0 := by decide +kernel
theorem both_uvm : afterBoth.uvm = some 0 := by decide +kernel
theorem both_common : afterBoth.common = some 28 := by decide +kernel

inductive Reach : State → Prop
  | init : Reach init
  | uvm : Reach afterUvm
  | common : Reach afterCommon
  | both : Reach afterBoth

theorem getUvm_some {s : State} {d : Nat} (h : s.uvm = some d) : getUvm s = (s, d, true) := by unfold getUvm; rw [h]
theorem getCommon_some {s : State} {d : Nat} (h : s.common = some d) : getCommon s = (s, d, true) := by unfold getCommon; rw [h]

theorem reach_step {s : State} (h : Reach s) (k : Call) : Reach (step s k).1 := by
  cases h with
  | init =>
    cases k with
    | common => exact .common
    | uvm => exact .uvm
    | schedule => exact .uvm
  | uvm =>
    cases k with
    | common => exact .both
    | uvm => simp only [step, getUvm_some uvm_uvm]; exact .uvm
    | schedule => simp only [step, getUvm_some uvm_uvm]; exact .uvm
  | common =>
    cases k with
    | common => simp only [step, getCommon_some common_common]; exact .common
    | uvm => simp only [step, getUvm_some common_uvm]; exact .common
    | schedule => simp only [step, getUvm_some common_uvm]; exact .common
  | both =>
    cases k with
    | common => simp only [step, getCommon_some both_common]; exact .both
    | uvm => simp only [step, getUvm_some both_uvm]; exact .both
    | schedule => simp only [step, getUvm_some both_uvm]; exact .both

theorem reach_run (calls : List Call) : ∀ {s : State}, Reach s → Reach (run s calls) := by
  induction calls with
  | nil => intro s h; exact h
  | cons k l ih => intro s h; exact ih (reach_step h k)

/-- The two graphs. -/
def tableC : List (Option String × List Nat × List Nat) :=
  [(none, [], [2]), (none, [10], []), (some "build", [0], [3]), (some "connect", [2], [4]), (some "end_of_elaboration", [3], [5]),
   (some "start_of_simulation", [4], [6, 11]), (some "run", [5], [7]), (some "extract", [6, 12], [8]), (some "check", [7], [9]),
   (some "report", [8], [10]), (some "final", [9], [1]), (none, [5], [13]), (none, [14], [7]), (none, [11], [15]), (none, [26], [12]),
   (some "pre_reset", [13], [16]), (some "reset", [15], [17]), (some "post_reset", [16], [18]), (some "pre_configure", [17], [19]),
   (some "configure", [18], [20]), (some "post_configure", [19], [21]), (some "pre_main", [20], [22]), (some "main", [21], [23]),
   (some "post_main", [22], [24]), (some "pre_shutdown", [23], [25]), (some "shutdown", [24], [26]), (some "post_shutdown", [25], [14])]

def tableB : List (Option String × List Nat × List Nat) :=
  [(none, [], [18]), (none, [21], [3]), (none, [4], [23]), (none, [1], [5]), (none, [16], [2]), (some "pre_reset", [3], [6]),
   (some "reset", [5], [7]), (some "post_reset", [6], [8]), (some "pre_configure", [7], [9]), (some "configure", [8], [10]),
   (some "post_configure", [9], [11]), (some "pre_main", [10], [12]), (some "main", [11], [13]), (some "post_main", [12], [14]),
   (some "pre_shutdown", [13], [15]), (some "shutdown", [14], [16]), (some "post_shutdown", [15], [4]), (none, [26], []),
   (some "build", [0], [19]), (some "connect", [18], [20]), (some "end_of_elaboration", [19], [21]), (some "start_of_simulation", [20], [22, 1]),
   (some "run", [21], [23]), (some "extract", [22, 2], [24]), (some "check", [23], [25]), (some "report", [24], [26]), (some "final", [25], [17])]

theorem table_common : table afterCommon 0 = tableC := by decide +kernel
theorem table_both : table afterBoth 28 = tableB := by decide +kernel

theorem reach_table {s : State} (h : Reach s) {c : Nat} (hc : s.common = some c) : table s c = tableC ∨ table s c = tableB := by
  cases h with
  | init => cases hc
  | uvm => rw [uvm_common] at hc; cases hc
  | common => rw [common_common] at hc; cases hc; exact .inl table_common
  | both => rw [both_common] at hc; cases hc; exact .inr table_both

/-- Nothing outside the table. -/
theorem out_preds (t : List (Option String × List Nat × List Nat)) {p : Nat} (h : t.length ≤ p) :
    (ofTable t).preds p = [] ∧ (ofTable t).succs p = [] ∧ (ofTable t).kind p = .other := by
  have : t.getD p (none, [], []) = (none, [], []) := by
    rw [List.getD_eq_getElem?_getD, List.getElem?_eq_none h]; rfl
  simp only [ofTable, this, kindOf, and_self]

theorem wf_table (t : List (Option String × List Nat × List Nat)) (h0 : (ofTable t).preds 0 = [])
    (h1 : ∀ p < t.length, ∀ q ∈ (ofTable t).preds p, q < t.length ∧ p ∈ (ofTable t).succs q)
    (h2 : ∀ p < t.length, ∀ q ∈ (ofTable t).succs p, q < t.length ∧ p ∈ (ofTable t).preds q) : Wf (ofTable t) := by
  refine ⟨fun p q => ⟨fun h => ?_, fun h => ?_⟩, h0⟩
  · by_cases hp : p < t.length
    · exact (h1 p hp q h).2
    · rw [(out_preds t (by omega)).1] at h; cases h
  · by_cases hp : q < t.length
    · exact (h2 q hp p h).2
    · rw [(out_preds t (by omega)).2.1] at h; cases h

theorem wf_C : Wf (ofTable tableC) := wf_table _ (by decide +kernel) (by decide +kernel) (by decide +kernel)
theorem wf_B : Wf (ofTable tableB) := wf_table _ (by decide +kernel) (by decide +kernel) (by decide +kernel)

/-- Places along the schedule. -/
def rankOf (l : List Nat) (p : Nat) : Nat := l.getD p 0

def ranksC : List Nat := [0, 26, 1, 2, 3, 4, 19, 22, 23, 24, 25, 6, 21, 7, 20, 8, 9, 10, 11, 12, 13, 14, 15, 16, 17, 18, 19]
def ranksB : List Nat := [0, 6, 21, 7, 20, 8, 9, 10, 11, 12, 13, 14, 15, 16, 17, 18, 19, 26, 1, 2, 3, 4, 19, 22, 23, 24, 25]

open PhaseRun (sibs) in
theorem paired_C : Paired (ofTable tableC) (rankOf ranksC) where
  out := fun p hp => (out_preds tableC hp).2.2
  conn := by decide +kernel
  inside := by decide +kernel
  rank := by decide +kernel
  func := by decide +kernel
  task := by
    intro p hp hk
    have : ∀ p, p < 27 → ((ofTable tableC).kind p = .task ∧ p ≠ 6 ∧ p ≠ 26) → sibs (ofTable tableC) p = some [] := by decide +kernel
    by_cases h5 : p = 6
    · subst h5; exact .inr ⟨26, by decide +kernel⟩
    · by_cases h19 : p = 26
      · subst h19; exact .inr ⟨6, by decide +kernel⟩
      · exact .inl (this p hp ⟨hk, h5, h19⟩)

open PhaseRun (sibs) in
theorem paired_B : Paired (ofTable tableB) (rankOf ranksB) where
  out := fun p hp => (out_preds tableB hp).2.2
  conn := by decide +kernel
  inside := by decide +kernel
  rank := by decide +kernel
  func := by decide +kernel
  task := by
    intro p hp hk
    have : ∀ p, p < 27 → ((ofTable tableB).kind p = .task ∧ p ≠ 22 ∧ p ≠ 16) → sibs (ofTable tableB) p = some [] := by decide +kernel
    by_cases h5 : p = 22
    · subst h5; exact .inr ⟨16, by decide +kernel⟩
    · by_cases h19 : p = 16
      · subst h19; exact .inr ⟨22, by decide +kernel⟩
      · exact .inl (this p hp ⟨hk, h5, h19⟩)

/-- Whatever comes before a phase in the schedule is done when the phase starts. -/
theorem before_done {G : PhaseRun.Graph} (hG : Wf G) (ops : List PhaseRun.Op) {q p : Nat} (hb : Before G q p) : q ≠ p →
    ∀ (newer older : List (Nat × St)) (x : St), (PhaseRun.run G {} ops).log = newer ++ (p, x) :: older → x ≠ .scheduled → (q, St.done) ∈ older := by
  induction hb with
  | refl => intro h; exact absurd rfl h
  | step h hp ih =>
    rename_i b c
    intro _ newer older x hl hx
    have hd := PhaseRun.C84_order G hG ops newer older _ x hl hx _ hp
    by_cases hq : q = b
    · subst hq; exact hd
    · obtain ⟨o1, o2, ho⟩ := List.append_of_mem hd
      have := ih hq (newer ++ (c, x) :: o1) o2 .done (by rw [hl, ho]; simp) (by decide)
      rw [ho]; exact List.mem_append_right _ (List.mem_cons_of_mem _ this)

/-- Is `q` before `p`, looking back `n` steps. -/
def backB (G : PhaseRun.Graph) (q : Nat) : Nat → Nat → Bool
  | 0, p => p == q
  | n + 1, p => p == q || (G.preds p).any (backB G q n)

theorem backB_before {G : PhaseRun.Graph} {q : Nat} : ∀ n p, backB G q n p = true → Before G q p
  | 0, p, h => by
    have : p = q := by simpa [backB] using h
    subst this; exact .refl _
  | n + 1, p, h => by
    simp only [backB, Bool.or_eq_true, beq_iff_eq, List.any_eq_true] at h
    rcases h with rfl | ⟨b, hb, h⟩
    · exact .refl _
    · exact .step (backB_before n b h) hb

/-- The name at a place. -/
def nameAt (t : List (Option String × List Nat × List Nat)) (p : Nat) : Option String := (t.getD p (none, [], [])).1

theorem called_nameAt {t : List (Option String × List Nat × List Nat)} {p : Nat} {name : String} (h : Called t p name) :
    p < t.length ∧ nameAt t p = some name := by
  unfold Called at h
  by_cases hp : p < t.length
  · refine ⟨hp, ?_⟩
    rw [List.getElem?_eq_getElem hp] at h
    unfold nameAt
    rw [List.getD_eq_getElem?_getD, List.getElem?_eq_getElem hp]
    simpa using h
  · rw [List.getElem?_eq_none (by omega)] at h; cases h

/-- The names of two places are different, and in the documented order. -/
def pairB (G : PhaseRun.Graph) (p q : Nat) : Option String → Option String → Bool
  | some a, some b => (a != b || p == q) && (!decide (DocBefore b a) || (q != p && backB G q 27 p))
  | _, _ => true

def placesB (t : List (Option String × List Nat × List Nat)) : Bool :=
  (docCommon ++ docRuntime).all (fun name => (List.range t.length).any fun p => decide (Called t p name)) &&
    (List.range t.length).all fun p => (List.range t.length).all fun q => pairB (ofTable t) p q (nameAt t p) (nameAt t q)

theorem places_C : placesB tableC = true := by decide +kernel
theorem places_B : placesB tableB = true := by decide +kernel

theorem places_spec {t : List (Option String × List Nat × List Nat)} (h : placesB t = true) :
    (∀ name, name ∈ docCommon ∨ name ∈ docRuntime → ∃ p, Called t p name) ∧
    (∀ p q name, Called t p name → Called t q name → p = q) ∧
    ∀ p q a b, Called t p a → Called t q b → DocBefore b a → q ≠ p ∧ Before (ofTable t) q p := by
  simp only [placesB, Bool.and_eq_true, List.all_eq_true, List.any_eq_true, List.mem_range, List.mem_append, decide_eq_true_eq] at h
  refine ⟨fun name hn => ?_, fun p q name hp hq => ?_, fun p q a b hp hq hd => ?_⟩
  · obtain ⟨p, _, hp⟩ := h.1 name hn; exact ⟨p, hp⟩
  · have h1 := called_nameAt hp
    have h2 := called_nameAt hq
    have := h.2 p h1.1 q h2.1
    rw [h1.2, h2.2] at this
    simp only [pairB, Bool.and_eq_true] at this
    simpa using this.1
  · have h1 := called_nameAt hp
    have h2 := called_nameAt hq
    have := h.2 p h1.1 q h2.1
    rw [h1.2, h2.2] at this
    simp only [pairB, Bool.and_eq_true, hd, decide_true, Bool.not_true, Bool.false_or, bne_iff_ne] at this
    exact ⟨this.2.1, backB_before _ _ this.2.2⟩

/-- What is used of a reachable schedule. -/
theorem reach_schedule {s : State} (h : Reach s) {c : Nat} (hc : s.common = some c) :
    placesB (table s c) = true ∧ Wf (ofTable (table s c)) ∧ ∃ rk, Paired (ofTable (table s c)) rk := by
  rcases reach_table h hc with e | e
  · rw [e]; exact ⟨places_C, wf_C, _, paired_C⟩
  · rw [e]; exact ⟨places_B, wf_B, _, paired_B⟩

end Verif.Domain
