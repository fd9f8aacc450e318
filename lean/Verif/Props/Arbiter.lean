import Verif.Lemmas.Arbiter
/-! # Properties C31-C33: arbitration, locks, removal of sequences -/
namespace Verif.Arbiter

/-- For the examples: 2 is a child of 1, 3 a child of 2; 4 is unrelated. -/
def exS1 : Seq := .root 1
def exS2 : Seq := .child 2 exS1
def exS3 : Seq := .child 3 exS2
def exS4 : Seq := .root 4
def exQ : List Req := [⟨0, 4, .req, exS4, -1⟩, ⟨1, 2, .req, exS2, -1⟩, ⟨2, 3, .req, exS3, 100⟩, ⟨3, 1, .lock, exS1, -1⟩]

/-! ## C31 -/

/-- C31: whatever is selected is an item request whose sequence is not locked out and is relevant, in every mode. -/
theorem C31_only_eligible (mode : Mode) (locks : List Seq) (rel : Seq → Bool) (rnd : Nat → Nat) (hrnd : ∀ n, rnd n ≤ n)
    (q : List Req) (i : Int) (h : choose mode locks rel rnd q = .sel i) (hi : i ≠ -1) :
    ∃ (n : Nat) (r : Req), i = n ∧ q[n]? = some r ∧ Servable locks rel r := by
  by_cases hq : NoLeadingLock q
  · rw [choose_eq _ _ _ _ _ hq] at h
    have key : ∀ n : Nat, n ∈ eligIdx locks rel 0 q → ∃ (k : Nat) (r : Req), (n : Int) = k ∧ q[k]? = some r ∧ Servable locks rel r := by
      intro n hn
      obtain ⟨k, r, hk, hr, he⟩ := (mem_eligIdx ..).mp hn
      exact ⟨k, r, by omega, hr, (eligible_iff ..).mp he⟩
    generalize eligIdx locks rel 0 q = a at h key
    cases a with
    | nil => simp at h; omega
    | cons m ms =>
      simp only at h
      split at h
      · obtain rfl := Choice.sel.inj h; exact key m (by simp)
      · split at h
        · obtain rfl := Choice.sel.inj h
          refine key _ ?_
          have hl : rnd ms.length < (m :: ms).length := by have := hrnd ms.length; simp; omega
          rw [List.getD_eq_getElem?_getD, List.getElem?_eq_getElem hl]
          exact List.getElem_mem hl
        · cases h
  · rw [choose_raised _ _ _ _ _ hq] at h; cases h

example : choose .random [exS1] (fun _ => true) (fun n => n) exQ = .sel 2 ∧ choose .fifo [exS1] (fun _ => true) (fun n => n) exQ = .sel 1 := by
  decide

/-- C31: in FIFO mode the selected request is the oldest one that can be served, and nothing is selected exactly if there is none. -/
theorem C31_fifo_oldest (locks : List Seq) (rel : Seq → Bool) (rnd : Nat → Nat) (q : List Req) (hq : NoLeadingLock q) :
    (∀ n : Nat, choose .fifo locks rel rnd q = .sel n ↔
      (∃ r, q[n]? = some r ∧ Servable locks rel r) ∧ ∀ (m : Nat) (r : Req), m < n → q[m]? = some r → ¬ Servable locks rel r) ∧
    (choose .fifo locks rel rnd q = .sel (-1) ↔ ∀ r ∈ q, ¬ Servable locks rel r) := by
  rw [choose_eq _ _ _ _ _ hq]
  have key : ∀ n : Nat, n ∈ eligIdx locks rel 0 q ↔ ∃ r, q[n]? = some r ∧ Servable locks rel r := by
    intro n
    rw [mem_eligIdx]
    constructor
    · rintro ⟨k, r, hk, hr, he⟩
      have : n = k := by omega
      subst this
      exact ⟨r, hr, (eligible_iff ..).mp he⟩
    · rintro ⟨r, hr, he⟩
      exact ⟨n, r, by omega, hr, (eligible_iff ..).mpr he⟩
  have hs := eligIdx_sorted locks rel 0 q
  generalize eligIdx locks rel 0 q = a at key hs
  cases a with
  | nil =>
    constructor
    · intro n
      simp only [Choice.sel.injEq]
      constructor
      · intro h; omega
      · rintro ⟨h, -⟩
        exact absurd ((key n).mpr h) (by simp)
    · simp only [true_iff]
      intro r hr hse
      obtain ⟨n, hn⟩ := List.mem_iff_getElem?.mp hr
      exact absurd ((key n).mpr ⟨r, hn, hse⟩) (by simp)
  | cons m ms =>
    simp only [true_or, if_true, Choice.sel.injEq]
    rw [List.pairwise_cons] at hs
    constructor
    · intro n
      constructor
      · intro h
        have h : m = n := by omega
        subst h
        refine ⟨(key m).mp (by simp), ?_⟩
        intro k r hk hr hse
        have := (key k).mpr ⟨r, hr, hse⟩
        rcases List.mem_cons.mp this with rfl | h
        · omega
        · have := hs.1 k h; omega
      · rintro ⟨h1, h2⟩
        have hn := (key n).mpr h1
        rcases List.mem_cons.mp hn with rfl | h
        · rfl
        · have := hs.1 n h
          obtain ⟨r, hr, hse⟩ := (key m).mp (by simp)
          exact absurd hse (h2 m r this hr)
    · constructor
      · intro h; omega
      · intro h
        obtain ⟨r, hr, hse⟩ := (key m).mp (by simp)
        exact absurd hse (h r (List.mem_of_getElem? hr))

example : NoLeadingLock exQ ∧ choose .fifo [exS2] (fun s => s.inst != 2) (fun n => n) exQ = .sel 2 ∧
    choose .fifo [exS2] (fun s => s.inst == 1) (fun n => n) exQ = .sel (-1) := by
  refine ⟨?_, by decide, by decide⟩
  intro r h
  simp only [exQ, List.head?_cons, Option.some.injEq] at h
  subst h
  decide

/-- C31: in random mode nothing is selected exactly if no request can be served, and every request that can be served is selected for
some outcome of the random number generator. -/
theorem C31_random (locks : List Seq) (rel : Seq → Bool) (q : List Req) (hq : NoLeadingLock q) :
    (∀ rnd : Nat → Nat, choose .random locks rel rnd q = .sel (-1) ↔ ∀ r ∈ q, ¬ Servable locks rel r) ∧
    (∀ (n : Nat) (r : Req), q[n]? = some r → Servable locks rel r →
      ∃ rnd : Nat → Nat, (∀ k, rnd k ≤ k) ∧ choose .random locks rel rnd q = .sel n) := by
  have key : ∀ n : Nat, n ∈ eligIdx locks rel 0 q ↔ ∃ r, q[n]? = some r ∧ Servable locks rel r := by
    intro n
    rw [mem_eligIdx]
    constructor
    · rintro ⟨k, r, hk, hr, he⟩
      have : n = k := by omega
      subst this
      exact ⟨r, hr, (eligible_iff ..).mp he⟩
    · rintro ⟨r, hr, he⟩
      exact ⟨n, r, by omega, hr, (eligible_iff ..).mpr he⟩
  constructor
  · intro rnd
    rw [choose_eq _ _ _ _ _ hq]
    generalize eligIdx locks rel 0 q = a at key
    cases a with
    | nil =>
      simp only [true_iff]
      intro r hr hse
      obtain ⟨n, hn⟩ := List.mem_iff_getElem?.mp hr
      exact absurd ((key n).mpr ⟨r, hn, hse⟩) (by simp)
    | cons m ms =>
      constructor
      · intro h
        exfalso
        simp only [reduceCtorEq, false_or, if_true] at h
        split at h <;> · have := Choice.sel.inj h; omega
      · intro h
        obtain ⟨r, hr, hse⟩ := (key m).mp (by simp)
        exact absurd hse (h r (List.mem_of_getElem? hr))
  · intro n r hr hse
    have hn := (key n).mpr ⟨r, hr, hse⟩
    obtain ⟨k, hk⟩ := List.mem_iff_getElem?.mp hn
    refine ⟨fun j => min k j, fun j => Nat.min_le_right _ _, ?_⟩
    rw [choose_eq _ _ _ _ _ hq]
    generalize eligIdx locks rel 0 q = a at hk
    cases a with
    | nil => simp at hk
    | cons m ms =>
      simp only [reduceCtorEq, false_or, if_true]
      by_cases hms : ms = []
      · subst hms
        rw [if_pos rfl]
        cases k with
        | zero => simp at hk; rw [hk]
        | succ k => simp at hk
      · rw [if_neg hms]
        have hlt : k < (m :: ms).length := by
          rcases Nat.lt_or_ge k (m :: ms).length with h | h
          · exact h
          · rw [List.getElem?_eq_none h] at hk; cases hk
        have : min k ms.length = k := by simp at hlt; omega
        rw [this, List.getD_eq_getElem?_getD, hk]; rfl

/-- C97, weaker for the remaining modes (weighted, strict, user): with no servable request nothing is selected, with exactly one it is
selected.  Missing: the choice among several (`C97_priority_modes_fails`). -/
theorem C97_other_modes_partial (mode : Mode) (locks : List Seq) (rel : Seq → Bool) (rnd : Nat → Nat) (q : List Req)
    (hq : NoLeadingLock q) :
    ((∀ r ∈ q, ¬ Servable locks rel r) → choose mode locks rel rnd q = .sel (-1)) ∧
    (∀ (n : Nat) (r : Req), q[n]? = some r → Servable locks rel r →
      (∀ (m : Nat) (r' : Req), q[m]? = some r' → Servable locks rel r' → m = n) → choose mode locks rel rnd q = .sel n) := by
  have key : ∀ n : Nat, n ∈ eligIdx locks rel 0 q ↔ ∃ r, q[n]? = some r ∧ Servable locks rel r := by
    intro n
    rw [mem_eligIdx]
    constructor
    · rintro ⟨k, r, hk, hr, he⟩
      have : n = k := by omega
      subst this
      exact ⟨r, hr, (eligible_iff ..).mp he⟩
    · rintro ⟨r, hr, he⟩
      exact ⟨n, r, by omega, hr, (eligible_iff ..).mpr he⟩
  have hs := eligIdx_sorted locks rel 0 q
  rw [choose_eq _ _ _ _ _ hq]
  generalize eligIdx locks rel 0 q = a at key hs
  constructor
  · intro h
    cases a with
    | nil => rfl
    | cons m ms =>
      obtain ⟨r, hr, hse⟩ := (key m).mp (by simp)
      exact absurd hse (h r (List.mem_of_getElem? hr))
  · intro n r hr hse huniq
    have hall : ∀ m ∈ a, m = n := fun m hm => by
      obtain ⟨r', hr', hse'⟩ := (key m).mp hm
      exact huniq m r' hr' hse'
    cases a with
    | nil => exact absurd ((key n).mpr ⟨r, hr, hse⟩) (by simp)
    | cons m ms =>
      cases ms with
      | nil => simp [hall m (by simp)]
      | cons k ks =>
        rw [List.pairwise_cons] at hs
        have h1 := hs.1 k (by simp)
        have h2 := hall m (by simp)
        have h3 := hall k (by simp)
        omega

/-- C97 fails in the modes with priorities: with two requests that can be served the arbiter does not choose but ends with a fatal
"internal error". -/
theorem C97_priority_modes_fails (mode : Mode) (hm : mode ≠ .fifo ∧ mode ≠ .random) :
    ∃ q : List Req, NoLeadingLock q ∧ (∃ r ∈ q, Servable [] (fun _ => true) r) ∧
      ∀ rnd, choose mode [] (fun _ => true) rnd q = .fatal := by
  have h1 : NoLeadingLock [(⟨0, 1, .req, exS1, 100⟩ : Req), ⟨1, 4, .req, exS4, 200⟩] := by
    intro r h
    simp only [List.head?_cons, Option.some.injEq] at h
    subst h
    decide
  refine ⟨[⟨0, 1, .req, exS1, 100⟩, ⟨1, 4, .req, exS4, 200⟩], h1, ⟨_, List.mem_cons_self, rfl, ?_, rfl⟩, ?_⟩
  · rintro ⟨l, hl, -⟩; simp at hl
  · intro rnd
    rw [choose_eq _ _ _ _ _ h1]
    have : eligIdx [] (fun _ => true) 0 [(⟨0, 1, .req, exS1, 100⟩ : Req), ⟨1, 4, .req, exS4, 200⟩] = [0, 1] := by decide
    rw [this]
    simp [hm]

/-- C97 fails in general: in those modes, whenever two or more requests could be served, nothing is selected and the simulation ends. -/
theorem C97_two_candidates_fails (mode : Mode) (hm : mode ≠ .fifo ∧ mode ≠ .random) (locks : List Seq) (rel : Seq → Bool) (rnd : Nat → Nat) (q : List Req)
    (hq : NoLeadingLock q) (m n : Nat) (hmn : m ≠ n) (r r' : Req) (hr : q[m]? = some r) (hr' : q[n]? = some r')
    (hs : Servable locks rel r) (hs' : Servable locks rel r') : choose mode locks rel rnd q = .fatal := by
  have key : ∀ n : Nat, (∃ r, q[n]? = some r ∧ Servable locks rel r) → n ∈ eligIdx locks rel 0 q := by
    intro n
    rw [mem_eligIdx]
    rintro ⟨r, hr, he⟩
    exact ⟨n, r, by omega, hr, (eligible_iff ..).mpr he⟩
  have k1 := key m ⟨r, hr, hs⟩
  have k2 := key n ⟨r', hr', hs'⟩
  rw [choose_eq _ _ _ _ _ hq]
  generalize eligIdx locks rel 0 q = a at k1 k2
  match a, k1, k2 with
  | [], k1, _ => simp at k1
  | [x], k1, k2 => simp at k1 k2; omega
  | x :: y :: l, _, _ => simp [hm]

/-! ## C32 -/

/-- C32: a sequence is blocked exactly when some lock is held by a sequence that is neither itself nor one of its ancestors. -/
theorem C32_blocked_iff (locks : List Seq) (s : Seq) : isBlocked locks s = true ↔ LockedOut locks s := isBlocked_iff locks s

/-- C32: without locks nobody is blocked; the only holder and its descendants are never blocked; everybody else is. -/
theorem C32_single_lock (l s : Seq) : isBlocked [] s = false ∧ (isBlocked [l] s = false ↔ WithinFamily l s) := by
  refine ⟨rfl, ?_⟩
  rw [← Bool.not_eq_true, isBlocked_iff]
  simp [LockedOut]

/-- C32: the sequencer is grabbed exactly if there is a lock. -/
theorem C32_grabbed_iff (locks : List Seq) : isGrabbed locks = true ↔ ∃ l, l ∈ locks := by
  cases locks with
  | nil => simp [isGrabbed]
  | cons a l => simp [isGrabbed]

example : isBlocked [exS2] exS3 = false ∧ isBlocked [exS2] exS1 = true ∧ isBlocked [exS1, exS3] exS2 = true ∧ isBlocked [exS1, exS2] exS3 = false := by
  decide

/-- C98 fails for the obtaining of locks: as soon as a lock request is the oldest request, arbitration ends with an exception, in every
mode and whoever holds a lock. -/
theorem C98_lock_request_fails (mode : Mode) (locks : List Seq) (rel : Seq → Bool) (rnd : Nat → Nat) (r : Req) (q : List Req)
    (h : r.kind = .lock) : choose mode locks rel rnd (r :: q) = .raised := by
  apply choose_raised
  intro hq
  exact hq r rfl h

/-! ## C33 -/

/-- C33: removing a sequence removes exactly the requests carrying its id or issued by a descendant, and exactly the locks of the sequence
and its descendants; the rest stays in order. -/
theorem C33_removes_exactly (s : Seq) (seqId : Int) (q : List Req) (locks : List Seq) :
    (removeSequence s seqId q locks).1.Sublist q ∧ (removeSequence s seqId q locks).2.Sublist locks ∧
    (∀ r, r ∈ (removeSequence s seqId q locks).1 ↔ r ∈ q ∧ r.seqId ≠ seqId ∧ ¬ ∃ b, Ancestor b r.seq ∧ Same s b) ∧
    (∀ l, l ∈ (removeSequence s seqId q locks).2 ↔ l ∈ locks ∧ ¬ WithinFamily s l) ∧
    (removeSequence s seqId q locks).1.length + q.countP (reqMatches s seqId) = q.length ∧
    (removeSequence s seqId q locks).2.length + locks.countP (lockMatches s) = locks.length := by
  simp only [removeSequence, removeLoop_eq]
  refine ⟨List.filter_sublist, List.filter_sublist, ?_, ?_, ?_, ?_⟩
  · intro r
    rw [List.mem_filter, ← isChild_iff]
    simp [reqMatches]
  · intro l
    rw [List.mem_filter, ← lockMatches_iff]
    simp
  · rw [← List.countP_eq_length_filter]
    have := List.length_eq_countP_add_countP (reqMatches s seqId) (l := q)
    simp only [Bool.not_eq_true, Bool.decide_eq_false] at this
    omega
  · rw [← List.countP_eq_length_filter]
    have := List.length_eq_countP_add_countP (lockMatches s) (l := locks)
    simp only [Bool.not_eq_true, Bool.decide_eq_false] at this
    omega

/-- C33: afterwards no other sequence is kept out by a lock of the removed family. -/
theorem C33_unblocks (s : Seq) (seqId : Int) (q : List Req) (locks : List Seq) (x : Seq)
    (h : ∀ l ∈ locks, WithinFamily s l ∨ WithinFamily l x) : isBlocked (removeSequence s seqId q locks).2 x = false := by
  rw [← Bool.not_eq_true, isBlocked_iff]
  rintro ⟨l, hl, hw⟩
  have := ((C33_removes_exactly s seqId q locks).2.2.2.1 l).mp hl
  rcases h l this.1 with h | h
  · exact this.2 h
  · exact hw h

example : ((removeSequence exS2 2 exQ [exS3, exS4, exS1]).1.map (·.reqId), (removeSequence exS2 2 exQ [exS3, exS4, exS1]).2.map Seq.inst) =
    ([0, 3], [4, 1]) := by decide

/-- C99 fails for `kill_sequence` and `stop_sequences`: the first always raises an exception (after the removal), the second does whenever
a sequence is registered. -/
theorem C99_kill_fails (s : Seq) (seqId : Int) (q : List Req) (locks : List Seq) (registered : List Int) :
    (killSequence s seqId q locks).2 = false ∧ (registered ≠ [] → stopSequences registered = false) := by
  refine ⟨rfl, ?_⟩
  intro h
  cases registered with
  | nil => exact absurd rfl h
  | cons a l => rfl

end Verif.Arbiter
