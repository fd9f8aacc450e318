import Verif.Spec.Arbiter
/-! # Lemmas about arbitration -/
namespace Verif.Arbiter

theorem isChild_iff (a s : Seq) : isChild a s = true ↔ ∃ b, Ancestor b s ∧ Same a b := by
  induction s with
  | root i =>
    simp only [isChild, Bool.false_eq_true, false_iff]
    rintro ⟨b, hb, -⟩
    cases hb with
    | parent hp => simp [Seq.parent] at hp
    | up hp _ => simp [Seq.parent] at hp
  | child i p ih =>
    rw [isChild]
    by_cases h : p.inst = a.inst
    · rw [if_pos h]
      simp only [true_iff]
      exact ⟨p, .parent rfl, h.symm⟩
    · rw [if_neg h, ih]
      constructor
      · rintro ⟨b, hb, hs⟩; exact ⟨b, .up rfl hb, hs⟩
      · rintro ⟨b, hb, hs⟩
        cases hb with
        | parent hp =>
          simp only [Seq.parent, Option.some.injEq] at hp
          subst hp
          exact absurd hs.symm h
        | up hp hb =>
          simp only [Seq.parent, Option.some.injEq] at hp
          subst hp
          exact ⟨b, hb, hs⟩

theorem isBlocked_iff (locks : List Seq) (s : Seq) : isBlocked locks s = true ↔ LockedOut locks s := by
  induction locks with
  | nil => simp [isBlocked, LockedOut]
  | cons l ls ih =>
    have hl : (l.inst ≠ s.inst ∧ isChild l s = false) ↔ ¬ WithinFamily l s := by
      rw [WithinFamily, ← isChild_iff, not_or]
      simp [Same]
    rw [isBlocked]
    by_cases h : l.inst ≠ s.inst ∧ isChild l s = false
    · rw [if_pos h]
      simp only [true_iff]
      exact ⟨l, by simp, hl.mp h⟩
    · rw [if_neg h, ih]
      simp only [LockedOut, List.mem_cons, exists_eq_or_imp]
      rw [← hl]
      simp [h]

theorem eligible_iff (locks : List Seq) (rel : Seq → Bool) (r : Req) : eligible locks rel r = true ↔ Servable locks rel r := by
  rw [Servable, ← isBlocked_iff]
  simp [eligible, and_assoc]

theorem leadingLocks_iff (q : List Req) : grantQueuedLocks q = true ↔ NoLeadingLock q := by
  cases q with
  | nil => simp [grantQueuedLocks, leadingLocks, NoLeadingLock]
  | cons r rs =>
    simp only [grantQueuedLocks, leadingLocks, NoLeadingLock]
    by_cases h : r.kind = .lock <;> simp [h]

/-- One round of the scan. -/
theorem scan_cons (mode : Mode) (locks : List Seq) (rel : Seq → Bool) (i : Nat) (avail : List Nat) (r : Req) (rs : List Req) :
    scan mode locks rel i avail (r :: rs) =
      if eligible locks rel r = true then (if mode = .fifo then .inl i else scan mode locks rel (i + 1) (avail ++ [i]) rs)
      else scan mode locks rel (i + 1) avail rs := by
  rw [scan, eligible]
  cases hk : decide (r.kind = .req) <;> cases hb : isBlocked locks r.seq <;> cases hr : rel r.seq <;> simp_all

/-- Indices of the eligible requests, the first one having index `i`. -/
def eligIdx (locks : List Seq) (rel : Seq → Bool) (i : Nat) : List Req → List Nat
  | [] => []
  | r :: rs => if eligible locks rel r = true then i :: eligIdx locks rel (i + 1) rs else eligIdx locks rel (i + 1) rs

theorem mem_eligIdx (locks : List Seq) (rel : Seq → Bool) (i n : Nat) (q : List Req) :
    n ∈ eligIdx locks rel i q ↔ ∃ k r, n = i + k ∧ q[k]? = some r ∧ eligible locks rel r = true := by
  induction q generalizing i with
  | nil => simp [eligIdx]
  | cons a q ih =>
    have key : (∃ k r, n = i + 1 + k ∧ q[k]? = some r ∧ eligible locks rel r = true) ↔
        ∃ k r, n = i + (k + 1) ∧ (a :: q)[k + 1]? = some r ∧ eligible locks rel r = true := by
      constructor
      · rintro ⟨k, r, rfl, h⟩; exact ⟨k, r, by omega, by simpa using h⟩
      · rintro ⟨k, r, rfl, h⟩; exact ⟨k, r, by omega, by simpa using h⟩
    rw [eligIdx]
    by_cases h : eligible locks rel a = true
    · rw [if_pos h, List.mem_cons, ih, key]
      constructor
      · rintro (rfl | ⟨k, r, h⟩)
        · exact ⟨0, a, by simp, by simp, h⟩
        · exact ⟨k + 1, r, h⟩
      · rintro ⟨k, r, hk, hr⟩
        cases k with
        | zero => exact Or.inl (by simpa using hk)
        | succ k => exact Or.inr ⟨k, r, hk, hr⟩
    · rw [if_neg h, ih, key]
      constructor
      · rintro ⟨k, r, h⟩; exact ⟨k + 1, r, h⟩
      · rintro ⟨k, r, hk, hr, he⟩
        cases k with
        | zero => simp at hr; subst hr; exact absurd he h
        | succ k => exact ⟨k, r, hk, hr, he⟩

theorem scan_other {mode : Mode} (hm : mode ≠ .fifo) (locks : List Seq) (rel : Seq → Bool) (i : Nat) (avail : List Nat)
    (q : List Req) : scan mode locks rel i avail q = .inr (avail ++ eligIdx locks rel i q) := by
  induction q generalizing i avail with
  | nil => simp [scan, eligIdx]
  | cons r q ih =>
    rw [scan_cons, eligIdx]
    by_cases h : eligible locks rel r = true
    · rw [if_pos h, if_neg hm, if_pos h, ih]; simp
    · rw [if_neg h, if_neg h, ih]

theorem scan_fifo (locks : List Seq) (rel : Seq → Bool) (i : Nat) (avail : List Nat) (q : List Req) :
    scan .fifo locks rel i avail q = match eligIdx locks rel i q with
      | n :: _ => .inl n
      | [] => .inr avail := by
  induction q generalizing i with
  | nil => simp [scan, eligIdx]
  | cons r q ih =>
    rw [scan_cons, eligIdx]
    by_cases h : eligible locks rel r = true
    · rw [if_pos h, if_pos rfl, if_pos h]
    · rw [if_neg h, if_neg h, ih]

/-- The indices are ascending. -/
theorem eligIdx_sorted (locks : List Seq) (rel : Seq → Bool) (i : Nat) (q : List Req) :
    (eligIdx locks rel i q).Pairwise (· < ·) := by
  induction q generalizing i with
  | nil => simp [eligIdx]
  | cons r q ih =>
    rw [eligIdx]
    split
    · rw [List.pairwise_cons]
      refine ⟨?_, ih _⟩
      intro n hn
      obtain ⟨k, _, rfl, _⟩ := (mem_eligIdx ..).mp hn
      omega
    · exact ih _

/-- The second look at the locks finds nothing new. -/
theorem recheck_id (locks : List Seq) (q : List Req) (avail is : List Nat) (hi : ∀ i ∈ is, i < avail.length)
    (h : ∀ n ∈ avail, ∀ r, q[n]? = some r → isBlocked locks r.seq = false) : recheck locks q is avail = avail := by
  induction is with
  | nil => rfl
  | cons i is ih =>
    have hlt := hi i (by simp)
    have ih := ih fun j hj => hi j (by simp [hj])
    rw [recheck]
    have hmem : avail.getD i 0 ∈ avail := by
      rw [List.getD_eq_getElem?_getD, List.getElem?_eq_getElem hlt]
      exact List.getElem_mem hlt
    cases hq : q[avail.getD i 0]? with
    | none => exact ih
    | some r => simp only [h _ hmem r hq, Bool.false_eq_true, if_false, ih]

theorem eligIdx_not_blocked (locks : List Seq) (rel : Seq → Bool) (q : List Req) :
    ∀ n ∈ eligIdx locks rel 0 q, ∀ r, q[n]? = some r → isBlocked locks r.seq = false := by
  intro n hn r hr
  obtain ⟨k, r', hk, hr', he⟩ := (mem_eligIdx ..).mp hn
  have : k = n := by omega
  subst this
  rw [hr] at hr'
  obtain rfl := Option.some.inj hr'
  simp only [eligible, Bool.and_eq_true, Bool.not_eq_true'] at he
  exact he.1.2

/-- What is chosen, by the number of eligible requests. -/
theorem choose_eq (mode : Mode) (locks : List Seq) (rel : Seq → Bool) (rnd : Nat → Nat) (q : List Req) (hq : NoLeadingLock q) :
    choose mode locks rel rnd q = match eligIdx locks rel 0 q with
      | [] => .sel (-1)
      | n :: ns => if mode = .fifo ∨ ns = [] then .sel n
          else if mode = .random then .sel ((n :: ns).getD (rnd ns.length) 0) else .fatal := by
  have hg : ¬ grantQueuedLocks q = false := by rw [(leadingLocks_iff q).mpr hq]; simp
  rw [choose, if_neg hg]
  by_cases hm : mode = .fifo
  · subst hm
    rw [scan_fifo]
    cases eligIdx locks rel 0 q <;> simp [pick]
  · rw [scan_other hm]
    have hb := eligIdx_not_blocked locks rel q
    generalize eligIdx locks rel 0 q = a at hb
    simp only [List.nil_append, pick, if_neg hm]
    rw [recheck_id locks q a (range a.length) (by simp [range]) hb]
    cases a with
    | nil => simp
    | cons n ns =>
      cases ns with
      | nil => simp
      | cons m ms => simp [hm]

theorem choose_raised (mode : Mode) (locks : List Seq) (rel : Seq → Bool) (rnd : Nat → Nat) (q : List Req) (hq : ¬ NoLeadingLock q) :
    choose mode locks rel rnd q = .raised := by
  have hg : grantQueuedLocks q = false := by
    cases h : grantQueuedLocks q
    · rfl
    · exact absurd ((leadingLocks_iff q).mp h) hq
  rw [choose, if_pos hg]

theorem removeLoop_eq {α} (del : α → Bool) (q : List α) : removeLoop del q = q.filter fun r => !del r := by
  induction q with
  | nil => rfl
  | cons a q ih =>
    rw [removeLoop, List.filter_cons]
    cases h : del a <;> simp [ih]

theorem lockMatches_iff (s l : Seq) : lockMatches s l = true ↔ WithinFamily s l := by
  rw [lockMatches, Bool.or_eq_true, isChild_iff, WithinFamily, Same, beq_iff_eq]
  exact or_congr_left ⟨Eq.symm, Eq.symm⟩

end Verif.Arbiter
