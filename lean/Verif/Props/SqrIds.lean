import Verif.Spec.SqrIds
/-! # C391, C392: sequences that use several sequencers -/
namespace Verif.SqrIds

/-! ## What the calls do to the tables -/

theorem getId_some {s : State} {i q n : Nat} (h : s.ids i q = some n) : getId s i q = (setCur s i n, (n : Int)) := by
  simp [getId, h]

theorem getId_none {s : State} {i q : Nat} (h : s.ids i q = none) : getId s i q = (setCur s i (-1), -1) := by
  simp [getId, h]

@[simp] theorem getId_ids (s : State) (i q : Nat) : (getId s i q).1.ids = s.ids := by unfold getId; split <;> rfl
@[simp] theorem getId_reg (s : State) (i q : Nat) : (getId s i q).1.reg = s.reg := by unfold getId; split <;> rfl
@[simp] theorem getId_g (s : State) (i q : Nat) : (getId s i q).1.g = s.g := by unfold getId; split <;> rfl

/-- Registering where the sequence has an id changes no table. -/
theorem register_old {s : State} {i q n : Nat} (h : s.ids i q = some n) (hn : 0 < n) :
    (register s i q).ids = s.ids ∧ (register s i q).reg = s.reg ∧ (register s i q).g = s.g := by
  have : (getId s i q).2 > 0 := by rw [getId_some h]; exact Int.natCast_pos.2 hn
  simp [register, this]

/-- Registering where it has none uses the next id. -/
theorem register_new {s : State} {i q : Nat} (h : s.ids i q = none) :
    (register s i q).ids = (fun j r => if j = i ∧ r = q then some s.g else s.ids j r) ∧
    (register s i q).reg = (fun r k => if r = q ∧ k = (s.g : Int) then some i else s.reg r k) ∧
    (register s i q).g = s.g + 1 := by
  simp [register, getId_none h, setId, setCur]

/-- All ids are positive, below the counter and belong to one sequence at one sequencer. -/
structure Inv (s : State) : Prop where
  pos : 0 < s.g
  idr : ∀ i q n, s.ids i q = some n → 0 < n ∧ n < s.g
  idu : ∀ i q j r n, s.ids i q = some n → s.ids j r = some n → j = i ∧ r = q
  rgr : ∀ q k j, s.reg q k = some j → 0 < k ∧ k < s.g
  rgu : ∀ q k j r l, s.reg q k = some j → s.reg r k = some l → r = q ∧ l = j
  rid : ∀ i q n r j, s.ids i q = some n → s.reg r n = some j → j = i ∧ r = q

theorem inv_register {s : State} (h : Inv s) (i q : Nat) : Inv (register s i q) := by
  cases hi : s.ids i q with
  | some n =>
    obtain ⟨e1, e2, e3⟩ := register_old hi (h.idr i q n hi).1
    refine ⟨?_, ?_, ?_, ?_, ?_, ?_⟩ <;> (try rw [e1]) <;> (try rw [e2]) <;> (try rw [e3])
    · exact h.pos
    · exact h.idr
    · exact h.idu
    · exact h.rgr
    · exact h.rgu
    · exact h.rid
  | none =>
    obtain ⟨e1, e2, e3⟩ := register_new hi
    have p := h.pos
    refine ⟨?_, ?_, ?_, ?_, ?_, ?_⟩ <;> (try rw [e1]) <;> (try rw [e2]) <;> (try rw [e3])
    · omega
    · intro j r n hn
      simp only at hn
      split at hn
      · cases hn; omega
      · have := h.idr j r n hn; omega
    · intro j r j' r' n h1 h2
      simp only at h1 h2
      split at h1 <;> split at h2
      · grind
      · cases h1; have := h.idr _ _ _ h2; omega
      · cases h2; have := h.idr _ _ _ h1; omega
      · exact h.idu j r j' r' n h1 h2
    · intro r k j hk
      simp only at hk
      split at hk
      · rename_i hc; rw [hc.2]; omega
      · have := h.rgr r k j hk; omega
    · intro r k j r' l h1 h2
      simp only at h1 h2
      split at h1 <;> split at h2
      · grind
      · rename_i hc _; have := h.rgr _ _ _ h2; omega
      · rename_i hc; have := h.rgr _ _ _ h1; omega
      · exact h.rgu r k j r' l h1 h2
    · intro j r n r' j' h1 h2
      simp only at h1 h2
      split at h1 <;> split at h2
      · grind
      · cases h1; have := h.rgr _ _ _ h2; omega
      · rename_i hc; have := h.idr _ _ _ h1; omega
      · exact h.rid j r n r' j' h1 h2

theorem inv_same {s t : State} (h : Inv s) (e1 : t.ids = s.ids) (e2 : t.reg = s.reg) (e3 : t.g = s.g) : Inv t := by
  obtain ⟨a, b, c, d, e, f⟩ := h
  constructor <;> simp only [e1, e2, e3] <;> assumption

theorem inv_fewer {s t : State} (h : Inv s) (e1 : ∀ i q n, t.ids i q = some n → s.ids i q = some n)
    (e2 : ∀ q k j, t.reg q k = some j → s.reg q k = some j) (e3 : t.g = s.g) : Inv t := by
  obtain ⟨a, b, c, d, e, f⟩ := h
  constructor
  · rw [e3]; exact a
  · intro i q n hn; rw [e3]; exact b i q n (e1 _ _ _ hn)
  · intro i q j r n h1 h2; exact c i q j r n (e1 _ _ _ h1) (e1 _ _ _ h2)
  · intro q k j hk; rw [e3]; exact d q k j (e2 _ _ _ hk)
  · intro q k j r l h1 h2; exact e q k j r l (e2 _ _ _ h1) (e2 _ _ _ h2)
  · intro i q n r j h1 h2; exact f i q n r j (e1 _ _ _ h1) (e2 _ _ _ h2)

/-- The state of `start` before it registers. -/
def cleared (s : State) (i : Nat) : State :=
  { setCur s i (-1) with ids := fun j r => if j = i then none else s.ids j r }

theorem start_eq (s : State) (i : Nat) (q : Option Nat) :
    start s i q = match q with | some q => register (cleared s i) i q | none => cleared s i := by
  cases q <;> rfl

theorem inv_cleared {s : State} (h : Inv s) (i : Nat) : Inv (cleared s i) := by
  refine inv_fewer h ?_ (fun _ _ _ => id) rfl
  intro j r n hn
  simp only [cleared] at hn
  split at hn
  · cases hn
  · exact hn

theorem exit_ids (s : State) (i q : Nat) : (exit s i q).ids = s.ids := by simp [exit]
theorem exit_g (s : State) (i q : Nat) : (exit s i q).g = s.g := by simp [exit]
theorem exit_reg (s : State) (i q r : Nat) (k : Int) :
    (exit s i q).reg r k = if r = q ∧ k = (getId s i q).2 then none else s.reg r k := by simp [exit]

theorem inv_step {s : State} (h : Inv s) (o : Op) : Inv (step s o).1 := by
  cases o with
  | start i q =>
    simp only [step, start_eq]
    cases q with
    | none => exact inv_cleared h i
    | some q => exact inv_register (inv_cleared h i) i q
  | register i q => exact inv_register h i q
  | send i q => exact inv_same h (getId_ids s i q) (getId_reg s i q) (getId_g s i q)
  | exit i q =>
    refine inv_fewer h ?_ ?_ (exit_g s i q)
    · intro j r n hn; simpa [step, exit_ids] using hn
    · intro r k j hk
      simp only [step, exit_reg] at hk
      split at hk
      · cases hk
      · exact hk
  | response q n => exact h

theorem inv_run (h : List Op) : Inv (runS step init h) := by
  suffices H : ∀ s, Inv s → Inv (runS step s h) from H init ⟨by decide, by simp [init], by simp [init], by simp [init],
    by simp [init], by simp [init]⟩
  induction h with
  | nil => intro s hs; exact hs
  | cons o h ih => intro s hs; rw [runS_cons]; exact ih _ (inv_step hs o)

/-! ## An id that was given stays with its sequence and its sequencer -/

/-- Id `n` was given to sequence `i` at sequencer `q`. -/
structure Pinned (n i q : Nat) (s : State) : Prop where
  pos : 0 < n
  lt : n < s.g
  ids : ∀ j r, s.ids j r = some n → j = i ∧ r = q
  reg : ∀ r j, s.reg r n = some j → j = i ∧ r = q

theorem pinned_register {n i q : Nat} {s : State} (h : Pinned n i q s) (hv : Inv s) (j r : Nat) : Pinned n i q (register s j r) := by
  cases hi : s.ids j r with
  | some m =>
    obtain ⟨e1, e2, e3⟩ := register_old hi (hv.idr _ _ _ hi).1
    exact ⟨h.pos, by rw [e3]; exact h.lt, by rw [e1]; exact h.ids, by rw [e2]; exact h.reg⟩
  | none =>
    obtain ⟨e1, e2, e3⟩ := register_new hi
    have hl := h.lt
    refine ⟨h.pos, by rw [e3]; omega, ?_, ?_⟩
    · intro j' r' hn
      rw [e1] at hn; simp only at hn
      split at hn
      · cases hn; omega
      · exact h.ids _ _ hn
    · intro r' j' hn
      rw [e2] at hn; simp only at hn
      split at hn
      · rename_i hc; have := Int.ofNat_inj.1 hc.2; omega
      · exact h.reg _ _ hn

theorem pinned_cleared {n i q : Nat} {s : State} (h : Pinned n i q s) (j : Nat) : Pinned n i q (cleared s j) := by
  refine ⟨h.pos, h.lt, ?_, h.reg⟩
  intro j' r hn
  simp only [cleared] at hn
  split at hn
  · cases hn
  · exact h.ids _ _ hn

theorem pinned_step {n i q : Nat} {s : State} (h : Pinned n i q s) (hv : Inv s) (o : Op) : Pinned n i q (step s o).1 := by
  cases o with
  | start j r =>
    simp only [step, start_eq]
    cases r with
    | none => exact pinned_cleared h j
    | some r => exact pinned_register (pinned_cleared h j) (inv_cleared hv j) j r
  | register j r => exact pinned_register h hv j r
  | send j r =>
    exact ⟨h.pos, by simpa [step] using h.lt, by simpa [step] using h.ids, by simpa [step] using h.reg⟩
  | exit j r =>
    refine ⟨h.pos, by simpa [step, exit_g] using h.lt, by simpa [step, exit_ids] using h.ids, ?_⟩
    intro r' j' hn
    simp only [step, exit_reg] at hn
    split at hn
    · cases hn
    · exact h.reg _ _ hn
  | response r m => exact h

theorem pinned_run {n i q : Nat} {s : State} (h : Pinned n i q s) (hv : Inv s) (l : List Op) : Pinned n i q (runS step s l) := by
  induction l generalizing s with
  | nil => exact h
  | cons o l ih => rw [runS_cons]; exact ih (pinned_step h hv o) (inv_step hv o)

theorem pinned_of_id {n i q : Nat} {s : State} (hv : Inv s) (h : s.ids i q = some n) : Pinned n i q s :=
  ⟨(hv.idr _ _ _ h).1, (hv.idr _ _ _ h).2, fun _ _ k => hv.idu _ _ _ _ _ h k, fun _ _ k => hv.rid _ _ _ _ _ h k⟩

theorem sentId_eq (h : List Op) (i q : Nat) : sentId h i q = (getId (runS step init h) i q).2 := rfl

theorem sent_cases (h : List Op) (i q : Nat) :
    (sentId h i q = -1 ∧ (runS step init h).ids i q = none) ∨
    ∃ n : Nat, 0 < n ∧ sentId h i q = (n : Int) ∧ (runS step init h).ids i q = some n := by
  rw [sentId_eq]
  cases hi : (runS step init h).ids i q with
  | none => exact .inl ⟨by rw [getId_none hi], rfl⟩
  | some n => exact .inr ⟨n, ((inv_run h).idr _ _ _ hi).1, by rw [getId_some hi], rfl⟩

/-- C391. With any number of sequences and sequencers, after any history: a response with the id of an item that sequence `i`
sent through sequencer `q` is never given to another sequence, nor at another sequencer. -/
theorem C391_never_another (h h' : List Op) (i q r j : Nat) (ha : answer (h ++ h') r (sentId h i q) = .to j) : j = i ∧ r = q := by
  rcases sent_cases h i q with ⟨e, _⟩ | ⟨n, hn, e, hi⟩
  · rw [e] at ha; simp [answer, step, response] at ha
  · rw [e] at ha
    have p := pinned_run (pinned_of_id (inv_run h) hi) (inv_run h) h'
    rw [← runS_append] at p
    simp only [answer, step, response] at ha
    rw [if_neg (by omega)] at ha
    split at ha
    · rename_i k hk
      cases ha
      exact p.reg _ _ hk
    · cases ha

/-! ## The status read off the history is what the tables say -/

/-- What the tables hold in each status. -/
def Holds (s : State) (i q : Nat) : Status → Prop
  | .fresh => s.ids i q = none
  | .live => ∃ n, s.ids i q = some n ∧ s.reg q n = some i
  | .ended => ∃ n, s.ids i q = some n ∧ s.reg q n = none

theorem holds_cleared (s : State) (i q j : Nat) (st : Status) (h : Holds s i q st) :
    Holds (cleared s j) i q (if j = i then .fresh else st) := by
  by_cases e : j = i
  · rw [if_pos e]
    simp [Holds, cleared, e]
  · rw [if_neg e]
    have e1 : (cleared s j).ids i q = s.ids i q := by simp [cleared, Ne.symm e]
    have e2 : (cleared s j).reg = s.reg := rfl
    cases st <;> simpa [Holds, e1, e2] using h

theorem holds_register {s : State} (hv : Inv s) (i q j r : Nat) (st : Status) (h : Holds s i q st) :
    Holds (register s j r) i q (if j = i ∧ r = q then (if st = .fresh then .live else st) else st) := by
  cases hi : s.ids j r with
  | some m =>
    obtain ⟨e1, e2, _⟩ := register_old hi (hv.idr _ _ _ hi).1
    have : (if j = i ∧ r = q then (if st = .fresh then .live else st) else st) = st := by
      by_cases e : j = i ∧ r = q
      · rw [if_pos e]
        cases st with
        | fresh => obtain ⟨rfl, rfl⟩ := e; rw [Holds, hi] at h; cases h
        | live => rfl
        | ended => rfl
      · rw [if_neg e]
    rw [this]
    cases st <;> simpa [Holds, e1, e2] using h
  | none =>
    obtain ⟨e1, e2, _⟩ := register_new hi
    by_cases e : j = i ∧ r = q
    · obtain ⟨rfl, rfl⟩ := e
      have : st = .fresh := by
        cases st with
        | fresh => rfl
        | live => obtain ⟨n, h1, _⟩ := h; rw [hi] at h1; cases h1
        | ended => obtain ⟨n, h1, _⟩ := h; rw [hi] at h1; cases h1
      subst this
      simp [Holds, e1, e2]
    · rw [if_neg e]
      have e' : ¬ (i = j ∧ q = r) := fun k => e ⟨k.1.symm, k.2.symm⟩
      have hn : ∀ n, s.ids i q = some n → (register s j r).reg q n = s.reg q n := by
        intro n hn
        rw [e2]
        have := hv.idr _ _ _ hn
        simp only
        rw [if_neg]
        rintro ⟨_, k⟩
        have := Int.ofNat_inj.1 k
        omega
      cases st with
      | fresh => simpa [Holds, e1, e'] using h
      | live =>
        obtain ⟨n, h1, h2⟩ := h
        exact ⟨n, by simp [e1, e', h1], by rw [hn n h1]; exact h2⟩
      | ended =>
        obtain ⟨n, h1, h2⟩ := h
        exact ⟨n, by simp [e1, e', h1], by rw [hn n h1]; exact h2⟩

theorem holds_exit {s : State} (hv : Inv s) (i q j r : Nat) (st : Status) (h : Holds s i q st) :
    Holds (exit s j r) i q (if j = i ∧ r = q then (if st = .live then .ended else st) else st) := by
  by_cases e : j = i ∧ r = q
  · obtain ⟨rfl, rfl⟩ := e
    rw [if_pos ⟨rfl, rfl⟩]
    cases st with
    | fresh => simpa [Holds, exit_ids] using h
    | live =>
      obtain ⟨n, h1, _⟩ := h
      exact ⟨n, by rw [exit_ids]; exact h1, by rw [exit_reg, getId_some h1]; simp⟩
    | ended =>
      obtain ⟨n, h1, h2⟩ := h
      refine ⟨n, by rw [exit_ids]; exact h1, by rw [exit_reg, getId_some h1]; simp⟩
  · rw [if_neg e]
    cases st with
    | fresh => simpa [Holds, exit_ids] using h
    | live =>
      obtain ⟨n, h1, h2⟩ := h
      refine ⟨n, by rw [exit_ids]; exact h1, ?_⟩
      rw [exit_reg, if_neg, h2]
      rintro ⟨rfl, k⟩
      cases hj : s.ids j q with
      | none => rw [getId_none hj] at k; simp only at k; omega
      | some m =>
        rw [getId_some hj] at k
        have : n = m := Int.ofNat_inj.1 k
        subst this
        exact e ⟨(hv.idu _ _ _ _ _ h1 hj).1, rfl⟩
    | ended =>
      obtain ⟨n, h1, h2⟩ := h
      refine ⟨n, by rw [exit_ids]; exact h1, ?_⟩
      rw [exit_reg]
      split
      · rfl
      · exact h2

theorem holds_step {s : State} (hv : Inv s) (i q : Nat) (st : Status) (h : Holds s i q st) (o : Op) :
    Holds (step s o).1 i q (next i q st o) := by
  cases o with
  | start j r =>
    simp only [step, start_eq, next]
    have hc := holds_cleared s i q j st h
    cases r with
    | none =>
      by_cases e : j = i
      · simpa [e] using hc
      · simpa [e] using hc
    | some r =>
      have := holds_register (inv_cleared hv j) i q j r _ hc
      by_cases e : j = i
      · by_cases e' : r = q
        · simpa [e, e'] using this
        · simpa [e, e'] using this
      · simpa [e] using this
  | register j r => exact holds_register hv i q j r st h
  | send j r => cases st <;> simpa [step, next, Holds] using h
  | exit j r => exact holds_exit hv i q j r st h
  | response r n => exact h

theorem holds_run (h : List Op) (i q : Nat) : Holds (runS step init h) i q (status i q h) := by
  suffices H : ∀ s st, Inv s → Holds s i q st → Holds (runS step s h) i q (h.foldl (next i q) st) from
    H init .fresh (inv_run []) rfl
  induction h with
  | nil => intro s st _ hs; exact hs
  | cons o h ih => intro s st hv hs; rw [runS_cons, List.foldl_cons]; exact ih _ _ (inv_step hv o) (holds_step hv i q st hs o)

/-- The table entry of an id stays until its sequence ends at that sequencer. -/
theorem reg_stays {n i q : Nat} {s : State} (hv : Inv s) (p : Pinned n i q s) (hr : s.reg q n = some i) (l : List Op)
    (hl : .exit i q ∉ l) : (runS step s l).reg q n = some i := by
  induction l generalizing s with
  | nil => exact hr
  | cons o l ih =>
    rw [runS_cons]
    refine ih (inv_step hv o) (pinned_step p hv o) ?_ (fun k => hl (by simp [k]))
    have hreg : ∀ t : State, Inv t → Pinned n i q t → t.reg q n = some i → ∀ j r, (register t j r).reg q n = some i := by
      intro t ht pt hrt j r
      cases hi : t.ids j r with
      | some m => rw [(register_old hi (ht.idr _ _ _ hi).1).2.1]; exact hrt
      | none =>
        rw [(register_new hi).2.1]
        simp only
        rw [if_neg, hrt]
        rintro ⟨_, k⟩
        have := Int.ofNat_inj.1 k
        have := pt.lt
        omega
    cases o with
    | start j r =>
      simp only [step, start_eq]
      cases r with
      | none => exact hr
      | some r => exact hreg _ (inv_cleared hv j) (pinned_cleared p j) hr j r
    | register j r => exact hreg s hv p hr j r
    | send j r => simpa [step] using hr
    | exit j r =>
      simp only [step, exit_reg]
      rw [if_neg, hr]
      rintro ⟨rfl, k⟩
      have hp := p.pos
      cases hj : s.ids j q with
      | none => rw [getId_none hj] at k; simp only at k; omega
      | some m =>
        rw [getId_some hj] at k
        have : n = m := Int.ofNat_inj.1 k
        subst this
        have e := (p.ids _ _ hj).1
        subst e
        exact hl (by simp)
    | response r m => exact hr

/-- C391. While sequence `i` is in use at sequencer `q` (started on it, or granted by it since its last start, and not ended
there), the items it sends through `q` carry an id with which responses at `q` are given to `i`, until `i` ends at `q`:
whatever other sequencers `i` uses at the same time, whatever other sequences do, and also if `i` is started again. -/
theorem C391_routed (h : List Op) (i q : Nat) (hs : status i q h = .live) (h' : List Op) (hx : .exit i q ∉ h') :
    answer (h ++ h') q (sentId h i q) = .to i := by
  have H := holds_run h i q
  rw [hs] at H
  obtain ⟨n, h1, h2⟩ := H
  have p := pinned_of_id (inv_run h) h1
  have k := reg_stays (inv_run h) p h2 h' hx
  have hp := p.pos
  rw [sentId_eq, getId_some h1]
  simp only [answer, step, response, runS_append]
  rw [if_neg (by omega), k]

/-- C391. A sequence that does not use the sequencer sends items without an id; a response to them is fatal. -/
theorem C391_unknown (h : List Op) (i q : Nat) (hs : status i q h = .fresh) (h' : List Op) (r : Nat) :
    sentId h i q = -1 ∧ answer (h ++ h') r (sentId h i q) = .fatal := by
  have H := holds_run h i q
  rw [hs] at H
  have e : sentId h i q = -1 := by rw [sentId_eq, getId_none H]
  exact ⟨e, by rw [e]; rfl⟩

/-- A missing entry of an id that was given stays missing: ids are not used again. -/
theorem reg_gone {n i q : Nat} {s : State} (hv : Inv s) (p : Pinned n i q s) (hr : s.reg q n = none) (l : List Op) :
    (runS step s l).reg q n = none := by
  induction l generalizing s with
  | nil => exact hr
  | cons o l ih =>
    rw [runS_cons]
    refine ih (inv_step hv o) (pinned_step p hv o) ?_
    have hreg : ∀ t : State, Inv t → Pinned n i q t → t.reg q n = none → ∀ j r, (register t j r).reg q n = none := by
      intro t ht pt hrt j r
      cases hi : t.ids j r with
      | some m => rw [(register_old hi (ht.idr _ _ _ hi).1).2.1]; exact hrt
      | none =>
        rw [(register_new hi).2.1]
        simp only
        rw [if_neg, hrt]
        rintro ⟨_, k⟩
        have := Int.ofNat_inj.1 k
        have := pt.lt
        omega
    cases o with
    | start j r =>
      simp only [step, start_eq]
      cases r with
      | none => exact hr
      | some r => exact hreg _ (inv_cleared hv j) (pinned_cleared p j) hr j r
    | register j r => exact hreg s hv p hr j r
    | send j r => simpa [step] using hr
    | exit j r =>
      simp only [step, exit_reg]
      split
      · rfl
      · exact hr
    | response r m => exact hr

/-- C392, the part that holds: at the sequencer where a sequence ended, responses to the items it sent through it (in that run)
are reported and given to nobody, for ever, also when the sequence is started again. The same holds for items it sends through
it after its end. Missing: the other sequencers it used (`C392_other_sequencer_fails`). -/
theorem C392_own_sequencer_partial (h : List Op) (i q : Nat) (hs : status i q h = .live) (h' : List Op)
    (hn : ∀ o ∈ h', ∀ r, o ≠ .start i r) (l : List Op) :
    answer (h ++ h' ++ [.exit i q] ++ l) q (sentId h i q) = .lost ∧
    sentId (h ++ h' ++ [.exit i q]) i q = sentId h i q := by
  have H := holds_run h i q
  rw [hs] at H
  obtain ⟨n, h1, _⟩ := H
  have keep : ∀ (m : List Op) (s : State), Inv s → s.ids i q = some n → (∀ o ∈ m, ∀ r, o ≠ .start i r) →
      (runS step s m).ids i q = some n := by
    intro m
    induction m with
    | nil => intro s _ hs _; exact hs
    | cons o m ih =>
      intro s hv hs hm
      rw [runS_cons]
      refine ih _ (inv_step hv o) ?_ (fun o ho => hm o (by simp [ho]))
      have hreg : ∀ t : State, Inv t → t.ids i q = some n → ∀ j r, (register t j r).ids i q = some n := by
        intro t ht hti j r
        cases hi : t.ids j r with
        | some m => rw [(register_old hi (ht.idr _ _ _ hi).1).1]; exact hti
        | none =>
          rw [(register_new hi).1]
          simp only
          rw [if_neg, hti]
          rintro ⟨rfl, rfl⟩
          rw [hi] at hti; cases hti
      cases o with
      | start j r =>
        have hj : j ≠ i := by
          intro e; subst e; exact hm _ (by simp) r rfl
        have hc : (cleared s j).ids i q = some n := by simp [cleared, Ne.symm hj, hs]
        simp only [step, start_eq]
        cases r with
        | none => exact hc
        | some r => exact hreg _ (inv_cleared hv j) hc j r
      | register j r => exact hreg s hv hs j r
      | send j r => simpa [step] using hs
      | exit j r => simpa [step, exit_ids] using hs
      | response r m => exact hs
  have k1 := keep h' _ (inv_run h) h1 hn
  rw [← runS_append] at k1
  have hv1 := inv_run (h ++ h')
  have k2 : (runS step init (h ++ h' ++ [.exit i q])).ids i q = some n := by
    rw [runS_append]; simpa [step, exit_ids] using k1
  have k3 : (runS step init (h ++ h' ++ [.exit i q])).reg q n = none := by
    rw [runS_append]
    simp [step, exit_reg, getId_some k1]
  have hv2 := inv_run (h ++ h' ++ [.exit i q])
  have p := pinned_of_id hv2 k2
  have k4 := reg_gone hv2 p k3 l
  have hp := p.pos
  refine ⟨?_, ?_⟩
  · rw [sentId_eq, getId_some h1]
    simp only [answer, step, response]
    rw [runS_append, if_neg (by omega), k4]
  · rw [sentId_eq, sentId_eq, getId_some k2, getId_some h1]

/-- C392 fails: whatever happened before, a sequence that is started on `q`, sends an item through another sequencer `r` as
well and ends, stays in the table of `r` for ever: a response at `r` after its end is still given to it, also when it has been
started again and is in another run. -/
theorem C392_other_sequencer_fails (h : List Op) (i q r : Nat) (hq : r ≠ q) (l : List Op) (hl : .exit i r ∉ l) :
    let sent := h ++ [.start i (some q), .register i r]
    answer (sent ++ ([.send i r, .exit i q] ++ l)) r (sentId sent i r) = .to i := by
  intro sent
  refine C391_routed sent i r ?_ _ ?_
  · have : q ≠ r := Ne.symm hq
    simp [sent, status, next, this]
  · simp only [List.mem_append, List.mem_cons, List.not_mem_nil, or_false, not_or]
    exact ⟨⟨by simp, by simp [hq]⟩, hl⟩

-- Non-vacuity: sequence 1 started on sequencer 10, also using 11; sequence 2 on 11.
example : (run step init [.start 1 (some 10), .start 2 (some 11), .register 1 11, .send 1 10, .send 1 11, .send 2 11,
    .response 10 1, .response 11 3, .response 11 2, .response 10 3, .exit 1 10, .response 10 1, .response 11 3, .response 10 (-1)]).2 =
    [.unit, .unit, .unit, .sent 1, .sent 3, .sent 2, .to 1, .to 1, .to 2, .lost, .unit, .lost, .to 1, .fatal] := by decide
example : status 1 11 [.start 1 (some 10), .start 2 (some 11), .register 1 11] = .live := by decide
example : status 1 10 [.start 1 (some 10), .exit 1 10, .register 1 10] = .ended := by decide
example : status 1 11 [.register 1 11, .start 1 (some 10)] = .fresh := by decide

end Verif.SqrIds
