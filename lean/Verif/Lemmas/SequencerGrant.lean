import Verif.Lemmas.SequencerAcct
/-! # Lemmas about the sequencer: grants are not lost, what the driver is given -/
namespace Verif.Sequencer
open Arbiter

/-- A waiting coroutine has seen an earlier size of the arbitration; if its request has been selected it has been woken since. -/
structure Live (s : State) : Prop where
  le : ∀ t sq r n w, s.tasks t = .grant sq r n w → n ≤ s.lockArb
  sel : ∀ t sq r n w, s.tasks t = .grant sq r n w → s.completed.any (·.1 == r) = true → w = true ∧ n < s.lockArb

theorem live_init : Live {} := ⟨by simp, by simp⟩

/-- Fewer selected requests, more events: still fine. -/
theorem Live.congr {s s' : State} (h : Live s) (ht : ∀ t sq r n w, s'.tasks t = .grant sq r n w → ∃ w', s.tasks t = .grant sq r n w' ∧ (w' = true → w = true))
    (hc : ∀ r, s'.completed.any (·.1 == r) = true → s.completed.any (·.1 == r) = true) (hl : s.lockArb ≤ s'.lockArb) : Live s' := by
  refine ⟨?_, ?_⟩
  · intro t sq r n w hw
    obtain ⟨w', hw', _⟩ := ht t sq r n w hw
    have := h.le t sq r n w' hw'
    omega
  · intro t sq r n w hw hr
    obtain ⟨w', hw', himp⟩ := ht t sq r n w hw
    obtain ⟨h1, h2⟩ := h.sel t sq r n w' hw' (hc r hr)
    exact ⟨himp h1, by omega⟩

theorem wakeTask_grant' {k : Task} {sq : Seq} {r n : Nat} {w : Bool} (h : wakeTask k = .grant sq r n w) :
    w = true ∧ ∃ w', k = .grant sq r n w' := by
  cases k with
  | idle => cases h
  | grant a b c d =>
    simp only [wakeTask, Task.grant.injEq] at h
    obtain ⟨rfl, rfl, rfl, h⟩ := h
    exact ⟨h.symm, _, rfl⟩
  | done a b => cases h

theorem Live.event {s : State} (h : Live s) : Live (setEvent s) :=
  h.congr (fun t sq r n w hw => by
    obtain ⟨hw', w', hk⟩ := wakeTask_grant' hw
    exact ⟨w', hk, fun _ => hw'⟩) (fun _ hr => hr) (Nat.le_refl _)

/-- The step that selects a request. -/
theorem Live.grantReq {s : State} (h : Live s) (n : Nat) : Live (grantReq s n).1 := by
  unfold Sequencer.grantReq
  split
  · exact h
  · refine ⟨?_, ?_⟩
    · intro t sq r m w hw
      obtain ⟨hw', w', hk⟩ := wakeTask_grant' hw
      have := h.le t sq r m w' hk
      show m ≤ s.lockArb + 1
      omega
    · intro t sq r m w hw _
      obtain ⟨hw', w', hk⟩ := wakeTask_grant' hw
      have := h.le t sq r m w' hk
      exact ⟨hw', by show m < s.lockArb + 1; omega⟩

theorem Live.same {s s' : State} (h : Live s) (h1 : s'.tasks = s.tasks) (h2 : s'.completed = s.completed) (h3 : s'.lockArb = s.lockArb) :
    Live s' :=
  h.congr (fun t sq r n w hw => ⟨w, by rw [← h1]; exact hw, id⟩) (fun r hr => by rw [← h2]; exact hr) (by omega)

theorem Live.deliver {s : State} (h : Live s) (c : Call) (x : Option Item) : Live (deliver s c x).1 := by
  unfold Sequencer.deliver
  cases c with
  | getNext => exact h.same rfl rfl rfl
  | peek => exact h.same rfl rfl rfl
  | get =>
    simp only
    split
    · exact h.same rfl rfl rfl
    · split <;> exact h.same rfl rfl rfl

theorem Live.afterSelect {s : State} (h : Live s) (c : Call) : Live (afterSelect s c).1 := by
  have hf : Live (setFlags s c) := by cases c <;> exact h.same rfl rfl rfl
  unfold Sequencer.afterSelect
  split
  · exact hf.deliver c _
  · exact hf.same rfl rfl rfl

theorem Live.grantLoop {s : State} (h : Live s) (t : Nat) (sq : Seq) (r : Nat) : Live (grantLoop s t sq r).1 := by
  unfold Sequencer.grantLoop
  by_cases hc : s.completed.any (·.1 == r) = true
  · rw [if_pos hc]
    refine h.congr ?_ ?_ (Nat.le_refl _)
    · intro u sq' r' n w hw
      simp only [upd] at hw
      split at hw
      · cases hw
      · exact ⟨w, hw, id⟩
    · intro r' hr'
      rw [List.any_eq_true] at hr' ⊢
      obtain ⟨p, hp, he⟩ := hr'
      exact ⟨p, (List.mem_filter.mp hp).1, he⟩
  · rw [if_neg hc]
    refine ⟨?_, ?_⟩
    · intro u sq' r' n w hw
      simp only [upd] at hw
      split at hw
      · simp only [Task.grant.injEq] at hw
        obtain ⟨_, _, rfl, _⟩ := hw
        exact Nat.le_refl _
      · exact h.le u sq' r' n w hw
    · intro u sq' r' n w hw hr'
      simp only [upd] at hw
      split at hw
      · simp only [Task.grant.injEq] at hw
        obtain ⟨_, rfl, _, _⟩ := hw
        exact absurd hr' hc
      · exact h.sel u sq' r' n w hw hr'

theorem Live.setTask {s : State} (h : Live s) (t : Nat) (k : Task) (b : Bool) (x : Int)
    (hk : ∀ sq r n w, k = .grant sq r n w → n ≤ s.lockArb ∧ (s.completed.any (·.1 == r) = true → w = true ∧ n < s.lockArb)) :
    Live { s with fired := b, tasks := upd s.tasks t k, waitSeq := x } := by
  refine ⟨?_, ?_⟩
  · intro u sq' r' n w hw
    simp only [upd] at hw
    split at hw
    · exact (hk _ _ _ _ hw).1
    · exact h.le u sq' r' n w hw
  · intro u sq' r' n w hw hr'
    simp only [upd] at hw
    split at hw
    · exact (hk _ _ _ _ hw).2 hr'
    · exact h.sel u sq' r' n w hw hr'

theorem Live.send {s : State} (h : Live s) (i x : Nat) (tr : Int) : Live (sendRequest s i x tr).1 := by
  rcases sendRequest_cases s i x tr with ⟨_, e⟩ | ⟨_, _, e⟩ | ⟨_, _, r, b, e, hr⟩ <;> rw [e]
  · exact h
  · exact h.same rfl rfl rfl
  · exact h.same rfl rfl rfl

theorem register_live (s : State) (i : Nat) : (register s i).tasks = s.tasks ∧ (register s i).completed = s.completed ∧
    (register s i).lockArb = s.lockArb := by
  unfold register; split <;> exact ⟨rfl, rfl, rfl⟩

theorem Live.drvStep {s : State} (h : Live s) (mode : Mode) (rel : Seq → Bool) (rnd : Nat → Nat) : Live (drvStep mode rel rnd s).1 := by
  unfold Sequencer.drvStep
  split
  · exact h
  · split
    · exact h.same rfl rfl rfl
    · exact h.same rfl rfl rfl
    next c _ _ i _ =>
      by_cases hi : i = -1
      · rw [if_pos hi]
        unfold waitAvail
        have hs : Live { s with arb := s.lockArb } := h.same rfl rfl rfl
        simp only
        split
        · exact hs.event.same rfl rfl rfl
        · exact hs.event.same rfl rfl rfl
      · rw [if_neg hi]; exact (h.grantReq i.toNat).afterSelect c
  · split <;> exact h.same rfl rfl rfl
  · exact h
  · exact h.deliver _ _
  · exact h
  · split
    · exact h.same rfl rfl rfl
    · exact h.same rfl rfl rfl
    next i _ =>
      by_cases hi : i = -1
      · rw [if_pos hi]; exact h.same rfl rfl rfl
      · rw [if_neg hi]; exact (h.grantReq i.toNat).same rfl rfl rfl
  · split <;> exact h.same rfl rfl rfl

theorem Live.drvCall {s : State} (h : Live s) (c : Call) : Live (drvCall s c).1 := by
  unfold Sequencer.drvCall
  simp only
  split
  · exact h.same rfl rfl rfl
  · exact h.afterSelect c

theorem Live.step {mode : Mode} {rel : Seq → Bool} {rnd : Nat → Nat} {s : State} (h : Live s) (op : Op) :
    Live (step mode rel rnd s op).1 := by
  cases op with
  | start sq => simp only [Sequencer.step]; rw [startSeq_eq]; exact h.same rfl rfl rfl
  | startItem t sq prio lock =>
    simp only [Sequencer.step]
    split
    · unfold waitForGrant
      have h1 : Live (pushReqs (register s sq.inst) sq prio lock) := by
        obtain ⟨e1, e2, e3⟩ := register_live s sq.inst
        cases lock <;> exact h.same e1 e2 e3
      have h2 : Live { pushReqs (register s sq.inst) sq prio lock with lockArb := (pushReqs (register s sq.inst) sq prio lock).lockArb + 1 } :=
        h1.congr (fun t sq r n w hw => ⟨w, hw, id⟩) (fun _ hr => hr) (Nat.le_succ _)
      exact h2.event.grantLoop t sq _
    · exact h
  | send sq x tr => exact h.send _ _ _
  | finishItem t sq x tr =>
    simp only [Sequencer.step]
    split
    · have h1 := h.send sq.inst x tr
      by_cases hr : (sendRequest s sq.inst x tr).2.2 = true
      · rw [if_pos hr]
        simp only
        unfold waitDone
        split
        · exact h1.same rfl rfl rfl
        · exact (h1.setTask t (.done _ _) true (-1) (by simp)).same rfl rfl rfl
      · rw [if_neg hr]; exact h1
    · exact h
  | resume t =>
    simp only [Sequencer.step]
    split
    next sq r n ht =>
      split
      · exact Live.grantLoop (s := { s with fired := false }) (h.same rfl rfl rfl) t sq r
      next hn =>
        refine (h.setTask t _ false s.waitSeq ?_)
        intro sq' r' n' w' he
        simp only [Task.grant.injEq] at he
        obtain ⟨rfl, rfl, rfl, _⟩ := he
        refine ⟨h.le t sq r n true ht, fun hc => ?_⟩
        have := (h.sel t sq r n true ht hc).2
        simp only [ne_eq, Decidable.not_not] at hn
        omega
    · split
      · exact (h.setTask t _ false s.waitSeq (by simp))
      · exact (h.setTask t _ false s.waitSeq (by simp))
    · exact h
  | kill t => exact (h.setTask t _ s.fired s.waitSeq (by simp))
  | exit sq =>
    simp only [Sequencer.step, exitSeq]
    split
    · exact h.same rfl rfl rfl
    · refine Live.event (h.congr (fun t sq r n w hw => ⟨w, hw, id⟩) (fun _ hr => hr) ?_)
      simp only
      omega
  | getNext => simp only [Sequencer.step]; split; · exact h.drvCall _
               · exact h
  | peek => simp only [Sequencer.step]; split; · exact h.drvCall _
            · exact h
  | get => simp only [Sequencer.step]; split; · exact h.drvCall _
           · exact h
  | tryNext =>
    simp only [Sequencer.step]; split
    · split
      · exact h
      · exact h.same rfl rfl rfl
    · exact h
  | itemDone =>
    simp only [Sequencer.step]; split
    · unfold itemDone
      split
      · exact h.same rfl rfl rfl
      · simp only
        split <;> exact h.same rfl rfl rfl
    · exact h
  | drvStep => exact h.drvStep mode rel rnd
  | putResponse id =>
    simp only [Sequencer.step, putResponse]
    split
    · exact h.same rfl rfl rfl
    · split <;> exact h.same rfl rfl rfl
  | setNumLast n => exact h.same rfl rfl rfl
  | stop =>
    simp only [Sequencer.step, stop]
    split
    · exact h
    · exact h.same rfl rfl rfl

theorem hist_live {mode : Mode} {rel : Seq → Bool} {rnd : Nat → Nat} {ops : List Op} {outs : List Out} {s : State}
    (h : Hist mode rel rnd ops outs s) : Live s := by
  induction h with
  | nil => exact live_init
  | snoc op _ ih => exact ih.step op

/-! ## Deliveries -/

theorem deliver_delivered {s : State} {c : Call} {x y : Option Item} (h : Out.delivered y ∈ (deliver s c x).2) : y = x := by
  unfold deliver at h
  cases c with
  | getNext => simpa using h
  | peek => simpa using h
  | get =>
    simp only at h
    split at h
    · simp at h
    · split at h
      · simp at h
      · simpa using h

theorem afterSelect_delivered {s : State} {c : Call} {y : Option Item} (h : Out.delivered y ∈ (afterSelect s c).2) :
    ∃ x, y = some x ∧ s.fifo.head? = some x := by
  unfold afterSelect at h
  cases hf : s.fifo with
  | nil => simp only [hf] at h; simp at h
  | cons x xs =>
    simp only [hf] at h
    exact ⟨x, deliver_delivered h, rfl⟩

theorem grantReq_fifo (s : State) (n : Nat) : (grantReq s n).1.fifo = s.fifo ∧ ∀ y, Out.delivered y ∉ (grantReq s n).2 := by
  unfold grantReq
  split
  · simp
  · exact ⟨rfl, by simp⟩

theorem drvCall_delivered {s : State} {c : Call} {y : Option Item} (h : Out.delivered y ∈ (drvCall s c).2) :
    ∃ x, y = some x ∧ s.fifo.head? = some x := by
  unfold drvCall at h
  simp only at h
  split at h
  · split at h <;> simp at h
  · simp only [List.mem_append] at h
    rcases h with h | h
    · split at h <;> simp at h
    · exact afterSelect_delivered h

theorem drvStep_delivered {mode : Mode} {rel : Seq → Bool} {rnd : Nat → Nat} {o : List Nat} {s : State} (hc : Core o s) {y : Option Item}
    (h : Out.delivered y ∈ (drvStep mode rel rnd s).2) : ∃ x, y = some x ∧ s.fifo.head? = some x := by
  unfold drvStep at h
  split at h
  · simp at h
  · split at h
    · simp at h
    · simp at h
    next c _ _ i _ =>
      by_cases hi : i = -1
      · rw [if_pos hi] at h
        unfold waitAvail at h
        simp only at h
        split at h <;> simp at h
      · rw [if_neg hi] at h
        simp only [List.mem_append] at h
        rcases h with h | h
        · exact absurd h ((grantReq_fifo _ _).2 y)
        · obtain ⟨x, hx, hf⟩ := afterSelect_delivered h
          exact ⟨x, hx, by rw [← (grantReq_fifo s i.toNat).1]; exact hf⟩
  · split at h <;> simp at h
  · simp at h
  next c hd =>
    have hne := hc.peek c hd
    cases hf : s.fifo with
    | nil => exact absurd hf hne
    | cons x xs =>
      have := deliver_delivered h
      rw [hf] at this
      exact ⟨x, this, rfl⟩
  · simp at h
  · split at h
    · simp at h
    · simp at h
    next i _ =>
      by_cases hi : i = -1
      · rw [if_pos hi] at h; simp at h
      · rw [if_neg hi] at h
        exact absurd h ((grantReq_fifo _ _).2 y)
  · split at h
    next x xs hf => simp at h; exact ⟨x, h, by rw [hf]; rfl⟩
    · simp at h

theorem step_delivered {mode : Mode} {rel : Seq → Bool} {rnd : Nat → Nat} {o : List Nat} {s : State} (hc : Core o s) {op : Op} {y : Option Item}
    (h : Out.delivered y ∈ (step mode rel rnd s op).2) : ∃ x, y = some x ∧ s.fifo.head? = some x := by
  cases op with
  | start sq => simp [step] at h
  | startItem t sq prio lock =>
    simp only [step] at h
    split at h
    · unfold waitForGrant grantLoop at h
      simp only at h
      split at h <;> simp at h
    · simp at h
  | send sq x tr =>
    simp only [step] at h
    rcases sendRequest_cases s sq.inst x tr with ⟨_, e⟩ | ⟨_, _, e⟩ | ⟨_, _, r, b, e, hr⟩ <;> rw [e] at h
    · simp at h
    · simp at h
    · rcases hr with ⟨_, rfl⟩ | ⟨_, rfl⟩ <;> simp at h
  | finishItem t sq x tr =>
    simp only [step] at h
    split at h
    · rcases sendRequest_cases s sq.inst x tr with ⟨_, e⟩ | ⟨_, _, e⟩ | ⟨_, _, r, b, e, hr⟩ <;> rw [e] at h
      · simp at h
      · simp at h
      · rcases hr with ⟨rfl, rfl⟩ | ⟨rfl, rfl⟩
        · simp [waitDone] at h
          split at h <;> simp at h
        · simp at h
    · simp at h
  | resume t =>
    simp only [step] at h
    split at h
    · split at h
      · unfold grantLoop at h
        split at h <;> simp at h
      · simp at h
    · split at h <;> simp at h
    · simp at h
  | kill t => simp [step] at h
  | exit sq => simp [step] at h
  | getNext => simp only [step] at h; split at h; · exact drvCall_delivered h
               · simp at h
  | peek => simp only [step] at h; split at h; · exact drvCall_delivered h
            · simp at h
  | get => simp only [step] at h; split at h; · exact drvCall_delivered h
           · simp at h
  | tryNext =>
    simp only [step] at h
    split at h
    · split at h <;> simp at h
    · simp at h
  | itemDone =>
    simp only [step] at h
    split at h
    · unfold itemDone at h
      split at h
      · simp at h
      · simp only at h
        split at h <;> simp at h
    · simp at h
  | drvStep => exact drvStep_delivered hc h
  | putResponse id =>
    simp only [step, putResponse] at h
    split at h
    · simp at h
    · split at h <;> simp at h
  | setNumLast n => simp [step] at h
  | stop =>
    simp only [step, stop] at h
    split at h <;> simp at h

/-- Where `wait_for_item_done` returns. -/
theorem step_finished {mode : Mode} {rel : Seq → Bool} {rnd : Nat → Nat} {outs : List Out} {s : State} (hI : Ids outs s) {op : Op} {t : Nat}
    {id : Int} (h : Out.finished t id ∈ (step mode rel rnd s op).2) :
    op = .resume t ∧ s.tasks t = .done id true ∧ s.waitSeq = id ∧ (step mode rel rnd s op).2 = [.finished t id] := by
  cases op with
  | start sq => simp [step] at h
  | startItem t sq prio lock =>
    simp only [step] at h
    split at h
    · unfold waitForGrant grantLoop at h
      simp only at h
      split at h <;> simp at h
    · simp at h
  | send sq x tr =>
    simp only [step] at h
    rcases sendRequest_cases s sq.inst x tr with ⟨_, e⟩ | ⟨_, _, e⟩ | ⟨_, _, r, b, e, hr⟩ <;> rw [e] at h
    · simp at h
    · simp at h
    · rcases hr with ⟨_, rfl⟩ | ⟨_, rfl⟩ <;> simp at h
  | finishItem t sq x tr =>
    simp only [step] at h
    split at h
    · rcases sendRequest_cases s sq.inst x tr with ⟨_, e⟩ | ⟨_, _, e⟩ | ⟨h1, _, r, b, e, hr⟩ <;> rw [e] at h
      · simp at h
      · simp at h
      · rcases hr with ⟨rfl, rfl⟩ | ⟨rfl, rfl⟩
        · have hp := hI.sem _ h1
          have hne : s.ids sq.inst ≠ -1 := by omega
          simp [waitDone, prepare, hne] at h
        · simp at h
    · simp at h
  | resume u =>
    simp only [step] at h ⊢
    split at h
    · split at h
      · unfold grantLoop at h
        split at h <;> simp at h
      · simp at h
    next id' hd =>
      by_cases hw : s.waitSeq = id'
      · rw [if_pos hw] at h ⊢
        simp at h
        obtain ⟨rfl, rfl⟩ := h
        exact ⟨rfl, hd, hw, rfl⟩
      · rw [if_neg hw] at h; simp at h
    · simp at h
  | kill t => simp [step] at h
  | exit sq => simp [step] at h
  | setNumLast n => simp [step] at h
  | getNext => exact absurd h ((step_drv s .getNext rfl).nofin _ _)
  | peek => exact absurd h ((step_drv s .peek rfl).nofin _ _)
  | get => exact absurd h ((step_drv s .get rfl).nofin _ _)
  | tryNext => exact absurd h ((step_drv s .tryNext rfl).nofin _ _)
  | itemDone => exact absurd h ((step_drv s .itemDone rfl).nofin _ _)
  | drvStep => exact absurd h ((step_drv s .drvStep rfl).nofin _ _)
  | putResponse id => exact absurd h ((step_drv s (.putResponse id) rfl).nofin _ _)
  | stop => exact absurd h ((step_drv s .stop rfl).nofin _ _)

end Verif.Sequencer
