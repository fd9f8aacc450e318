import Verif.Spec.Sequencer
import Verif.Lemmas.Arbiter
/-! # Lemmas about the sequencer: the handshake invariant -/
namespace Verif.Sequencer
open Arbiter

@[simp] theorem chosenOf_append (a b : List Out) : chosenOf (a ++ b) = chosenOf a ++ chosenOf b := by
  induction a with
  | nil => rfl
  | cons x a ih => cases x <;> simp [chosenOf, ih]
@[simp] theorem sendersOf_append (a b : List Out) : sendersOf (a ++ b) = sendersOf a ++ sendersOf b := by
  induction a with
  | nil => rfl
  | cons x a ih => cases x <;> simp [sendersOf, ih]
@[simp] theorem sentOf_append (a b : List Out) : sentOf (a ++ b) = sentOf a ++ sentOf b := by
  induction a with
  | nil => rfl
  | cons x a ih => cases x <;> simp [sentOf, ih]
@[simp] theorem doneOf_append (a b : List Out) : doneOf (a ++ b) = doneOf a ++ doneOf b := by
  induction a with
  | nil => rfl
  | cons x a ih => cases x <;> simp [doneOf, ih]

/-- `o`: the sequences selected that have not sent their item yet. -/
structure Core (o : List Nat) (s : State) : Prop where
  len : o.length + s.fifo.length = if s.requested.truthy then 1 else 0
  sem : ∀ i, 0 ≤ s.sem i ∧ s.sem i + ((s.completed.map (·.2)).count i : Int) ≤ (o.count i : Int)
  qlt : ∀ e ∈ s.q, e.reqId < s.gReq
  clt : ∀ p ∈ s.completed, p.1 < s.gReq
  task : ∀ t sq r n w, s.tasks t = .grant sq r n w → r < s.gReq ∧ (∀ p ∈ s.completed, p.1 = r → p.2 = sq.inst) ∧
    (∀ e ∈ s.q, e.reqId = r → e.seq.inst = sq.inst)
  sel : ∀ c, s.drv = .nba c → s.requested.truthy = false
  trySel : s.drv = .tryNba → s.requested.truthy = false
  seen : ∀ c w, s.drv = .peeking c w → s.requested.truthy = true
  seen2 : s.drv = .tryNba2 → s.requested.truthy = true
  peek : ∀ c, s.drv = .peeking c true → s.fifo ≠ []
  wait : ∀ c w, s.drv = .avail c w → s.requested.truthy = false
  flag : s.requested ≠ .int0

theorem core_init : Core [] {} :=
  ⟨rfl, by simp, by simp, by simp, by simp, by simp, by simp, by simp, by simp, by simp, by simp, by simp⟩

/-- What the invariant depends on. -/
theorem Core.congr {o : List Nat} {s s' : State} (h : Core o s) (hfifo : s'.fifo = s.fifo) (hreq : s'.requested = s.requested)
    (hsem : s'.sem = s.sem) (hcomp : s'.completed = s.completed) (hq : ∀ e ∈ s'.q, e ∈ s.q) (hg : s'.gReq = s.gReq)
    (ht : ∀ t sq r n w, s'.tasks t = .grant sq r n w → ∃ n w, s.tasks t = .grant sq r n w)
    (hd : (∀ c, s'.drv = .nba c → s'.requested.truthy = false) ∧ (s'.drv = .tryNba → s'.requested.truthy = false) ∧
      (∀ c w, s'.drv = .peeking c w → s'.requested.truthy = true) ∧ (s'.drv = .tryNba2 → s'.requested.truthy = true) ∧
      (∀ c, s'.drv = .peeking c true → s'.fifo ≠ []) ∧ ∀ c w, s'.drv = .avail c w → s'.requested.truthy = false) : Core o s' := by
  refine ⟨by rw [hfifo, hreq]; exact h.len, by rw [hsem, hcomp]; exact h.sem, ?_, ?_, ?_, hd.1, hd.2.1, hd.2.2.1, hd.2.2.2.1, hd.2.2.2.2.1,
    hd.2.2.2.2.2, by rw [hreq]; exact h.flag⟩
  · intro e he; rw [hg]; exact h.qlt e (hq e he)
  · intro p hp; rw [hcomp] at hp; rw [hg]; exact h.clt p hp
  · intro t sq r n w hw
    obtain ⟨n', w', hw'⟩ := ht t sq r n w hw
    obtain ⟨h1, h2, h3⟩ := h.task t sq r n' w' hw'
    exact ⟨by rw [hg]; exact h1, by rw [hcomp]; exact h2, fun e he => h3 e (hq e he)⟩

theorem Core.drvOk {o : List Nat} {s : State} (h : Core o s) :
    (∀ c, s.drv = .nba c → s.requested.truthy = false) ∧ (s.drv = .tryNba → s.requested.truthy = false) ∧
      (∀ c w, s.drv = .peeking c w → s.requested.truthy = true) ∧ (s.drv = .tryNba2 → s.requested.truthy = true) ∧
      (∀ c, s.drv = .peeking c true → s.fifo ≠ []) ∧ ∀ c w, s.drv = .avail c w → s.requested.truthy = false :=
  ⟨h.sel, h.trySel, h.seen, h.seen2, h.peek, h.wait⟩

theorem wakeTask_grant {k : Task} {sq : Seq} {r n : Nat} {w : Bool} (h : wakeTask k = .grant sq r n w) :
    ∃ n w, k = .grant sq r n w := by
  cases k with
  | idle => cases h
  | grant a b c d =>
    simp only [wakeTask, Task.grant.injEq] at h
    obtain ⟨rfl, rfl, rfl, _⟩ := h
    exact ⟨_, _, rfl⟩
  | done a b => cases h

theorem wakeDrv_eq {d d' : Drv} (h : wakeDrv d = d') (hd : ∀ c w, d' ≠ .avail c w) : d = d' := by
  cases d with
  | avail c w => exact absurd h.symm (hd c true)
  | _ => exact h

theorem Core.event {o : List Nat} {s : State} (h : Core o s) : Core o (setEvent s) := by
  refine h.congr rfl rfl rfl rfl (fun _ he => he) rfl (fun t sq r n w hw => wakeTask_grant hw) ⟨?_, ?_, ?_, ?_, ?_, ?_⟩
  · intro c hc; exact h.sel c (wakeDrv_eq hc (by simp))
  · intro hc; exact h.trySel (wakeDrv_eq hc (by simp))
  · intro c w hc; exact h.seen c w (wakeDrv_eq hc (by simp))
  · intro hc; exact h.seen2 (wakeDrv_eq hc (by simp))
  · intro c hc; exact h.peek c (wakeDrv_eq hc (by simp))
  · intro c w hc
    cases hd : s.drv with
    | avail c' w' => exact h.wait c' w' hd
    | _ => simp [setEvent, hd, wakeDrv] at hc

theorem Core.update {o : List Nat} {s : State} (h : Core o s) : Core o (updateLists s) :=
  Core.event (s := { s with lockArb := s.lockArb + 1 })
    (h.congr rfl rfl rfl rfl (fun _ he => he) rfl (fun t sq r n w hw => ⟨n, w, hw⟩) h.drvOk)

theorem Core.assign {o : List Nat} {s : State} (h : Core o s) (i : Nat) : Core o (assignId s i) :=
  h.congr rfl rfl rfl rfl (fun _ he => he) rfl (fun t sq r n w hw => ⟨n, w, hw⟩) h.drvOk

theorem Core.register {o : List Nat} {s : State} (h : Core o s) (i : Nat) : Core o (register s i) := by
  unfold Sequencer.register
  split
  · exact h
  · exact h.assign i

theorem Core.startSeq {o : List Nat} {s : State} (h : Core o s) (i : Nat) : Core o (startSeq s i) := by
  unfold Sequencer.startSeq
  refine Core.register ?_ i
  exact h.congr rfl rfl rfl rfl (fun _ he => he) rfl (fun t sq r n w hw => ⟨n, w, hw⟩) h.drvOk

/-- New requests have fresh numbers. -/
theorem Core.pushReqs {o : List Nat} {s : State} (h : Core o s) (sq : Seq) (prio : Int) (lock : Bool) :
    Core o (pushReqs s sq prio lock) := by
  unfold Sequencer.pushReqs
  cases lock with
  | false =>
    refine ⟨h.len, h.sem, ?_, fun p hp => Nat.lt_succ_of_lt (h.clt p hp), ?_, h.sel, h.trySel, h.seen, h.seen2, h.peek, h.wait, h.flag⟩
    · intro e he
      simp only [Bool.false_eq_true, if_false, List.mem_append, List.mem_singleton] at he ⊢
      rcases he with he | rfl
      · have := h.qlt e he; omega
      · simp
    · intro t sq' r n w hw
      obtain ⟨h1, h2, h3⟩ := h.task t sq' r n w hw
      refine ⟨Nat.lt_succ_of_lt h1, h2, ?_⟩
      intro e he hr
      simp only [Bool.false_eq_true, if_false, List.mem_append, List.mem_singleton] at he
      rcases he with he | rfl
      · exact h3 e he hr
      · simp only at hr; omega
  | true =>
    refine ⟨h.len, h.sem, ?_, fun p hp => Nat.lt_trans (h.clt p hp) (by simp), ?_, h.sel, h.trySel, h.seen, h.seen2, h.peek, h.wait, h.flag⟩
    · intro e he
      simp only [if_true, List.mem_append, List.mem_cons, List.not_mem_nil, or_false] at he ⊢
      rcases he with he | rfl | rfl
      · have := h.qlt e he; omega
      · simp
      · simp
    · intro t sq' r n w hw
      obtain ⟨h1, h2, h3⟩ := h.task t sq' r n w hw
      refine ⟨Nat.lt_trans h1 (by simp), h2, ?_⟩
      intro e he hr
      simp only [if_true, List.mem_append, List.mem_cons, List.not_mem_nil, or_false] at he
      rcases he with he | rfl | rfl
      · exact h3 e he hr
      · simp only at hr; omega
      · simp only at hr; omega

/-- A coroutine of a sequence whose request has this number waits or is granted. -/
theorem Core.grantLoop {o : List Nat} {s : State} (h : Core o s) (t : Nat) (sq : Seq) (r : Nat) (h1 : r < s.gReq)
    (h2 : ∀ p ∈ s.completed, p.1 = r → p.2 = sq.inst) (h3 : ∀ e ∈ s.q, e.reqId = r → e.seq.inst = sq.inst) :
    Core o (grantLoop s t sq r).1 := by
  unfold Sequencer.grantLoop
  by_cases hc : s.completed.any (·.1 == r) = true
  · rw [if_pos hc]
    have hcount : ∀ i, ((s.completed.filter (·.1 ≠ r)).map (·.2)).count i +
        (if i = sq.inst then 1 else 0) ≤ (s.completed.map (·.2)).count i := by
      intro i
      have aux : ∀ l : List (Nat × Nat), ((l.filter (·.1 ≠ r)).map (·.2)).count i ≤ (l.map (·.2)).count i := by
        intro l
        exact List.Sublist.count_le i (List.filter_sublist.map _)
      have main : ∀ l : List (Nat × Nat), (∀ p ∈ l, p.1 = r → p.2 = sq.inst) → l.any (·.1 == r) = true →
          ((l.filter (·.1 ≠ r)).map (·.2)).count i + (if i = sq.inst then 1 else 0) ≤ (l.map (·.2)).count i := by
        intro l
        induction l with
        | nil => intro _ h; simp at h
        | cons p l ih =>
          intro hp ha
          by_cases hpr : p.1 = r
          · have hpi := hp p (by simp) hpr
            have hf : (p :: l).filter (·.1 ≠ r) = l.filter (·.1 ≠ r) := by simp [hpr]
            rw [hf, List.map_cons, List.count_cons, hpi]
            have hal := aux l
            generalize (List.map (fun x => x.snd) (List.filter (fun x => decide (x.fst ≠ r)) l)).count i = A at *
            by_cases hi : i = sq.inst
            · subst hi; simp; omega
            · simp [hi]; split <;> omega
          · have hf : (p :: l).filter (·.1 ≠ r) = p :: l.filter (·.1 ≠ r) := by simp [hpr]
            rw [hf, List.map_cons, List.map_cons, List.count_cons, List.count_cons]
            have := ih (fun p' hp' => hp p' (by simp [hp'])) (by simpa [hpr] using ha)
            omega
      exact main _ h2 hc
    refine ⟨h.len, ?_, h.qlt, ?_, ?_, h.sel, h.trySel, h.seen, h.seen2, h.peek, h.wait, h.flag⟩
    · intro i
      obtain ⟨s1, s2⟩ := h.sem i
      have := hcount i
      simp only [upd]
      by_cases hi : i = sq.inst
      · rw [if_pos hi]; rw [if_pos hi] at this; rw [← hi]; omega
      · rw [if_neg hi]; rw [if_neg hi] at this; omega
    · intro p hp
      exact h.clt p (List.mem_filter.mp hp).1
    · intro u sq' r' n w hw
      simp only [upd] at hw
      split at hw
      · cases hw
      · obtain ⟨a, b, c⟩ := h.task u sq' r' n w hw
        exact ⟨a, fun p hp => b p (List.mem_filter.mp hp).1, c⟩
  · rw [if_neg hc]
    refine ⟨h.len, h.sem, h.qlt, h.clt, ?_, h.sel, h.trySel, h.seen, h.seen2, h.peek, h.wait, h.flag⟩
    intro u sq' r' n w hw
    simp only [upd] at hw
    split at hw
    · simp only [Task.grant.injEq] at hw
      obtain ⟨rfl, rfl, _, _⟩ := hw
      exact ⟨h1, h2, h3⟩
    · exact h.task u sq' r' n w hw

theorem grantLoop_out (s : State) (t : Nat) (sq : Seq) (r : Nat) :
    chosenOf (grantLoop s t sq r).2 = [] ∧ sendersOf (grantLoop s t sq r).2 = [] ∧ sentOf (grantLoop s t sq r).2 = [] ∧
      doneOf (grantLoop s t sq r).2 = [] ∧ (grantLoop s t sq r).1.fifo = s.fifo := by
  unfold grantLoop
  split <;> simp [chosenOf, sendersOf, sentOf, doneOf]

theorem register_q (s : State) (i : Nat) : (register s i).q = s.q ∧ (register s i).gReq = s.gReq ∧
    (register s i).completed = s.completed ∧ (register s i).fifo = s.fifo := by
  unfold register
  split <;> simp [assignId]

theorem Core.waitForGrant {o : List Nat} {s : State} (h : Core o s) (t : Nat) (sq : Seq) (prio : Int) (lock : Bool) :
    Core o (waitForGrant s t sq prio lock).1 := by
  unfold Sequencer.waitForGrant
  have h1 := ((h.register sq.inst).pushReqs sq prio lock)
  have hr := (h.register sq.inst)
  refine (h1.update).grantLoop t sq _ ?_ ?_ ?_
  · cases lock <;> simp [updateLists, setEvent, Sequencer.pushReqs]
  · intro p hp hpe
    have hlt := hr.clt p (by
      cases lock <;> simpa [updateLists, setEvent, Sequencer.pushReqs] using hp)
    cases lock <;> simp [updateLists, setEvent, Sequencer.pushReqs] at hpe <;> omega
  · intro e he hre
    have hlt : ∀ e ∈ (Sequencer.register s sq.inst).q, e.reqId < (Sequencer.register s sq.inst).gReq := hr.qlt
    cases lock
    · simp only [updateLists, setEvent, Sequencer.pushReqs, Bool.false_eq_true, if_false, List.mem_append, List.mem_singleton] at he hre
      rcases he with he | rfl
      · have := hlt e he; omega
      · rfl
    · simp only [updateLists, setEvent, Sequencer.pushReqs, if_true, List.mem_append, List.mem_cons, List.not_mem_nil,
        or_false] at he hre
      rcases he with he | rfl | rfl
      · have := hlt e he; omega
      · rfl
      · rfl

/-- The effect of one step on the lists of the specification. -/
structure Eff (o : List Nat) (s : State) (r : List Out) (o' : List Nat) (s' : State) : Prop where
  core : Core o' s'
  ord : o ++ chosenOf r = sendersOf r ++ o'
  fifo : s.fifo ++ sentOf r = doneOf r ++ s'.fifo

/-- Steps that neither select, send nor finish anything. -/
theorem Eff.quiet {o : List Nat} {s : State} {r : List Out} {s' : State} (h : Core o s') (hf : s'.fifo = s.fifo)
    (hr : chosenOf r = [] ∧ sendersOf r = [] ∧ sentOf r = [] ∧ doneOf r = []) : Eff o s r o s' :=
  ⟨h, by simp [hr], by simp [hr, hf]⟩

theorem Core.tasks {o : List Nat} {s : State} (h : Core o s) (t : Nat) (k : Task)
    (hk : ∀ sq r n w, k = .grant sq r n w → ∃ n w, s.tasks t = .grant sq r n w) (b : Bool) :
    Core o { s with fired := b, tasks := upd s.tasks t k } := by
  refine h.congr rfl rfl rfl rfl (fun _ he => he) rfl ?_ h.drvOk
  intro u sq r n w hw
  simp only [upd] at hw
  split at hw
  next hu => subst hu; exact hk _ _ _ _ hw
  · exact ⟨n, w, hw⟩

/-- A send by a sequence that may send. -/
theorem sendRequest_eff {o : List Nat} {s : State} (h : Core o s) (i x : Nat) (tr : Int)
    (hc : Clean (sendRequest s i x tr).2.1) :
    (sendRequest s i x tr).2.2 = true ∧ ∃ o', Eff o s (sendRequest s i x tr).2.1 o' (sendRequest s i x tr).1 := by
  unfold sendRequest at hc ⊢
  by_cases h1 : s.sem i < 1
  · rw [if_pos h1] at hc; exact absurd (by simp) hc.1
  · rw [if_neg h1] at hc ⊢
    by_cases h2 : s.fifo.length ≥ 1
    · rw [if_pos h2] at hc; exact absurd (by simp) hc.1
    · rw [if_neg h2] at hc ⊢
      by_cases h3 : grantQueuedLocks s.q = false
      · rw [if_pos h3] at hc; exact absurd (by simp) hc.2
      · rw [if_neg h3]
        refine ⟨rfl, ?_⟩
        have hfe : s.fifo = [] := List.eq_nil_of_length_eq_zero (by omega)
        have hs := h.sem i
        have hoi : o.count i ≥ 1 := by omega
        have hlen := h.len
        have hol : o.length ≥ o.count i := List.count_le_length
        have ho : o = [i] := by
          cases o with
          | nil => simp at hoi
          | cons a o' =>
            have : o' = [] := by
              apply List.eq_nil_of_length_eq_zero
              simp only [List.length_cons] at hlen
              split at hlen <;> omega
            subst this
            simp only [List.count_cons, List.count_nil] at hoi
            by_cases ha : a = i
            · rw [ha]
            · simp [ha] at hoi
        subst ho
        refine ⟨[], ⟨?_, ?_, ?_, ?_, ?_, ?_, ?_, ?_, ?_, ?_, ?_, ?_⟩, ?_, ?_⟩
        · rw [hfe] at hlen
          simp only [hfe, List.length_nil, List.nil_append, List.length_cons, prepare] at hlen ⊢
          omega
        · intro j
          have hj := h.sem j
          simp only [prepare, upd, List.count_nil]
          by_cases hji : j = i
          · subst hji
            simp only [List.count_cons, List.count_nil, beq_self_eq_true, if_true] at hj
            rw [if_pos rfl]
            omega
          · have : [i].count j = 0 := by simp [List.count_cons]; exact fun h => hji h.symm
            rw [this] at hj
            rw [if_neg hji]
            omega
        · exact h.qlt
        · exact h.clt
        · exact h.task
        · intro c hc'
          exact h.sel c (by
            cases hd : s.drv <;> simp [hd, wakePeek] at hc' ⊢
            exact hc')
        · intro hc'
          exact h.trySel (by cases hd : s.drv <;> simp [hd, wakePeek] at hc' ⊢)
        · intro c w hc'
          cases hd : s.drv with
          | peeking c' w' => exact h.seen c' w' hd
          | _ => simp [hd, wakePeek] at hc'
        · intro hc'
          exact h.seen2 (by cases hd : s.drv <;> simp [hd, wakePeek] at hc' ⊢)
        · intro c _
          simp
        · intro c w hc'
          cases hd : s.drv with
          | avail c' w' => exact h.wait c' w' hd
          | _ => simp [hd, wakePeek] at hc'
        · exact h.flag
        · simp [chosenOf, sendersOf]
        · simp [sentOf, doneOf, hfe]

theorem Core.waitDone {o : List Nat} {s : State} (h : Core o s) (t : Nat) (id : Int) : Core o (waitDone s t id).1 := by
  unfold Sequencer.waitDone
  split
  · exact h.congr rfl rfl rfl rfl (fun _ he => he) rfl (fun t sq r n w hw => ⟨n, w, hw⟩) h.drvOk
  · refine h.congr rfl rfl rfl rfl (fun _ he => he) rfl ?_ h.drvOk
    intro u sq r n w hw
    simp only [upd] at hw
    split at hw
    · cases hw
    · exact ⟨n, w, hw⟩

theorem waitDone_out (s : State) (t : Nat) (id : Int) :
    chosenOf (waitDone s t id).2 = [] ∧ sendersOf (waitDone s t id).2 = [] ∧ sentOf (waitDone s t id).2 = [] ∧
      doneOf (waitDone s t id).2 = [] ∧ (waitDone s t id).1.fifo = s.fifo := by
  unfold waitDone
  split <;> simp [chosenOf, sendersOf, sentOf, doneOf]

/-- The driver takes the item in front. -/
theorem Core.take {o : List Nat} {s : State} (h : Core o s) (y : Item) (ys : List Item) (hf : s.fifo = y :: ys) (s' : State)
    (h1 : s'.fifo = ys) (h2 : s'.requested = .false_) (h3 : s'.sem = s.sem) (h4 : s'.completed = s.completed) (h5 : s'.q = s.q)
    (h6 : s'.gReq = s.gReq) (h7 : s'.tasks = s.tasks) (h8 : s'.drv = .idle) : Core o s' := by
  have hl := h.len
  rw [hf, List.length_cons] at hl
  refine ⟨?_, by rw [h3, h4]; exact h.sem, by rw [h5, h6]; exact h.qlt, by rw [h4, h6]; exact h.clt, ?_, by simp [h8], by simp [h8],
    by simp [h8], by simp [h8], by simp [h8], by simp [h8], by simp [h2]⟩
  · rw [h1, h2]
    simp only [PyFlag.truthy, Bool.false_eq_true, if_false]
    split at hl <;> omega
  · rw [h7, h6, h4, h5]; exact h.task

theorem itemDone_eff {o : List Nat} {s : State} (h : Core o s) (hd : s.drv = .idle) (hc : Clean (itemDone s).2) :
    Eff o s (itemDone s).2 o (itemDone s).1 := by
  unfold itemDone at hc ⊢
  cases hf : s.fifo with
  | nil => rw [hf] at hc; exact absurd (by simp) hc.1
  | cons y ys =>
    rw [hf] at hc
    simp only at hc ⊢
    split at hc
    · exact absurd (by simp) hc.2
    next hg =>
      rw [if_neg hg]
      exact ⟨h.take y ys hf _ rfl rfl rfl rfl rfl rfl rfl hd, by simp [chosenOf, sendersOf], by simp [sentOf, doneOf, hf]⟩

/-- End of a driver call with the item in front. -/
theorem deliver_eff {o : List Nat} {s : State} (h : Core o { s with drv := .idle }) (c : Call) (x : Option Item)
    (hc : Clean (deliver s c x).2) : Eff o s (deliver s c x).2 o (deliver s c x).1 := by
  unfold deliver at hc ⊢
  cases c with
  | getNext => exact Eff.quiet h rfl (by simp [chosenOf, sendersOf, sentOf, doneOf])
  | peek => exact Eff.quiet h rfl (by simp [chosenOf, sendersOf, sentOf, doneOf])
  | get =>
    cases hf : s.fifo with
    | nil => simp only [hf] at hc; exact absurd (by simp) hc.1
    | cons y ys =>
      simp only [hf] at hc ⊢
      split at hc
      · exact absurd (by simp) hc.2
      next hg =>
        rw [if_neg hg]
        exact ⟨h.take y ys hf _ rfl rfl rfl rfl rfl rfl rfl rfl, by simp [chosenOf, sendersOf], by simp [sentOf, doneOf, hf]⟩

theorem setFlags_truthy (s : State) (c : Call) : (setFlags s c).requested.truthy = true := by
  cases c <;> rfl
theorem setFlags_ne (s : State) (c : Call) : (setFlags s c).requested ≠ .int0 := by
  cases c <;> simp [setFlags]

/-- The driver's call after a selection (or with an unfinished item). -/
theorem afterSelect_eff {o : List Nat} {s : State} (c : Call) (hl : o.length + s.fifo.length = 1)
    (hsem : ∀ i, 0 ≤ s.sem i ∧ s.sem i + ((s.completed.map (·.2)).count i : Int) ≤ (o.count i : Int))
    (hq : ∀ e ∈ s.q, e.reqId < s.gReq) (hcl : ∀ p ∈ s.completed, p.1 < s.gReq)
    (ht : ∀ t sq r n w, s.tasks t = .grant sq r n w → r < s.gReq ∧ (∀ p ∈ s.completed, p.1 = r → p.2 = sq.inst) ∧
      (∀ e ∈ s.q, e.reqId = r → e.seq.inst = sq.inst)) (hc : Clean (afterSelect s c).2) :
    Eff o s (afterSelect s c).2 o (afterSelect s c).1 := by
  have e1 : (setFlags s c).fifo = s.fifo ∧ (setFlags s c).sem = s.sem ∧ (setFlags s c).completed = s.completed ∧
      (setFlags s c).q = s.q ∧ (setFlags s c).gReq = s.gReq ∧ (setFlags s c).tasks = s.tasks := by cases c <;> simp [setFlags]
  obtain ⟨e1, e2, e3, e4, e5, e6⟩ := e1
  have ht' := setFlags_truthy s c
  unfold afterSelect at hc ⊢
  cases hf : s.fifo with
  | nil =>
    simp only [hf] at hc ⊢
    refine Eff.quiet ⟨?_, ?_, ?_, ?_, ?_, ?_, ?_, ?_, ?_, ?_, ?_, setFlags_ne s c⟩ (by simp [e1, hf]) (by simp [chosenOf, sendersOf, sentOf, doneOf])
    · simp only [ht', if_true]; rw [e1]; exact hl
    · simp only [e2, e3]; exact hsem
    · simp only [e4, e5]; exact hq
    · simp only [e3, e5]; exact hcl
    · simp only [e6, e5, e3, e4]; exact ht
    · simp
    · simp
    · intro c' w h; exact ht'
    · simp
    · simp
    · simp
  | cons x xs =>
    simp only [hf] at hc ⊢
    have hcore : Core o { setFlags s c with drv := .idle } := by
      refine ⟨?_, ?_, ?_, ?_, ?_, ?_, ?_, ?_, ?_, ?_, ?_, setFlags_ne s c⟩
      · simp only [ht', if_true]; rw [e1]; exact hl
      · simp only [e2, e3]; exact hsem
      · simp only [e4, e5]; exact hq
      · simp only [e3, e5]; exact hcl
      · simp only [e6, e5, e3, e4]; exact ht
      · simp
      · simp
      · simp
      · simp
      · simp
      · simp
    have := deliver_eff hcore c (some x) hc
    exact ⟨this.core, this.ord, by rw [← this.fifo, e1]⟩

theorem Core.after {o : List Nat} {s : State} (h : Core o s) (hr : s.requested.truthy = true) (c : Call)
    (hc : Clean (afterSelect s c).2) : Eff o s (afterSelect s c).2 o (afterSelect s c).1 :=
  afterSelect_eff c (by rw [h.len, hr]; rfl) h.sem h.qlt h.clt h.task hc

/-- Arbitration selects a request: the sequence is the only one allowed to send. -/
theorem grantReq_core {s : State} (h : Core [] s) (n : Nat) (hr : s.requested.truthy = false) (hc : Clean (grantReq s n).2) :
    ∃ i, (grantReq s n).2 = [.chose i] ∧ (grantReq s n).1.fifo = [] ∧ s.fifo = [] ∧
      (∀ j, 0 ≤ (grantReq s n).1.sem j ∧ (grantReq s n).1.sem j + (((grantReq s n).1.completed.map (·.2)).count j : Int) ≤ ([i].count j : Int)) ∧
      (∀ e ∈ (grantReq s n).1.q, e.reqId < (grantReq s n).1.gReq) ∧ (∀ p ∈ (grantReq s n).1.completed, p.1 < (grantReq s n).1.gReq) ∧
      (∀ t sq r m w, (grantReq s n).1.tasks t = .grant sq r m w → r < (grantReq s n).1.gReq ∧
        (∀ p ∈ (grantReq s n).1.completed, p.1 = r → p.2 = sq.inst) ∧ (∀ e ∈ (grantReq s n).1.q, e.reqId = r → e.seq.inst = sq.inst)) := by
  unfold grantReq at hc ⊢
  have hfl : s.fifo = [] := by
    have := h.len
    rw [hr] at this
    exact List.eq_nil_of_length_eq_zero (by simpa using this)
  cases hq : s.q[n]? with
  | none => simp only [hq] at hc; exact absurd (by simp) hc.2
  | some r =>
    have hmem : r ∈ s.q := List.mem_of_getElem? hq
    have hz : s.completed = [] := by
      cases hcm : s.completed with
      | nil => rfl
      | cons p ps =>
        have := (h.sem p.2)
        rw [hcm] at this
        simp only [List.map_cons, List.count_cons_self, List.count_nil] at this
        omega
    simp only
    have ek : ∀ (e : Req), e ∈ s.q.eraseIdx n → e ∈ s.q := fun e he => List.mem_of_mem_eraseIdx he
    refine ⟨r.seq.inst, rfl, hfl, hfl, ?_, ?_, ?_, ?_⟩
    · intro j
      have hj := h.sem j
      simp only [List.count_nil] at hj
      simp only [updateLists, setEvent, hz, List.filter_nil, List.nil_append, List.map_cons, List.map_nil]
      omega
    · intro e he; exact h.qlt e (ek e he)
    · intro p hp
      simp only [updateLists, setEvent, hz, List.filter_nil, List.nil_append, List.mem_singleton] at hp
      rw [hp]; exact h.qlt r hmem
    · intro t sq r' m w hw
      obtain ⟨m', w', hw'⟩ := wakeTask_grant hw
      obtain ⟨a, b, c⟩ := h.task t sq r' m' w' hw'
      refine ⟨a, ?_, fun e he => c e (ek e he)⟩
      intro p hp hpr
      simp only [updateLists, setEvent, hz, List.filter_nil, List.nil_append, List.mem_singleton] at hp
      rw [hp] at hpr ⊢
      exact c r hmem hpr

theorem Core.nil_of_not_requested {o : List Nat} {s : State} (h : Core o s) (hr : s.requested.truthy = false) : o = [] := by
  have := h.len
  rw [hr] at this
  exact List.eq_nil_of_length_eq_zero (by simp at this; rw [this.1]; rfl)

theorem Core.setDrv {o : List Nat} {s : State} (h : Core o s) (d : Drv)
    (hd : d = .idle ∨ ((∃ c w, d = .avail c w) ∧ s.requested.truthy = false) ∨ ((∃ c, d = .nba c) ∧ s.requested.truthy = false) ∨
      (d = .tryNba ∧ s.requested.truthy = false)) (b : Bool) : Core o { s with drv := d, fired := b } := by
  refine h.congr rfl rfl rfl rfl (fun _ he => he) rfl (fun t sq r n w hw => ⟨n, w, hw⟩) ?_
  rcases hd with rfl | ⟨⟨c, w, rfl⟩, hr⟩ | ⟨⟨c, rfl⟩, hr⟩ | ⟨rfl, hr⟩
  · simp
  · simp [hr]
  · simp [hr]
  · simp [hr]

theorem Core.setDrv' {o : List Nat} {s : State} (h : Core o s) (d : Drv)
    (hd : d = .idle ∨ ((∃ c w, d = .avail c w) ∧ s.requested.truthy = false) ∨ ((∃ c, d = .nba c) ∧ s.requested.truthy = false) ∨
      (d = .tryNba ∧ s.requested.truthy = false)) : Core o { s with drv := d } := h.setDrv d hd s.fired

theorem clean_append {a b : List Out} (h : Clean (a ++ b)) : Clean a ∧ Clean b := by
  simp only [Clean, List.mem_append, not_or] at h ⊢
  exact ⟨⟨h.1.1, h.2.1⟩, h.1.2, h.2.2⟩

theorem drvCall_eff {o : List Nat} {s : State} (h : Core o s) (hd : s.drv = .idle) (c : Call)
    (hc : Clean (drvCall s c).2) : Eff o s (drvCall s c).2 o (drvCall s c).1 := by
  unfold drvCall at hc ⊢
  have he : ∀ p : Prop, [Decidable p] → chosenOf (if p then [Out.error] else []) = [] ∧ sendersOf (if p then [Out.error] else []) = [] ∧
      sentOf (if p then [Out.error] else []) = [] ∧ doneOf (if p then [Out.error] else []) = [] := by
    intro p _
    split <;> simp [chosenOf, sendersOf, sentOf, doneOf]
  simp only at hc ⊢
  by_cases hsel : needsSelect s c = true
  · rw [if_pos hsel]
    have hr : s.requested.truthy = false := by
      cases c <;> simp [needsSelect] at hsel
      · rw [hsel]; rfl
      · exact hsel
      · exact hsel
    exact Eff.quiet (h.setDrv' _ (Or.inr (Or.inr (Or.inl ⟨⟨_, rfl⟩, hr⟩)))) rfl (he _)
  · rw [if_neg hsel] at hc ⊢
    have hr : s.requested.truthy = true := by
      cases hq : s.requested with
      | int0 => exact absurd hq h.flag
      | false_ =>
        exfalso; apply hsel
        cases c <;> simp [needsSelect, hq, PyFlag.truthy]
      | int1 => rfl
      | true_ => rfl
    have hx := h.after hr c (clean_append hc).2
    obtain ⟨e1, e2, e3, e4⟩ := he (c = .getNext ∧ s.nextCalled = .true_)
    refine ⟨hx.core, ?_, ?_⟩
    · rw [chosenOf_append, sendersOf_append, e1, e2]; exact hx.ord
    · rw [sentOf_append, doneOf_append, e3, e4]; exact hx.fifo

theorem drvStep_eff {mode : Mode} {rel : Seq → Bool} {rnd : Nat → Nat} {o : List Nat} {s : State} (h : Core o s)
    (hc : Clean (drvStep mode rel rnd s).2) :
    ∃ o', Eff o s (drvStep mode rel rnd s).2 o' (drvStep mode rel rnd s).1 := by
  have hq : ∀ {s' : State}, Core o s' → s'.fifo = s.fifo → Eff o s [] o s' := fun h1 h2 =>
    Eff.quiet h1 h2 (by simp [chosenOf, sendersOf, sentOf, doneOf])
  unfold drvStep at hc ⊢
  cases hd : s.drv with
  | idle => exact ⟨o, hq h rfl⟩
  | nba c =>
    have hr := h.sel c hd
    obtain rfl := h.nil_of_not_requested hr
    simp only [hd] at hc ⊢
    cases hch : choose mode s.locks rel rnd s.q with
    | raised => simp only [hch] at hc; exact absurd (by simp) hc.2
    | fatal => simp only [hch] at hc; exact absurd (by simp) hc.1
    | sel i =>
      simp only [hch] at hc ⊢
      by_cases hi : i = -1
      · rw [if_pos hi] at hc ⊢
        unfold waitAvail at hc ⊢
        simp only at hc ⊢
        split at hc
        · exact absurd (by simp) hc.2
        next hir =>
          rw [if_neg hir]
          have : Core [] { s with arb := s.lockArb } :=
            h.congr rfl rfl rfl rfl (fun _ he => he) rfl (fun t sq r n w hw => ⟨n, w, hw⟩) h.drvOk
          exact ⟨[], hq (this.event.setDrv' _ (Or.inr (Or.inl ⟨⟨_, _, rfl⟩, hr⟩))) rfl⟩
      · rw [if_neg hi] at hc ⊢
        simp only at hc ⊢
        obtain ⟨hc1, hc2⟩ := clean_append hc
        obtain ⟨j, g1, g2, g3, g4, g5, g6, g7⟩ := grantReq_core h i.toNat hr hc1
        have := afterSelect_eff c (o := [j]) (by rw [g2]; rfl) g4 g5 g6 g7 hc2
        refine ⟨[j], this.core, ?_, ?_⟩
        · rw [chosenOf_append, sendersOf_append, g1]
          have := this.ord
          simp [chosenOf, sendersOf]
          simpa using this
        · rw [sentOf_append, doneOf_append, g1, g3]
          have := this.fifo
          rw [g2] at this
          simpa [sentOf, doneOf] using this
  | avail c w =>
    cases w with
    | false => exact ⟨o, hq h rfl⟩
    | true =>
      have hr := h.wait c true hd
      simp only
      by_cases ha : s.arb ≠ s.lockArb
      · rw [if_pos ha]
        exact ⟨o, hq (h.setDrv _ (Or.inr (Or.inr (Or.inl ⟨⟨_, rfl⟩, hr⟩))) false) rfl⟩
      · rw [if_neg ha]
        exact ⟨o, hq (h.setDrv _ (Or.inr (Or.inl ⟨⟨_, _, rfl⟩, hr⟩)) false) rfl⟩
  | peeking c w =>
    cases w with
    | false => exact ⟨o, hq h rfl⟩
    | true =>
      simp only [hd] at hc ⊢
      exact ⟨o, deliver_eff (h.setDrv' .idle (Or.inl rfl)) c _ hc⟩
  | tryNba =>
    have hr := h.trySel hd
    obtain rfl := h.nil_of_not_requested hr
    simp only [hd] at hc ⊢
    cases hch : choose mode s.locks rel rnd s.q with
    | raised => simp only [hch] at hc; exact absurd (by simp) hc.2
    | fatal => simp only [hch] at hc; exact absurd (by simp) hc.1
    | sel i =>
      simp only [hch] at hc ⊢
      by_cases hi : i = -1
      · rw [if_pos hi]
        exact ⟨[], Eff.quiet (h.setDrv' .idle (Or.inl rfl)) rfl (by simp [chosenOf, sendersOf, sentOf, doneOf])⟩
      · rw [if_neg hi] at hc ⊢
        simp only at hc ⊢
        obtain ⟨j, g1, g2, g3, g4, g5, g6, g7⟩ := grantReq_core h i.toNat hr hc
        refine ⟨[j], ⟨?_, g4, g5, g6, g7, by simp, by simp, by simp, by simp [PyFlag.truthy], by simp, by simp, by simp⟩, ?_, ?_⟩
        · simp [g2, PyFlag.truthy]
        · simp [g1, chosenOf, sendersOf]
        · simp [g1, g2, g3, sentOf, doneOf]
  | tryNba2 =>
    simp only
    split
    · exact ⟨o, Eff.quiet (h.setDrv' .idle (Or.inl rfl)) rfl (by simp [chosenOf, sendersOf, sentOf, doneOf])⟩
    · exact ⟨o, Eff.quiet (h.setDrv' .idle (Or.inl rfl)) rfl (by simp [chosenOf, sendersOf, sentOf, doneOf])⟩

theorem exitSeq_core {o : List Nat} {s : State} (h : Core o s) (sq : Seq) : Core o (exitSeq s sq) := by
  have hsub : ∀ e ∈ (removeSequence sq (s.ids sq.inst) s.q s.locks).1, e ∈ s.q := by
    intro e he
    simp only [removeSequence, removeLoop_eq, List.mem_filter] at he
    exact he.1
  have : ∀ (q : List Req) (l : List Seq) (reg : List (Int × Nat)) (n : Nat), (∀ e ∈ q, e ∈ s.q) →
      Core o { s with q := q, locks := l, reg := reg, lockArb := n } := fun q l reg n hq =>
    h.congr rfl rfl rfl rfl hq rfl (fun t sq r n w hw => ⟨n, w, hw⟩) h.drvOk
  unfold exitSeq
  simp only
  split
  · exact this _ _ _ _ hsub
  · exact (this _ _ _ _ hsub).event

theorem exitSeq_fifo (s : State) (sq : Seq) : (exitSeq s sq).fifo = s.fifo := by
  unfold exitSeq
  simp only
  split <;> rfl

theorem startSeq_fifo (s : State) (i : Nat) : (startSeq s i).fifo = s.fifo := by
  unfold startSeq
  exact (register_q _ i).2.2.2

theorem quiet_nil : chosenOf [] = [] ∧ sendersOf [] = [] ∧ sentOf [] = [] ∧ doneOf [] = [] := by
  simp [chosenOf, sendersOf, sentOf, doneOf]

theorem pushReqs_fifo (s : State) (sq : Seq) (prio : Int) (lock : Bool) : (pushReqs s sq prio lock).fifo = s.fifo := by
  cases lock <;> rfl

/-- One step preserves the handshake invariant. -/
theorem step_eff {mode : Mode} {rel : Seq → Bool} {rnd : Nat → Nat} {o : List Nat} {s : State} (h : Core o s) (op : Op)
    (ha : Allowed s op) (hc : Clean (step mode rel rnd s op).2) :
    ∃ o', Eff o s (step mode rel rnd s op).2 o' (step mode rel rnd s op).1 := by
  have hn : Eff o s [] o s := Eff.quiet h rfl quiet_nil
  cases op with
  | start sq => exact ⟨o, Eff.quiet (h.startSeq _) (startSeq_fifo _ _) quiet_nil⟩
  | startItem t sq prio lock =>
    simp only [step] at hc ⊢
    split
    next ht =>
      refine ⟨o, Eff.quiet (h.waitForGrant t sq prio lock) ?_ ?_⟩
      · unfold Sequencer.waitForGrant
        simp only
        rw [(grantLoop_out _ _ _ _).2.2.2.2]
        simp only [updateLists, setEvent, pushReqs_fifo, (register_q _ _).2.2.2]
      · unfold Sequencer.waitForGrant
        obtain ⟨a, b, c, d, _⟩ := grantLoop_out (updateLists (Sequencer.pushReqs (Sequencer.register s sq.inst) sq prio lock)) t sq
          ((updateLists (Sequencer.pushReqs (Sequencer.register s sq.inst) sq prio lock)).gReq - 1)
        exact ⟨a, b, c, d⟩
    · exact ⟨o, hn⟩
  | send sq x tr =>
    simp only [step] at hc ⊢
    exact (sendRequest_eff h _ _ _ hc).2
  | finishItem t sq x tr =>
    simp only [step] at hc ⊢
    split at hc
    next ht =>
      by_cases hr : (sendRequest s sq.inst x tr).2.2 = true
      · rw [if_pos hr] at hc ⊢
        simp only at hc ⊢
        obtain ⟨_, o', hs⟩ := sendRequest_eff h sq.inst x tr (clean_append hc).1
        obtain ⟨a, b, c, d, e⟩ := waitDone_out (sendRequest s sq.inst x tr).1 t ((sendRequest s sq.inst x tr).1.ids sq.inst)
        refine ⟨o', hs.core.waitDone t _, ?_, ?_⟩
        · rw [chosenOf_append, sendersOf_append, a, b]; simpa using hs.ord
        · rw [sentOf_append, doneOf_append, c, d, e]; simpa using hs.fifo
      · rw [if_neg hr] at hc
        exact absurd (sendRequest_eff h sq.inst x tr hc).1 hr
    · exact ⟨o, hn⟩
  | resume t =>
    simp only [step] at hc ⊢
    split
    next sq r n ht =>
      split
      · have h' : Core o { s with fired := false } :=
          h.congr rfl rfl rfl rfl (fun _ he => he) rfl (fun t sq r n w hw => ⟨n, w, hw⟩) h.drvOk
        obtain ⟨h1, h2, h3⟩ := h.task t sq r n true ht
        obtain ⟨a, b, c, d, e⟩ := grantLoop_out { s with fired := false } t sq r
        exact ⟨o, Eff.quiet (h'.grantLoop t sq r h1 h2 h3) e ⟨a, b, c, d⟩⟩
      · refine ⟨o, Eff.quiet (h.tasks t _ ?_ false) rfl quiet_nil⟩
        intro sq' r' n' w' he
        simp only [Task.grant.injEq] at he
        obtain ⟨rfl, rfl, _, _⟩ := he
        exact ⟨_, _, ht⟩
    next id ht =>
      split
      · exact ⟨o, Eff.quiet (h.tasks t _ (by simp) false) rfl (by simp [chosenOf, sendersOf, sentOf, doneOf])⟩
      · exact ⟨o, Eff.quiet (h.tasks t _ (by simp) false) rfl quiet_nil⟩
    · exact ⟨o, hn⟩
  | kill t => exact ⟨o, Eff.quiet (h.tasks t _ (by simp) s.fired) rfl quiet_nil⟩
  | exit sq => exact ⟨o, Eff.quiet (exitSeq_core h sq) (exitSeq_fifo s sq) quiet_nil⟩
  | getNext =>
    simp only [step] at hc ⊢
    by_cases hd : s.drv = .idle
    · rw [if_pos hd] at hc ⊢; exact ⟨o, drvCall_eff h hd _ hc⟩
    · rw [if_neg hd]; exact ⟨o, hn⟩
  | peek =>
    simp only [step] at hc ⊢
    by_cases hd : s.drv = .idle
    · rw [if_pos hd] at hc ⊢; exact ⟨o, drvCall_eff h hd _ hc⟩
    · rw [if_neg hd]; exact ⟨o, hn⟩
  | get =>
    simp only [step] at hc ⊢
    by_cases hd : s.drv = .idle
    · rw [if_pos hd] at hc ⊢; exact ⟨o, drvCall_eff h hd _ hc⟩
    · rw [if_neg hd]; exact ⟨o, hn⟩
  | tryNext =>
    simp only [step] at hc ⊢
    by_cases hd : s.drv = .idle
    · rw [if_pos hd]
      by_cases hnc : s.nextCalled.truthy = true
      · rw [if_pos hnc]
        exact ⟨o, Eff.quiet h rfl (by simp [chosenOf, sendersOf, sentOf, doneOf])⟩
      · rw [if_neg hnc]
        have hr : s.requested.truthy = false := by
          rcases ha with ha | ha
          · exact ha
          · exact absurd ha hnc
        exact ⟨o, Eff.quiet (h.setDrv' _ (Or.inr (Or.inr (Or.inr ⟨rfl, hr⟩)))) rfl quiet_nil⟩
    · rw [if_neg hd]; exact ⟨o, hn⟩
  | itemDone =>
    simp only [step] at hc ⊢
    by_cases hd : s.drv = .idle
    · rw [if_pos hd] at hc ⊢; exact ⟨o, itemDone_eff h hd hc⟩
    · rw [if_neg hd]; exact ⟨o, hn⟩
  | drvStep => exact drvStep_eff h hc
  | putResponse id =>
    have hk : Core o { s with numRsps := s.numRsps + 1 } :=
      h.congr rfl rfl rfl rfl (fun _ he => he) rfl (fun t sq r n w hw => ⟨n, w, hw⟩) h.drvOk
    simp only [step, putResponse] at hc ⊢
    split
    · exact ⟨o, Eff.quiet hk rfl (by simp [chosenOf, sendersOf, sentOf, doneOf])⟩
    · split
      · exact ⟨o, Eff.quiet hk rfl (by simp [chosenOf, sendersOf, sentOf, doneOf])⟩
      · exact ⟨o, Eff.quiet hk rfl (by simp [chosenOf, sendersOf, sentOf, doneOf])⟩
  | setNumLast n =>
    have hk : Core o (setNumLast s n) :=
      h.congr rfl rfl rfl rfl (fun _ he => he) rfl (fun t sq r n w hw => ⟨n, w, hw⟩) h.drvOk
    exact ⟨o, Eff.quiet hk rfl (by simp [chosenOf, sendersOf, sentOf, doneOf, step])⟩
  | stop => exact ha.elim

theorem reach_core {mode : Mode} {rel : Seq → Bool} {rnd : Nat → Nat} {ops : List Op} {outs : List Out} {s : State}
    (h : Reach mode rel rnd ops outs s) :
    ∃ o, Core o s ∧ chosenOf outs = sendersOf outs ++ o ∧ sentOf outs = doneOf outs ++ s.fifo := by
  induction h with
  | nil => exact ⟨[], core_init, rfl, rfl⟩
  | snoc _ ha hc ih =>
    obtain ⟨o, h1, h2, h3⟩ := ih
    obtain ⟨o', he⟩ := step_eff h1 _ ha hc
    refine ⟨o', he.core, ?_, ?_⟩
    · rw [chosenOf_append, sendersOf_append, h2, List.append_assoc, he.ord, List.append_assoc]
    · rw [sentOf_append, doneOf_append, h3, List.append_assoc, he.fifo, List.append_assoc]

theorem Reach.hist {mode : Mode} {rel : Seq → Bool} {rnd : Nat → Nat} {ops : List Op} {outs : List Out} {s : State}
    (h : Reach mode rel rnd ops outs s) : Hist mode rel rnd ops outs s := by
  induction h with
  | nil => exact .nil
  | snoc _ _ _ ih => exact .snoc _ ih

end Verif.Sequencer
