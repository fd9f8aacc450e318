import Verif.Lemmas.SequencerGrant
/-!
# C35, C36, C66, C67, C68: the sequencer between its sequences and its driver

`Reach` is any interleaving of the calls of the sequences and of the driver without exceptions (see `Spec/Sequencer`), `Hist` any
interleaving at all.  Effects are read off with `chosenOf`, `sendersOf`, `sentOf`, `doneOf`, `autoOf`.
-/
namespace Verif.Sequencer
open Arbiter

/-! ## C36: the handshake -/

/-- C36: the sequences send in the order in which arbitration selected them, and the driver finishes the items in the order in which they
were sent; at any time at most one selected sequence or one sent item is outstanding. -/
theorem C36_handshake {mode : Mode} {rel : Seq → Bool} {rnd : Nat → Nat} {ops : List Op} {outs : List Out} {s : State}
    (h : Reach mode rel rnd ops outs s) :
    ∃ o, chosenOf outs = sendersOf outs ++ o ∧ sentOf outs = doneOf outs ++ s.fifo ∧ o.length + s.fifo.length ≤ 1 := by
  obtain ⟨o, h1, h2, h3⟩ := reach_core h
  refine ⟨o, h2, h3, ?_⟩
  rw [h1.len]
  split <;> omega

/-- C36: the driver is only ever given the oldest item that is not finished, and never nothing; so until `item_done` every call returns
the same item. -/
theorem C36_delivery {mode : Mode} {rel : Seq → Bool} {rnd : Nat → Nat} {ops : List Op} {outs : List Out} {s : State}
    (h : Reach mode rel rnd ops outs s) (op : Op) (y : Option Item) (hy : .delivered y ∈ (step mode rel rnd s op).2) :
    ∃ x, y = some x ∧ (sentOf outs)[(doneOf outs).length]? = some x := by
  obtain ⟨o, h1, h2, h3⟩ := reach_core h
  obtain ⟨x, hx, hf⟩ := step_delivered h1 hy
  refine ⟨x, hx, ?_⟩
  rw [h3, List.getElem?_append_right (Nat.le_refl _), Nat.sub_self]
  rw [← hf, List.head?_eq_getElem?]

/-- C36: two deliveries without an `item_done` between them are the same item. -/
theorem C36_same_item {mode : Mode} {rel : Seq → Bool} {rnd : Nat → Nat} {ops ops' : List Op} {outs more : List Out} {s s' : State}
    (h : Reach mode rel rnd ops outs s) (h' : Reach mode rel rnd ops' (outs ++ more) s') (hd : doneOf more = []) (op op' : Op)
    (y y' : Option Item) (hy : .delivered y ∈ (step mode rel rnd s op).2) (hy' : .delivered y' ∈ (step mode rel rnd s' op').2) : y = y' := by
  obtain ⟨x, rfl, hx⟩ := C36_delivery h op y hy
  obtain ⟨x', rfl, hx'⟩ := C36_delivery h' op' y' hy'
  rw [sentOf_append, doneOf_append, hd, List.append_nil] at hx'
  have hlt : (doneOf outs).length < (sentOf outs).length := by
    rcases Nat.lt_or_ge (doneOf outs).length (sentOf outs).length with h | h
    · exact h
    · rw [List.getElem?_eq_none h] at hx; cases hx
  rw [List.getElem?_append_left hlt, hx] at hx'
  exact hx'

/-- C36: `item_done` with all items finished is fatal. -/
theorem C36_item_done_fatal {mode : Mode} {rel : Seq → Bool} {rnd : Nat → Nat} {ops : List Op} {outs : List Out} {s : State}
    (h : Reach mode rel rnd ops outs s) (hd : s.drv = .idle) (he : sentOf outs = doneOf outs) :
    (step mode rel rnd s .itemDone).2 = [.fatal] := by
  obtain ⟨o, h1, h2, h3⟩ := reach_core h
  have hf : s.fifo = [] := by
    rw [he] at h3
    have := congrArg List.length h3
    rw [List.length_append] at this
    exact List.eq_nil_of_length_eq_zero (by omega)
  simp only [step, if_pos hd, itemDone, hf]

/-- C36: with an unfinished item, `item_done` finishes exactly this one (unless a queued lock makes it raise). -/
theorem C36_item_done {mode : Mode} {rel : Seq → Bool} {rnd : Nat → Nat} {ops : List Op} {outs : List Out} {s : State}
    (h : Reach mode rel rnd ops outs s) (hd : s.drv = .idle) (x : Item) (he : sentOf outs = doneOf outs ++ [x])
    (hl : grantQueuedLocks s.q = true) : (step mode rel rnd s .itemDone).2 = [.done x] := by
  obtain ⟨o, h1, h2, h3⟩ := reach_core h
  have hf : s.fifo = [x] := by
    rw [he] at h3
    exact (List.append_cancel_left h3).symm
  simp [step, hd, itemDone, hf, hl]

/-- C36: a sequence that has been granted can send: the item goes into the FIFO, without "concurrent calls" error (unless a queued lock
makes it raise). -/
theorem C36_granted_can_send {mode : Mode} {rel : Seq → Bool} {rnd : Nat → Nat} {ops : List Op} {outs : List Out} {s : State}
    (h : Reach mode rel rnd ops outs s) (sq : Seq) (hg : 1 ≤ s.sem sq.inst) (hl : grantQueuedLocks s.q = true) (x : Nat) (tr : Int) :
    ∃ y, y.name = x ∧ y.seqId = s.ids sq.inst ∧ (step mode rel rnd s (.send sq x tr)).2 = [.sent sq.inst y (tr == -1)] := by
  obtain ⟨o, h1, h2, h3⟩ := reach_core h
  have hs := h1.sem sq.inst
  have hl1 := h1.len
  have hol : o.length ≥ o.count sq.inst := List.count_le_length
  have hf : s.fifo = [] := by
    apply List.eq_nil_of_length_eq_zero
    split at hl1 <;> omega
  refine ⟨mkItem s sq.inst x tr, rfl, rfl, ?_⟩
  simp only [step]
  rcases sendRequest_cases s sq.inst x tr with ⟨h, _⟩ | ⟨_, h, _⟩ | ⟨_, _, r, b, e, hr⟩
  · omega
  · exact absurd hf h
  · rcases hr with ⟨_, rfl⟩ | ⟨_, rfl⟩
    · rw [e]
    · unfold sendRequest at e
      rw [if_neg (by omega), if_neg (by rw [hf]; simp), if_neg (by rw [hl]; simp)] at e
      simp at e

/-- C36: `finish_item` (`wait_for_item_done`) returns only after `item_done` for an item of this sequence: the last such call before the
return was for this sequence id, and no sequence entered `wait_for_item_done` in between. -/
theorem C36_finish_after_done {mode : Mode} {rel : Seq → Bool} {rnd : Nat → Nat} {ops : List Op} {outs : List Out} {s : State}
    (h : Hist mode rel rnd ops outs s) (op : Op) (t : Nat) (id : Int) (hf : .finished t id ∈ (step mode rel rnd s op).2) :
    ∃ pre x post, outs = pre ++ .done x :: post ∧ x.seqId = id ∧ (∀ u, .waiting u ∉ post) ∧ ∀ y, .done y ∉ post := by
  obtain ⟨_, hd, hw, _⟩ := step_finished (hist_ids h) hf
  exact mark_last outs id ((hist_ids h).done t id true hd) (by rw [← hist_mark h, hw])

/-- C120, partial: a coroutine waiting in `finish_item` returns at its next wake-up after `item_done` for its sequence, *if no other sequence
entered `wait_for_item_done` and no other item was finished in between*.  Without this condition the claim is false: next theorem. -/
theorem C120_done_noticed_partial {mode : Mode} {rel : Seq → Bool} {rnd : Nat → Nat} {ops : List Op} {outs more : List Out} {s : State}
    (x : Item) (h : Hist mode rel rnd ops (outs ++ .done x :: more) s) (h1 : ∀ u, .waiting u ∉ more) (h2 : ∀ y, .done y ∉ more) (t : Nat)
    (ht : s.tasks t = .done x.seqId true) : (step mode rel rnd s (.resume t)).2 = [.finished t x.seqId] := by
  have hw : s.waitSeq = x.seqId := by
    rw [hist_mark h, List.foldl_append, List.foldl_cons]
    exact mark_stays more _ h1 h2
  simp only [step, ht, if_pos hw]

/-- C120, partial: the wake-up comes at the latest with the next request of another coroutine: after it the waiting coroutine returns. -/
theorem C120_next_request_partial {mode : Mode} {rel : Seq → Bool} {rnd : Nat → Nat} {ops : List Op} {outs more : List Out} {s : State}
    (x : Item) (h : Hist mode rel rnd ops (outs ++ .done x :: more) s) (h1 : ∀ u, .waiting u ∉ more) (h2 : ∀ y, .done y ∉ more) (t u : Nat) (w : Bool)
    (ht : s.tasks t = .done x.seqId w) (hu : s.tasks u = .idle) (sq : Seq) (prio : Int) (lock : Bool) :
    (step mode rel rnd (step mode rel rnd s (.startItem u sq prio lock)).1 (.resume t)).2 = [.finished t x.seqId] := by
  have hw : s.waitSeq = x.seqId := by
    rw [hist_mark h, List.foldl_append, List.foldl_cons]
    exact mark_stays more _ h1 h2
  have hne : t ≠ u := by rintro rfl; rw [ht] at hu; cases hu
  have k1 : ∀ i, (register s i).tasks = s.tasks ∧ (register s i).waitSeq = s.waitSeq := by
    intro i; unfold register assignId; split <;> simp
  have k2 : ∀ s0 : State, (pushReqs s0 sq prio lock).tasks = s0.tasks ∧ (pushReqs s0 sq prio lock).waitSeq = s0.waitSeq := by
    intro s0; unfold pushReqs; split <;> simp
  have k3 : ∀ s0 : State, s0.tasks t = .done x.seqId w → s0.waitSeq = x.seqId →
      (updateLists s0).tasks t = .done x.seqId true ∧ (updateLists s0).waitSeq = x.seqId := by
    intro s0 a b
    simp [updateLists, setEvent, a, b, wakeTask]
  have k4 : ∀ (s0 : State) (r : Nat), (grantLoop s0 u sq r).1.tasks t = s0.tasks t ∧ (grantLoop s0 u sq r).1.waitSeq = s0.waitSeq := by
    intro s0 r; unfold grantLoop; split <;> simp [upd, hne]
  have e : (step mode rel rnd s (.startItem u sq prio lock)).1 = (waitForGrant s u sq prio lock).1 := by simp only [step, hu]
  obtain ⟨a, b⟩ := k3 (pushReqs (register s sq.inst) sq prio lock) (by rw [(k2 _).1, (k1 _).1, ht]) (by rw [(k2 _).2, (k1 _).2, hw])
  have ha : (waitForGrant s u sq prio lock).1.tasks t = .done x.seqId true := by
    unfold waitForGrant; rw [(k4 _ _).1]; exact a
  have hb : (waitForGrant s u sq prio lock).1.waitSeq = x.seqId := by
    unfold waitForGrant; rw [(k4 _ _).2]; exact b
  rw [e]
  simp only [step, ha, if_pos hb]

/-- An `Hist` for a concrete list of operations. -/
def play (mode : Mode) (rel : Seq → Bool) (rnd : Nat → Nat) (p : State × List Out) (op : Op) : State × List Out :=
  ((step mode rel rnd p.1 op).1, p.2 ++ (step mode rel rnd p.1 op).2)

theorem play_hist {mode : Mode} {rel : Seq → Bool} {rnd : Nat → Nat} (ops : List Op) :
    Hist mode rel rnd ops (ops.foldl (play mode rel rnd) ({}, [])).2 (ops.foldl (play mode rel rnd) ({}, [])).1 := by
  have key : ∀ (ops pre : List Op) (p : State × List Out), Hist mode rel rnd pre p.2 p.1 →
      Hist mode rel rnd (pre ++ ops) (ops.foldl (play mode rel rnd) p).2 (ops.foldl (play mode rel rnd) p).1 := by
    intro ops
    induction ops with
    | nil => intro pre p h; rw [List.append_nil]; exact h
    | cons op ops ih =>
      intro pre p h
      have := ih (pre ++ [op]) (play mode rel rnd p op) (.snoc op h)
      rwa [List.append_assoc] at this
  exact key ops [] ({}, []) .nil

/-- The same with the legality of each step checked. -/
def okStep (mode : Mode) (rel : Seq → Bool) (rnd : Nat → Nat) (s : State) (op : Op) : Bool :=
  (match op with
    | .stop => false
    | .tryNext => s.requested.truthy == false || s.nextCalled.truthy == true
    | _ => true) &&
  !(step mode rel rnd s op).2.contains .fatal && !(step mode rel rnd s op).2.contains .raised

def okRun (mode : Mode) (rel : Seq → Bool) (rnd : Nat → Nat) : State → List Op → Bool
  | _, [] => true
  | s, op :: ops => okStep mode rel rnd s op && okRun mode rel rnd (step mode rel rnd s op).1 ops

theorem play_reach {mode : Mode} {rel : Seq → Bool} {rnd : Nat → Nat} (ops : List Op) (hok : okRun mode rel rnd {} ops = true) :
    Reach mode rel rnd ops (ops.foldl (play mode rel rnd) ({}, [])).2 (ops.foldl (play mode rel rnd) ({}, [])).1 := by
  have key : ∀ (ops pre : List Op) (p : State × List Out), Reach mode rel rnd pre p.2 p.1 → okRun mode rel rnd p.1 ops = true →
      Reach mode rel rnd (pre ++ ops) (ops.foldl (play mode rel rnd) p).2 (ops.foldl (play mode rel rnd) p).1 := by
    intro ops
    induction ops with
    | nil => intro pre p h _; rw [List.append_nil]; exact h
    | cons op ops ih =>
      intro pre p h hok
      simp only [okRun, okStep, Bool.and_eq_true, Bool.not_eq_true'] at hok
      obtain ⟨⟨⟨ha, hf⟩, hr⟩, hrest⟩ := hok
      have hal : Allowed p.1 op := by
        cases op <;> simp [Allowed] at ha ⊢
        exact ha
      have hcl : Clean (step mode rel rnd p.1 op).2 := by
        constructor
        · intro hm; rw [List.contains_iff_mem.mpr hm] at hf; cases hf
        · intro hm; rw [List.contains_iff_mem.mpr hm] at hr; cases hr
      have := ih (pre ++ [op]) (play mode rel rnd p op) (.snoc h hal hcl) hrest
      rwa [List.append_assoc] at this
  exact key ops [] ({}, []) .nil hok

/-- Two sequences at the same sequencer. -/
def exA : Seq := .root 1
def exB : Seq := .root 2

/-- A history in which both sequences send one item and the driver finishes both.  Coroutine 1 runs `exA`, coroutine 2 `exB`; the
resumptions after each event are in the order in which the coroutines began to wait. -/
def exBoth : List Op :=
  [.startItem 1 exA 100 false, .startItem 2 exB 100 false, .getNext, .drvStep, .resume 1, .resume 2, .finishItem 1 exA 10 (-1), .drvStep,
    .itemDone, .getNext, .drvStep, .resume 2, .finishItem 2 exB 20 (-1), .resume 1, .drvStep, .itemDone]

example : okRun .fifo (fun _ => true) (fun _ => 0) {} exBoth = true := by decide
example : chosenOf (exBoth.foldl (play .fifo (fun _ => true) (fun _ => 0)) ({}, [])).2 = [1, 2] ∧
    (doneOf (exBoth.foldl (play .fifo (fun _ => true) (fun _ => 0)) ({}, [])).2).map (·.name) = [10, 20] := by decide

/-- Task of a coroutine, for display. -/
def isDoneTask : Task → Option (Int × Bool)
  | .done id w => some (id, w)
  | _ => none

/-- Coroutine 1 waits for its item, which is done, and coroutine 2 is idle. -/
example : ∃ ops outs more s x w, Hist .fifo (fun _ => true) (fun _ => 0) ops (outs ++ .done x :: more) s ∧ (∀ u, Out.waiting u ∉ more) ∧
    isDoneTask (s.tasks 1) = some (x.seqId, w) ∧ isDoneTask (s.tasks 2) = none :=
  ⟨[.startItem 1 exA 100 false, .getNext, .drvStep, .resume 1, .finishItem 1 exA 10 (-1), .resume 1, .drvStep, .itemDone],
    [.chose 1, .granted 1 1, .sent 1 ⟨10, 1, 1⟩ true, .waiting 1, .delivered (some ⟨10, 1, 1⟩)], [], _, ⟨10, 1, 1⟩, false,
    play_hist _, by simp, by decide, by decide⟩

/-- C120 fails for the end of `finish_item`: the driver has finished both items, and the coroutine of the first sequence still waits for
its item, un-woken: `item_done` recorded the id of the first sequence, but before that sequence ran, the second sequence entered
`wait_for_item_done` and reset the record.  (The waking event is not triggered by `item_done` itself, either.) -/
theorem C120_done_lost_fails :
    ∃ ops outs s x, Reach .fifo (fun _ => true) (fun _ => 0) ops outs s ∧ .sent 1 x true ∈ outs ∧ .done x ∈ outs ∧
      sentOf outs = doneOf outs ∧ (∀ id, .finished 1 id ∉ outs) ∧ isDoneTask (s.tasks 1) = some (x.seqId, false) ∧ s.waitSeq ≠ x.seqId := by
  refine ⟨exBoth, _, _, ⟨10, 1, 1⟩, play_reach exBoth (by decide), by decide, by decide, by decide, ?_, by decide, by decide⟩
  intro id hm
  have he : (exBoth.foldl (play .fifo (fun _ => true) (fun _ => 0)) ({}, [])).2 =
      [.chose 1, .granted 1 1, .sent 1 ⟨10, 1, 1⟩ true, .waiting 1, .delivered (some ⟨10, 1, 1⟩), .done ⟨10, 1, 1⟩, .chose 2, .granted 2 2,
        .sent 2 ⟨20, 2, 1⟩ true, .waiting 2, .delivered (some ⟨20, 2, 1⟩), .done ⟨20, 2, 1⟩] := by decide
  rw [he] at hm
  simp at hm

/-- C120 fails: `item_done` does not wake the sequence that waits for it (it stays asleep until some other event of the sequencer). -/
theorem C120_done_not_signalled_fails :
    ∃ ops outs s x, Reach .fifo (fun _ => true) (fun _ => 0) (ops ++ [.itemDone]) outs s ∧ s.waitSeq = x.seqId ∧ .sent 1 x true ∈ outs ∧
      .done x ∈ outs ∧ isDoneTask (s.tasks 1) = some (x.seqId, false) :=
  ⟨[.startItem 1 exA 100 false, .getNext, .drvStep, .resume 1, .finishItem 1 exA 10 (-1), .resume 1, .drvStep], _, _, ⟨10, 1, 1⟩,
    play_reach _ (by decide), by decide, by decide, by decide, by decide⟩

/-- C121 fails when `try_next_item` follows an unfinished `peek`: a second sequence is selected, and its `send_request` is fatal although
it was granted. -/
theorem C121_peek_try_fails :
    ∃ ops outs s, Reach .fifo (fun _ => true) (fun _ => 0) ops outs s ∧ s.drv = .idle ∧ s.fifo.length = 1 ∧
      (∃ i, .chose i ∈ (run (step .fifo (fun _ => true) (fun _ => 0)) s [.tryNext, .drvStep]).2.flatten) ∧
      .fatal ∈ (run (step .fifo (fun _ => true) (fun _ => 0)) s [.tryNext, .drvStep, .resume 2, .finishItem 2 exB 20 (-1)]).2.flatten :=
  ⟨[.startItem 1 exA 100 false, .startItem 2 exB 100 false, .peek, .drvStep, .resume 1, .resume 2, .finishItem 1 exA 10 (-1), .drvStep], _, _,
    play_reach _ (by decide), by decide, by decide, ⟨2, by decide⟩, by decide⟩

/-- C121 fails when the only requests are of sequences that are not relevant: `get_next_item` raises instead of waiting for them. -/
theorem C121_irrelevant_fails (mode : Mode) (rnd : Nat → Nat) (s : State) (c : Call) (rel : Seq → Bool) (hd : s.drv = .nba c)
    (hch : choose mode s.locks rel rnd s.q = .sel (-1)) (r : Req) (hr : r ∈ s.q) (hk : r.kind = .req)
    (hb : isBlocked s.locks r.seq = false) (hrel : rel r.seq = false) : (step mode rel rnd s .drvStep).2 = [.raised] := by
  have : s.q.any (irrelevant rel s.locks) = true := List.any_eq_true.mpr ⟨r, hr, by simp [irrelevant, hk, hb, hrel]⟩
  simp only [step, drvStep, hd, hch, if_true, waitAvail, this]

example : ∃ (s : State) (c : Call) (r : Req), s.drv = .nba c ∧ choose .fifo s.locks (fun _ => false) (fun _ => 0) s.q = .sel (-1) ∧
    r ∈ s.q ∧ r.kind = .req ∧ isBlocked s.locks r.seq = false :=
  ⟨([Op.startItem 1 exA 100 false, .getNext].foldl (play .fifo (fun _ => false) (fun _ => 0)) ({}, [])).1, .getNext,
    ⟨0, 1, .req, exA, 100⟩, by decide, by decide, List.mem_cons_self, by decide, by decide⟩

/-- C121, partial: when nothing can be selected and every request is either blocked or of a relevant sequence, `get_next_item` waits for the next change; nothing
is raised and nothing is delivered. -/
theorem C121_waits_partial (mode : Mode) (rnd : Nat → Nat) (s : State) (c : Call) (rel : Seq → Bool) (hd : s.drv = .nba c)
    (hch : choose mode s.locks rel rnd s.q = .sel (-1))
    (hr : ∀ r ∈ s.q, r.kind = .req → isBlocked s.locks r.seq = true ∨ rel r.seq = true) :
    (step mode rel rnd s .drvStep).2 = [] ∧ (∃ w, (step mode rel rnd s .drvStep).1.drv = .avail c w) ∧ (step mode rel rnd s .drvStep).1.q = s.q := by
  have : s.q.any (irrelevant rel s.locks) = false := by
    rw [List.any_eq_false]
    intro r hm hi
    simp only [irrelevant, Bool.and_eq_true, decide_eq_true_eq, Bool.not_eq_true'] at hi
    rcases hr r hm hi.1.1 with h | h
    · rw [h] at hi; exact absurd hi.1.2 (by simp)
    · rw [h] at hi; exact absurd hi.2 (by simp)
  simp only [step, drvStep, hd, hch, if_true, waitAvail, this]
  exact ⟨rfl, ⟨_, rfl⟩, rfl⟩

/-- The driver asks before anybody has a request; and in a state in which a lock of `exA` blocks the only request. -/
example : (∃ (s : State) (c : Call), Hist .fifo (fun _ => true) (fun _ => 0) [.getNext] [] s ∧ s.drv = .nba c ∧
      choose .fifo s.locks (fun _ => true) (fun _ => 0) s.q = .sel (-1)) ∧
    choose .fifo [exA] (fun _ => true) (fun _ => 0) [⟨0, 2, .req, exB, 100⟩] = .sel (-1) :=
  ⟨⟨_, .getNext, play_hist [.getNext], by decide, by decide⟩, by decide⟩

/-! ## C68: grants are not lost -/

/-- C68: whenever a request has been selected by arbitration and its coroutine still waits for the grant, that coroutine has been woken,
and gets the grant when it runs. -/
theorem C68_grant_not_lost {mode : Mode} {rel : Seq → Bool} {rnd : Nat → Nat} {ops : List Op} {outs : List Out} {s : State}
    (h : Hist mode rel rnd ops outs s) (t : Nat) (sq : Seq) (r n : Nat) (w : Bool) (ht : s.tasks t = .grant sq r n w)
    (hc : ∃ i, (r, i) ∈ s.completed) :
    w = true ∧ (step mode rel rnd s (.resume t)).2 = [.granted t sq.inst] ∧
      (step mode rel rnd s (.resume t)).1.sem sq.inst = s.sem sq.inst + 1 := by
  obtain ⟨i, hi⟩ := hc
  have hany : s.completed.any (·.1 == r) = true := List.any_eq_true.mpr ⟨_, hi, by simp⟩
  obtain ⟨hw, hn⟩ := (hist_live h).sel t sq r n w ht hany
  subst hw
  refine ⟨rfl, ?_, ?_⟩
  · simp only [step, ht]
    rw [if_pos (by omega)]
    simp only [grantLoop, hany, if_true]
  · simp only [step, ht]
    rw [if_pos (by omega)]
    simp only [grantLoop, hany, if_true, upd]

example : ∃ s i, s = ([Op.startItem 1 exA 100 false, .getNext, .drvStep].foldl (play .fifo (fun _ => true) (fun _ => 0)) ({}, [])).1 ∧
    s.tasks 1 = .grant exA 0 1 true ∧ (0, i) ∈ s.completed := ⟨_, 1, rfl, rfl, by decide⟩

/-! ## C35: request history, transaction ids, counts -/

/-- C35: the buffer of last requests is at any time what remembering the newest `n` requests gives, `n` being the limit in force
at each send (at most 1024); for limits that are not negative. -/
theorem C35_history {mode : Mode} {rel : Seq → Bool} {rnd : Nat → Nat} {ops : List Op} {outs : List Out} {s : State}
    (h : Reach mode rel rnd ops outs s) (hn : ∀ n, .limit n ∈ outs → 0 ≤ n) : s.lastBuf = (outs.foldl specHist (1, [])).2 :=
  ((reach_acct h).hist hn).2.1

/-- C35: with a limit set once at the start, the buffer is the newest `n` of all requests sent, newest first. -/
theorem C35_history_const {mode : Mode} {rel : Seq → Bool} {rnd : Nat → Nat} {ops : List Op} {outs more : List Out} {s : State} (n : Nat)
    (hn : n ≤ 1024) (h : Reach mode rel rnd ops (.limit n :: more) s) (hm : ∀ m, .limit m ∉ more) :
    s.lastBuf = (sentOf more).reverse.take n := by
  have key : ∀ (l : List Out) (buf : List Item), (∀ m, .limit m ∉ l) →
      (l.foldl specHist (n, buf.take n)).2 = ((sentOf l).reverse ++ buf).take n := by
    intro l
    induction l with
    | nil => intro buf _; simp [sentOf]
    | cons o l ih =>
      intro buf hl
      have hl' : ∀ m, .limit m ∉ l := fun m hm => hl m (by simp [hm])
      rw [List.foldl_cons]
      cases o with
      | limit m => exact absurd (by simp) (hl m)
      | sent i x a =>
        have : specHist (n, buf.take n) (.sent i x a) = (n, (x :: buf).take n) := by
          simp only [specHist]
          congr 1
          cases n with
          | zero => rfl
          | succ k => simp only [List.take_succ_cons, List.take_take, List.cons.injEq, true_and]; congr 1; omega
        rw [this, ih _ hl']
        simp [sentOf]
      | _ => exact ih buf hl'
  have h0 := C35_history h (by
    intro m hm'
    rcases List.mem_cons.mp hm' with h | h
    · simp only [Out.limit.injEq] at h; omega
    · exact absurd h (hm m))
  rw [h0, List.foldl_cons]
  have e : specHist (1, []) (.limit n) = (n, ([] : List Item).take n) := by
    simp only [specHist, Int.toNat_natCast, List.take_nil]
    congr 1
    omega
  rw [e, key more [] hm, List.append_nil]

/-- C35: the transaction ids given automatically to the items of a sequence are 1, 2, 3, … in the order of sending. -/
theorem C35_transaction_ids {mode : Mode} {rel : Seq → Bool} {rnd : Nat → Nat} {ops : List Op} {outs : List Out} {s : State}
    (h : Reach mode rel rnd ops outs s) (i : Nat) :
    autoOf i outs = (List.range (autoOf i outs).length).map (fun (n : Nat) => (n : Int) + 1) := (reach_acct h).auto i

/-- C35: `get_num_reqs_sent` counts the requests sent. -/
theorem C35_num_sent {mode : Mode} {rel : Seq → Bool} {rnd : Nat → Nat} {ops : List Op} {outs : List Out} {s : State}
    (h : Reach mode rel rnd ops outs s) : s.numSent = (sentOf outs).length := (reach_acct h).num

/-- A history with three requests of two sequences and a limit of two. -/
def exThree : List Op :=
  [.setNumLast 2, .startItem 1 exA 100 false, .get, .drvStep, .resume 1, .send exA 10 (-1), .drvStep,
    .startItem 2 exB 100 false, .get, .drvStep, .resume 2, .send exB 20 7, .drvStep,
    .startItem 1 exA 100 false, .get, .drvStep, .resume 1, .send exA 11 (-1), .drvStep]

example : okRun .fifo (fun _ => true) (fun _ => 0) {} exThree = true ∧
    ((exThree.foldl (play .fifo (fun _ => true) (fun _ => 0)) ({}, [])).1.lastBuf).map (·.name) = [11, 20] ∧
    autoOf 1 (exThree.foldl (play .fifo (fun _ => true) (fun _ => 0)) ({}, [])).2 = [1, 2] ∧
    (exThree.foldl (play .fifo (fun _ => true) (fun _ => 0)) ({}, [])).1.numSent = 3 := by decide

/-- C101 fails for a negative limit: it is accepted and the buffer then grows without bound. -/
theorem C101_negative_limit_fails (n : Int) (hn : n < 0) (buf : List Item) (xs : List Item) :
    (xs.foldl (fun b x => pushHist n b x) buf).length = buf.length + xs.length := by
  induction xs generalizing buf with
  | nil => rfl
  | cons x xs ih =>
    rw [List.foldl_cons, ih]
    unfold pushHist
    rw [if_neg (by omega), if_neg (by omega)]
    simp only [List.length_cons]
    omega

example : (setNumLast {} (-1)).numLast = -1 := by decide

/-! ## C66: stop_sequences -/

/-- C66 fails: after `stop_sequences` (with no sequence registered) `get_next_item` never arbitrates again: the driver's call goes straight
to the FIFO and stays there, whatever number of steps it is given, although a sequence waits for its grant. -/
theorem C66_stop_fails (k : Nat) :
    ∃ s, s = ([Op.stop, .startItem 1 exA 100 false, .getNext].foldl (play .fifo (fun _ => true) (fun _ => 0)) ({}, [])).1 ∧
      s.q.length = 1 ∧ isBlocked s.locks exA = false ∧
      run (step .fifo (fun _ => true) (fun _ => 0)) s (List.replicate k .drvStep) = (s, List.replicate k []) := by
  refine ⟨_, rfl, by decide, by decide, ?_⟩
  induction k with
  | zero => rfl
  | succ k ih =>
    rw [List.replicate_succ, List.replicate_succ, run]
    have hd : ([Op.stop, .startItem 1 exA 100 false, .getNext].foldl (play .fifo (fun _ => true) (fun _ => 0)) ({}, [])).1.drv =
        .peeking .getNext false := by decide
    simp only [step, drvStep, hd]
    simp only [ih]

/-- The same without the stop: the sequence is selected. -/
example : (run (step .fifo (fun _ => true) (fun _ => 0))
    ([Op.startItem 1 exA 100 false, .getNext].foldl (play .fifo (fun _ => true) (fun _ => 0)) ({}, [])).1 [.drvStep]).2 = [[.chose 1]] := by decide

/-- C66, partial: `stop_sequences` empties the request FIFO and forgets the outstanding request for the calls `peek` and `get`; it is
refused with an exception, changing nothing, when a sequence is registered. -/
theorem C66_stop_partial {mode : Mode} {rel : Seq → Bool} {rnd : Nat → Nat} (s : State) :
    (s.reg = [] → (step mode rel rnd s .stop).1.fifo = [] ∧ (step mode rel rnd s .stop).2 = [] ∧
      (step mode rel rnd s .stop).1.requested.truthy = false) ∧
    (s.reg ≠ [] → step mode rel rnd s .stop = (s, [.raised])) := by
  constructor
  · intro h
    simp [step, stop, stopSequences, h, PyFlag.truthy]
  · intro h
    cases hr : s.reg with
    | nil => exact absurd hr h
    | cons p ps => simp [step, stop, stopSequences, hr]

/-! ## C67: responses are routed to the sequence that sent the request -/

/-- C67: a response with the sequence id of a sent item never goes to another sequence. -/
theorem C67_never_misrouted {mode : Mode} {rel : Seq → Bool} {rnd : Nat → Nat} {ops : List Op} {outs : List Out} {s : State}
    (h : Hist mode rel rnd ops outs s) (i j : Nat) (x : Item) (a : Bool) (hx : .sent i x a ∈ outs)
    (hj : .routed j ∈ (step mode rel rnd s (.putResponse x.seqId)).2) : j = i := by
  have hI := hist_ids h
  obtain ⟨h1, h2, h3, h4⟩ := hI.sent i x a hx
  simp only [step, putResponse, if_neg (show x.seqId ≠ -1 by omega)] at hj
  split at hj
  next p hp =>
    have hm := List.mem_of_find?_eq_some hp
    have he := List.find?_some hp
    simp only [beq_iff_eq] at he
    simp only [List.mem_singleton, Out.routed.injEq] at hj
    rw [hj]
    exact h3 p hm he
  · simp at hj

/-- C67: and while the sequence has not exited, the response does reach it. -/
theorem C67_routed {mode : Mode} {rel : Seq → Bool} {rnd : Nat → Nat} {ops : List Op} {outs : List Out} {s : State}
    (h : Hist mode rel rnd ops outs s) (i : Nat) (x : Item) (a : Bool) (hx : .sent i x a ∈ outs)
    (hops : ∀ sq, .exit sq ∈ ops → sq.inst ≠ i) : (step mode rel rnd s (.putResponse x.seqId)).2 = [.routed i] := by
  have hI := hist_ids h
  obtain ⟨h1, h2, h3, h4⟩ := hI.sent i x a hx
  have hm := (hist_registered h i hops).2 x a hx
  simp only [step, putResponse, if_neg (show x.seqId ≠ -1 by omega)]
  split
  next p hp =>
    have he := List.find?_some hp
    simp only [beq_iff_eq] at he
    rw [h3 p (List.mem_of_find?_eq_some hp) he]
  next hp => exact absurd (List.find?_eq_none.mp hp _ hm) (by simp)

/-- C67: a response for a sequence id that was never assigned is dropped (with a report), and one without id is fatal. -/
theorem C67_unknown {mode : Mode} {rel : Seq → Bool} {rnd : Nat → Nat} {ops : List Op} {outs : List Out} {s : State}
    (h : Hist mode rel rnd ops outs s) (id : Int) :
    (id = -1 → (step mode rel rnd s (.putResponse id)).2 = [.fatal]) ∧
    (id ≠ -1 → (∀ p ∈ s.reg, p.1 ≠ id) → (step mode rel rnd s (.putResponse id)).2 = [.rspDropped]) ∧
    (id = 0 → (step mode rel rnd s (.putResponse id)).2 = [.rspDropped]) := by
  have hnone : ∀ id : Int, id ≠ -1 → (∀ p ∈ s.reg, p.1 ≠ id) → (step mode rel rnd s (.putResponse id)).2 = [.rspDropped] := by
    intro id h1 h2
    have : s.reg.find? (·.1 == id) = none := List.find?_eq_none.mpr fun p hp => by simp [h2 p hp]
    simp only [step, putResponse, if_neg h1, this]
  refine ⟨?_, hnone id, ?_⟩
  · intro he; subst he; simp [step, putResponse]
  · intro he
    subst he
    refine hnone 0 (by omega) fun p hp => ?_
    have := (hist_ids h).reg p hp
    omega

example : (run (step .fifo (fun _ => true) (fun _ => 0)) (exBoth.foldl (play .fifo (fun _ => true) (fun _ => 0)) ({}, [])).1
    [.putResponse 1, .putResponse 2, .exit exB, .putResponse 2, .putResponse 1]).2 = [[.routed 1], [.routed 2], [], [.rspDropped], [.routed 1]] := by
  decide

end Verif.Sequencer
