import Verif.Lemmas.Sequencer
/-! # Lemmas about the sequencer: sequence ids, transaction ids, request history, done notifications -/
namespace Verif.Sequencer
open Arbiter

/-- Parts of the state a driver call leaves alone. -/
structure Frame (s s' : State) : Prop where
  ids : s'.ids = s.ids
  gSeq : s'.gSeq = s.gSeq
  reg : s'.reg = s.reg
  sem : s'.sem = s.sem
  numSent : s'.numSent = s.numSent
  nextTr : s'.nextTr = s.nextTr
  lastBuf : s'.lastBuf = s.lastBuf
  numLast : s'.numLast = s.numLast
  tasks : ∀ t, s'.tasks t = s.tasks t ∨ s'.tasks t = wakeTask (s.tasks t)

theorem wakeTask_idem (k : Task) : wakeTask (wakeTask k) = wakeTask k := by cases k <;> rfl

theorem Frame.refl (s : State) : Frame s s := ⟨rfl, rfl, rfl, rfl, rfl, rfl, rfl, rfl, fun _ => Or.inl rfl⟩
theorem Frame.trans {a b c : State} (h : Frame a b) (h' : Frame b c) : Frame a c := by
  refine ⟨by rw [h'.ids, h.ids], by rw [h'.gSeq, h.gSeq], by rw [h'.reg, h.reg], by rw [h'.sem, h.sem], by rw [h'.numSent, h.numSent],
    by rw [h'.nextTr, h.nextTr], by rw [h'.lastBuf, h.lastBuf], by rw [h'.numLast, h.numLast], ?_⟩
  intro t
  rcases h'.tasks t with h1 | h1 <;> rcases h.tasks t with h2 | h2 <;> rw [h1, h2]
  · simp
  · simp
  · simp
  · rw [wakeTask_idem]; simp

theorem Frame.same {s s' : State} (h1 : s'.ids = s.ids) (h2 : s'.gSeq = s.gSeq) (h3 : s'.reg = s.reg) (h4 : s'.sem = s.sem)
    (h5 : s'.numSent = s.numSent) (h6 : s'.nextTr = s.nextTr) (h7 : s'.lastBuf = s.lastBuf) (h8 : s'.numLast = s.numLast)
    (h9 : s'.tasks = s.tasks) : Frame s s' := ⟨h1, h2, h3, h4, h5, h6, h7, h8, fun t => Or.inl (by rw [h9])⟩

theorem frame_event (s : State) : Frame s (setEvent s) := ⟨rfl, rfl, rfl, rfl, rfl, rfl, rfl, rfl, fun _ => Or.inr rfl⟩
theorem frame_update (s : State) : Frame s (updateLists s) := ⟨rfl, rfl, rfl, rfl, rfl, rfl, rfl, rfl, fun _ => Or.inr rfl⟩

/-- What driver calls do: no item is sent, no limit set, and marks are set by `item_done` only. -/
structure DrvEff (s : State) (r : State × List Out) : Prop where
  frame : Frame s r.1
  nosent : ∀ i x a, Out.sent i x a ∉ r.2
  nolimit : ∀ n, Out.limit n ∉ r.2
  mark : r.1.waitSeq = r.2.foldl mark s.waitSeq
  nofin : ∀ t id, Out.finished t id ∉ r.2

theorem deliver_drv (s : State) (c : Call) (x : Option Item) : DrvEff s (deliver s c x) := by
  unfold deliver
  cases c with
  | getNext => exact ⟨Frame.same rfl rfl rfl rfl rfl rfl rfl rfl rfl, by simp, by simp, rfl, by simp⟩
  | peek => exact ⟨Frame.same rfl rfl rfl rfl rfl rfl rfl rfl rfl, by simp, by simp, rfl, by simp⟩
  | get =>
    simp only
    split
    · exact ⟨Frame.same rfl rfl rfl rfl rfl rfl rfl rfl rfl, by simp, by simp, rfl, by simp⟩
    · split
      · exact ⟨Frame.same rfl rfl rfl rfl rfl rfl rfl rfl rfl, by simp, by simp, rfl, by simp⟩
      · exact ⟨Frame.same rfl rfl rfl rfl rfl rfl rfl rfl rfl, by simp, by simp, rfl, by simp⟩

theorem itemDone_drv (s : State) : DrvEff s (itemDone s) := by
  unfold itemDone
  split
  · exact ⟨Frame.same rfl rfl rfl rfl rfl rfl rfl rfl rfl, by simp, by simp, rfl, by simp⟩
  · simp only
    split
    · exact ⟨Frame.same rfl rfl rfl rfl rfl rfl rfl rfl rfl, by simp, by simp, rfl, by simp⟩
    · exact ⟨Frame.same rfl rfl rfl rfl rfl rfl rfl rfl rfl, by simp, by simp, rfl, by simp⟩

theorem setFlags_frame (s : State) (c : Call) : Frame s (setFlags s c) ∧ (setFlags s c).waitSeq = s.waitSeq := by
  cases c <;> exact ⟨Frame.same rfl rfl rfl rfl rfl rfl rfl rfl rfl, rfl⟩

theorem afterSelect_drv (s : State) (c : Call) : DrvEff s (afterSelect s c) := by
  obtain ⟨hf, hw⟩ := setFlags_frame s c
  unfold afterSelect
  split
  · have := deliver_drv (setFlags s c) c
    exact ⟨hf.trans (this _).frame, (this _).nosent, (this _).nolimit, by rw [(this _).mark, hw], (this _).nofin⟩
  · exact ⟨hf.trans (Frame.same rfl rfl rfl rfl rfl rfl rfl rfl rfl), by simp, by simp, hw, by simp⟩

theorem grantReq_drv (s : State) (n : Nat) : DrvEff s (grantReq s n) := by
  unfold grantReq
  split
  · exact ⟨Frame.refl s, by simp, by simp, rfl, by simp⟩
  · exact ⟨⟨rfl, rfl, rfl, rfl, rfl, rfl, rfl, rfl, fun _ => Or.inr rfl⟩, by simp, by simp, rfl, by simp⟩

theorem DrvEff.andThen {s : State} {r : State × List Out} {r' : State × List Out} (h : DrvEff s r) (h' : DrvEff r.1 r') :
    DrvEff s (r'.1, r.2 ++ r'.2) := by
  refine ⟨h.frame.trans h'.frame, ?_, ?_, ?_, ?_⟩
  · intro i x a; simp [h.nosent i x a, h'.nosent i x a]
  · intro n; simp [h.nolimit n, h'.nolimit n]
  · rw [h'.mark, h.mark, List.foldl_append]
  · intro t id; simp [h.nofin t id, h'.nofin t id]

theorem DrvEff.of {s s' : State} {r : List Out} (h1 : s'.ids = s.ids) (h2 : s'.gSeq = s.gSeq) (h3 : s'.reg = s.reg) (h4 : s'.sem = s.sem)
    (h5 : s'.numSent = s.numSent) (h6 : s'.nextTr = s.nextTr) (h7 : s'.lastBuf = s.lastBuf) (h8 : s'.numLast = s.numLast)
    (h9 : s'.tasks = s.tasks) (h10 : s'.waitSeq = s.waitSeq)
    (hr : ∀ e ∈ r, e = .error ∨ e = .raised ∨ e = .fatal ∨ e = .nothing ∨ (∃ x, e = .delivered x) ∨ (∃ i, e = .routed i) ∨ e = .rspDropped) :
    DrvEff s (s', r) := by
  refine ⟨Frame.same h1 h2 h3 h4 h5 h6 h7 h8 h9, ?_, ?_, ?_, ?_⟩
  · intro i x a hm; have := hr _ hm; simp at this
  · intro n hm; have := hr _ hm; simp at this
  · show s'.waitSeq = _
    rw [h10]
    clear h1 h2 h3 h4 h5 h6 h7 h8 h9 h10
    induction r with
    | nil => rfl
    | cons e r ih =>
      have he : Sequencer.mark s.waitSeq e = s.waitSeq := by
        rcases hr e (by simp) with h | h | h | h | ⟨x, h⟩ | ⟨x, h⟩ | h <;> rw [h] <;> rfl
      rw [List.foldl_cons, he]
      exact ih fun e he => hr e (by simp [he])
  · intro t id hm; have := hr _ hm; simp at this

theorem waitAvail_drv (rel : Seq → Bool) (s : State) (c : Call) : DrvEff s (waitAvail rel s c) := by
  unfold waitAvail
  have hf : Frame s (setEvent { s with arb := s.lockArb }) :=
    ⟨rfl, rfl, rfl, rfl, rfl, rfl, rfl, rfl, fun _ => Or.inr rfl⟩
  simp only
  split
  · exact ⟨hf.trans (Frame.same rfl rfl rfl rfl rfl rfl rfl rfl rfl), by simp, by simp, rfl, by simp⟩
  · exact ⟨hf.trans (Frame.same rfl rfl rfl rfl rfl rfl rfl rfl rfl), by simp, by simp, rfl, by simp⟩

theorem drvCall_drv (s : State) (c : Call) : DrvEff s (drvCall s c) := by
  unfold drvCall
  have he : ∀ p : Prop, [Decidable p] → ∀ e ∈ (if p then [Out.error] else []), e = Out.error := by
    intro p _ e he
    split at he <;> simp at he
    exact he
  simp only
  by_cases hsel : needsSelect s c = true
  · rw [if_pos hsel]
    exact DrvEff.of rfl rfl rfl rfl rfl rfl rfl rfl rfl rfl (fun e hm => Or.inl (he _ e hm))
  · rw [if_neg hsel]
    have h1 : DrvEff s (s, if c = .getNext ∧ s.nextCalled = .true_ then [Out.error] else []) :=
      DrvEff.of rfl rfl rfl rfl rfl rfl rfl rfl rfl rfl (fun e hm => Or.inl (he _ e hm))
    exact h1.andThen (afterSelect_drv s c)

theorem drvStep_drv (mode : Mode) (rel : Seq → Bool) (rnd : Nat → Nat) (s : State) : DrvEff s (drvStep mode rel rnd s) := by
  have hself : DrvEff s (s, []) := DrvEff.of rfl rfl rfl rfl rfl rfl rfl rfl rfl rfl (by simp)
  unfold drvStep
  split
  · exact hself
  · split
    · exact DrvEff.of rfl rfl rfl rfl rfl rfl rfl rfl rfl rfl (by simp)
    · exact DrvEff.of rfl rfl rfl rfl rfl rfl rfl rfl rfl rfl (by simp)
    next c _ _ i _ =>
      by_cases hi : i = -1
      · rw [if_pos hi]; exact waitAvail_drv rel s c
      · rw [if_neg hi]; exact (grantReq_drv s i.toNat).andThen (afterSelect_drv _ c)
  · split
    · exact DrvEff.of rfl rfl rfl rfl rfl rfl rfl rfl rfl rfl (by simp)
    · exact DrvEff.of rfl rfl rfl rfl rfl rfl rfl rfl rfl rfl (by simp)
  · exact hself
  · exact deliver_drv s _ _
  · exact hself
  · split
    · exact DrvEff.of rfl rfl rfl rfl rfl rfl rfl rfl rfl rfl (by simp)
    · exact DrvEff.of rfl rfl rfl rfl rfl rfl rfl rfl rfl rfl (by simp)
    next i _ =>
      by_cases hi : i = -1
      · rw [if_pos hi]; exact DrvEff.of rfl rfl rfl rfl rfl rfl rfl rfl rfl rfl (by simp)
      · rw [if_neg hi]
        have := grantReq_drv s i.toNat
        exact ⟨this.frame.trans (Frame.same rfl rfl rfl rfl rfl rfl rfl rfl rfl), this.nosent, this.nolimit, this.mark, this.nofin⟩
  · split
    · exact DrvEff.of rfl rfl rfl rfl rfl rfl rfl rfl rfl rfl (by simp)
    · exact DrvEff.of rfl rfl rfl rfl rfl rfl rfl rfl rfl rfl (by simp)

/-- Operations of the driver (and responses). -/
def isDrv : Op → Bool
  | .getNext | .peek | .get | .tryNext | .itemDone | .drvStep | .putResponse _ | .stop => true
  | _ => false

theorem step_drv {mode : Mode} {rel : Seq → Bool} {rnd : Nat → Nat} (s : State) (op : Op) (h : isDrv op = true) :
    DrvEff s (step mode rel rnd s op) := by
  have hself : DrvEff s (s, []) := DrvEff.of rfl rfl rfl rfl rfl rfl rfl rfl rfl rfl (by simp)
  cases op with
  | getNext => simp only [step]; split <;> first | exact drvCall_drv s _ | exact hself
  | peek => simp only [step]; split <;> first | exact drvCall_drv s _ | exact hself
  | get => simp only [step]; split <;> first | exact drvCall_drv s _ | exact hself
  | tryNext =>
    simp only [step]; split
    · split
      · exact DrvEff.of rfl rfl rfl rfl rfl rfl rfl rfl rfl rfl (by simp)
      · exact DrvEff.of rfl rfl rfl rfl rfl rfl rfl rfl rfl rfl (by simp)
    · exact hself
  | itemDone => simp only [step]; split <;> first | exact itemDone_drv s | exact hself
  | drvStep => exact drvStep_drv mode rel rnd s
  | putResponse id =>
    simp only [step, putResponse]
    split
    · exact DrvEff.of rfl rfl rfl rfl rfl rfl rfl rfl rfl rfl (by simp)
    · split
      · exact DrvEff.of rfl rfl rfl rfl rfl rfl rfl rfl rfl rfl (by simp)
      · exact DrvEff.of rfl rfl rfl rfl rfl rfl rfl rfl rfl rfl (by simp)
  | stop =>
    simp only [step, stop]
    split
    · exact DrvEff.of rfl rfl rfl rfl rfl rfl rfl rfl rfl rfl (by simp)
    · exact DrvEff.of rfl rfl rfl rfl rfl rfl rfl rfl rfl rfl (by simp)
  | _ => cases h

/-- Every way an item is sent. -/
theorem sendRequest_cases (s : State) (i x : Nat) (tr : Int) :
    (s.sem i < 1 ∧ sendRequest s i x tr = (s, [.fatal], false)) ∨
    (1 ≤ s.sem i ∧ s.fifo ≠ [] ∧ sendRequest s i x tr = (prepare s i x tr, [.fatal], false)) ∨
    (1 ≤ s.sem i ∧ s.fifo = [] ∧ ∃ r b, sendRequest s i x tr =
      ({ prepare s i x tr with fifo := [mkItem s i x tr], drv := wakePeek s.drv, numSent := s.numSent + 1 },
        .sent i (mkItem s i x tr) (tr == -1) :: r, b) ∧ ((b = true ∧ r = []) ∨ (b = false ∧ r = [.raised]))) := by
  unfold sendRequest
  by_cases h1 : s.sem i < 1
  · exact Or.inl ⟨h1, by rw [if_pos h1]⟩
  · rw [if_neg h1]
    by_cases h2 : s.fifo.length ≥ 1
    · refine Or.inr (Or.inl ⟨by omega, ?_, by rw [if_pos h2]⟩)
      intro h; rw [h] at h2; simp at h2
    · rw [if_neg h2]
      have hf : s.fifo = [] := List.eq_nil_of_length_eq_zero (by omega)
      refine Or.inr (Or.inr ⟨by omega, hf, ?_⟩)
      by_cases h3 : grantQueuedLocks s.q = false
      · rw [if_pos h3]; exact ⟨_, _, by rw [hf]; rfl, Or.inr ⟨rfl, rfl⟩⟩
      · rw [if_neg h3]; exact ⟨_, _, by rw [hf]; rfl, Or.inl ⟨rfl, rfl⟩⟩

/-! ## Sequence ids -/

/-- Sequence ids identify their sequence. -/
structure Ids (outs : List Out) (s : State) : Prop where
  pos : 1 ≤ s.gSeq
  ids : ∀ i, s.ids i = -1 ∨ (0 < s.ids i ∧ s.ids i < s.gSeq)
  reg : ∀ p ∈ s.reg, 0 < p.1 ∧ p.1 < s.gSeq
  uniq : ∀ i j, s.ids i = s.ids j → 0 < s.ids i → i = j
  own : ∀ p ∈ s.reg, ∀ i, s.ids i = p.1 → i = p.2
  key : ∀ p ∈ s.reg, ∀ p' ∈ s.reg, p.1 = p'.1 → p.2 = p'.2
  sent : ∀ i x a, Out.sent i x a ∈ outs → 0 < x.seqId ∧ x.seqId < s.gSeq ∧ (∀ p ∈ s.reg, p.1 = x.seqId → p.2 = i) ∧
    (∀ j, s.ids j = x.seqId → j = i)
  sem : ∀ i, 1 ≤ s.sem i → 0 < s.ids i
  grant : ∀ t sq r n w, s.tasks t = .grant sq r n w → 0 < s.ids sq.inst
  done : ∀ t id w, s.tasks t = .done id w → 0 < id

theorem ids_init : Ids [] {} := by
  refine ⟨by decide, fun _ => Or.inl rfl, by simp, ?_, by simp, by simp, by simp, ?_, by simp, by simp⟩
  · intro i j _ h; exact absurd h (by show ¬ _; simp)
  · intro i h; exact absurd h (by show ¬ _; simp)

theorem Ids.frame {outs r : List Out} {s s' : State} (h : Ids outs s) (hf : Frame s s') (hr : ∀ i x a, Out.sent i x a ∉ r) :
    Ids (outs ++ r) s' := by
  refine ⟨by rw [hf.gSeq]; exact h.pos, by rw [hf.ids, hf.gSeq]; exact h.ids, by rw [hf.reg, hf.gSeq]; exact h.reg,
    by rw [hf.ids]; exact h.uniq, by rw [hf.reg, hf.ids]; exact h.own, by rw [hf.reg]; exact h.key, ?_, by rw [hf.sem, hf.ids]; exact h.sem,
    ?_, ?_⟩
  · intro i x a hm
    rw [hf.gSeq, hf.reg, hf.ids]
    rcases List.mem_append.mp hm with hm | hm
    · exact h.sent i x a hm
    · exact absurd hm (hr i x a)
  · intro t sq r n w ht
    rw [hf.ids]
    rcases hf.tasks t with h1 | h1
    · rw [h1] at ht; exact h.grant t sq r n w ht
    · rw [h1] at ht
      obtain ⟨n', w', ht'⟩ := wakeTask_grant ht
      exact h.grant t sq r n' w' ht'
  · intro t id w ht
    rcases hf.tasks t with h1 | h1
    · rw [h1] at ht; exact h.done t id w ht
    · rw [h1] at ht
      cases hk : s.tasks t with
      | done id' w' =>
        rw [hk] at ht
        simp only [wakeTask, Task.done.injEq] at ht
        rw [← ht.1]; exact h.done t id' w' hk
      | _ => rw [hk] at ht; cases ht

/-- Assigning a fresh id to a sequence that has none. -/
theorem Ids.assign {outs : List Out} {s : State} (h : Ids outs s) (i : Nat) : Ids outs (assignId s i) := by
  have hp := h.pos
  have hreg : ∀ p ∈ (assignId s i).reg, p ∈ s.reg ∨ p = (s.gSeq, i) := by
    intro p hp
    simp only [assignId, List.mem_append, List.mem_filter, List.mem_singleton] at hp
    rcases hp with hp | hp
    · exact Or.inl hp.1
    · exact Or.inr hp
  have hid : ∀ j, (assignId s i).ids j = if j = i then s.gSeq else s.ids j := fun j => rfl
  have hg : (assignId s i).gSeq = s.gSeq + 1 := rfl
  have hlt : ∀ j, s.ids j < s.gSeq := by
    intro j; rcases h.ids j with h1 | h1 <;> omega
  refine ⟨by rw [hg]; omega, ?_, ?_, ?_, ?_, ?_, ?_, ?_, ?_, ?_⟩
  · intro j
    rw [hid, hg]
    split
    · right; omega
    · rcases h.ids j with h1 | h1
      · exact Or.inl h1
      · exact Or.inr ⟨h1.1, by omega⟩
  · intro p hp'
    rw [hg]
    rcases hreg p hp' with h1 | h1
    · have := h.reg p h1; omega
    · rw [h1]; simp only; omega
  · intro j k
    rw [hid, hid]
    have hj := hlt j
    have hk := hlt k
    split <;> split
    · intro _ _; simp_all
    · intro hjk; omega
    · intro hjk; omega
    · exact h.uniq j k
  · intro p hp' j
    rw [hid]
    have hj := hlt j
    rcases hreg p hp' with h1 | h1
    · have := h.reg p h1
      split
      · intro he; omega
      · exact h.own p h1 j
    · rw [h1]
      split
      next hji => intro _; exact hji
      · intro he; simp only at he; omega
  · intro p hp' p' hp''
    rcases hreg p hp' with h1 | h1 <;> rcases hreg p' hp'' with h2 | h2
    · exact h.key p h1 p' h2
    · have := h.reg p h1; rw [h2]; intro he; simp only at he; omega
    · have := h.reg p' h2; rw [h1]; intro he; simp only at he; omega
    · rw [h1, h2]; simp
  · intro j x a hm
    obtain ⟨h1, h2, h3, h4⟩ := h.sent j x a hm
    refine ⟨h1, by rw [hg]; omega, ?_, ?_⟩
    · intro p hp' he
      rcases hreg p hp' with h5 | h5
      · exact h3 p h5 he
      · rw [h5] at he; simp only at he; omega
    · intro k
      rw [hid]
      split
      · intro he; omega
      · exact h4 k
  · intro j hj
    rw [hid]
    split
    · omega
    · exact h.sem j hj
  · intro t sq r n w ht
    rw [hid]
    split
    · omega
    · exact h.grant t sq r n w ht
  · exact h.done

theorem Ids.register {outs : List Out} {s : State} (h : Ids outs s) (i : Nat) :
    Ids outs (register s i) ∧ 0 < (register s i).ids i := by
  unfold Sequencer.register
  by_cases hi : s.ids i > 0
  · rw [if_pos hi]; exact ⟨h, hi⟩
  · rw [if_neg hi]
    refine ⟨h.assign i, ?_⟩
    have := h.pos
    simp only [assignId, upd, if_true]
    omega

/-- Restarting a sequence: the id is replaced by a fresh one at once. -/
theorem startSeq_eq (s : State) (i : Nat) : startSeq s i = assignId s i := by
  have hu : upd (upd s.ids i (-1)) i s.gSeq = upd s.ids i s.gSeq := by
    funext j; simp only [upd]; split <;> rfl
  show (if upd s.ids i (-1) i > 0 then _ else assignId { s with ids := upd s.ids i (-1) } i) = _
  rw [if_neg (by simp [upd])]
  simp only [assignId, hu]

theorem Ids.pushReqs {outs : List Out} {s : State} (h : Ids outs s) (sq : Seq) (prio : Int) (lock : Bool) :
    Ids outs (pushReqs s sq prio lock) := by
  cases lock <;> exact ⟨h.pos, h.ids, h.reg, h.uniq, h.own, h.key, h.sent, h.sem, h.grant, h.done⟩

theorem append_nil' (outs : List Out) : outs ++ [] = outs := List.append_nil _

theorem Ids.noSent {outs r : List Out} {s : State} (h : Ids outs s) (hr : ∀ i x a, Out.sent i x a ∉ r) : Ids (outs ++ r) s :=
  h.frame (Frame.refl s) hr

theorem Ids.grantLoop {outs : List Out} {s : State} (h : Ids outs s) (t : Nat) (sq : Seq) (r : Nat) (hi : 0 < s.ids sq.inst) :
    Ids (outs ++ (grantLoop s t sq r).2) (grantLoop s t sq r).1 := by
  unfold Sequencer.grantLoop
  by_cases hc : s.completed.any (·.1 == r) = true
  · rw [if_pos hc]
    refine Ids.noSent ⟨h.pos, h.ids, h.reg, h.uniq, h.own, h.key, h.sent, ?_, ?_, ?_⟩ (by simp)
    · intro j hj
      simp only [upd] at hj
      split at hj
      next hji => rw [hji]; exact hi
      · exact h.sem j hj
    · intro u sq' r n w hw
      simp only [upd] at hw
      split at hw
      · cases hw
      · exact h.grant u sq' r n w hw
    · intro u id w hw
      simp only [upd] at hw
      split at hw
      · cases hw
      · exact h.done u id w hw
  · rw [if_neg hc]
    refine Ids.noSent ⟨h.pos, h.ids, h.reg, h.uniq, h.own, h.key, h.sent, h.sem, ?_, ?_⟩ (by simp)
    · intro u sq' r n w hw
      simp only [upd] at hw
      split at hw
      · simp only [Task.grant.injEq] at hw; rw [← hw.1]; exact hi
      · exact h.grant u sq' r n w hw
    · intro u id w hw
      simp only [upd] at hw
      split at hw
      · cases hw
      · exact h.done u id w hw

theorem Ids.send {outs : List Out} {s : State} (h : Ids outs s) (i x : Nat) (tr : Int) :
    Ids (outs ++ (sendRequest s i x tr).2.1) (sendRequest s i x tr).1 ∧ (sendRequest s i x tr).1.ids = s.ids ∧
      ((sendRequest s i x tr).2.2 = true → 0 < s.ids i) := by
  have hprep : Ids outs (prepare s i x tr) := by
    refine ⟨h.pos, h.ids, h.reg, h.uniq, h.own, h.key, h.sent, ?_, h.grant, h.done⟩
    intro j hj
    simp only [prepare, upd] at hj
    split at hj
    next hji => rw [hji] at *; exact h.sem i (by omega)
    · exact h.sem j hj
  rcases sendRequest_cases s i x tr with ⟨_, e⟩ | ⟨_, _, e⟩ | ⟨h1, h2, r, b, e, hr⟩
  · rw [e]; exact ⟨h.noSent (by simp), rfl, by simp⟩
  · rw [e]; exact ⟨hprep.noSent (by simp), rfl, by simp⟩
  · rw [e]
    have hpos := h.sem i h1
    refine ⟨⟨hprep.pos, hprep.ids, hprep.reg, hprep.uniq, hprep.own, hprep.key, ?_, hprep.sem, hprep.grant, hprep.done⟩, rfl, fun _ => hpos⟩
    intro j y a hm
    rcases List.mem_append.mp hm with hm | hm
    · exact h.sent j y a hm
    · simp only [List.mem_cons] at hm
      rcases hm with hm | hm
      · simp only [Out.sent.injEq] at hm
        obtain ⟨rfl, rfl, rfl⟩ := hm
        refine ⟨hpos, ?_, ?_, ?_⟩
        · show s.ids j < s.gSeq
          rcases h.ids j with hh | hh <;> omega
        · intro p hp he
          exact (h.own p hp j he.symm).symm
        · intro k hk
          exact h.uniq k j hk (by
            have : s.ids k = s.ids j := hk
            omega)
      · rcases hr with ⟨_, rfl⟩ | ⟨_, rfl⟩ <;> simp at hm

theorem Ids.waitDone {outs : List Out} {s : State} (h : Ids outs s) (t : Nat) (id : Int) (hid : 0 < id) :
    Ids (outs ++ (waitDone s t id).2) (waitDone s t id).1 := by
  unfold Sequencer.waitDone
  rw [if_neg (by omega)]
  refine Ids.noSent ⟨h.pos, h.ids, h.reg, h.uniq, h.own, h.key, h.sent, h.sem, ?_, ?_⟩ (by simp)
  · intro u sq' r n w hw
    simp only [upd] at hw
    split at hw
    · cases hw
    · exact h.grant u sq' r n w hw
  · intro u id' w hw
    simp only [upd] at hw
    split at hw
    · simp only [Task.done.injEq] at hw; rw [← hw.1]; exact hid
    · exact h.done u id' w hw

theorem Ids.task {outs : List Out} {s : State} (h : Ids outs s) (t : Nat) (k : Task) (b : Bool)
    (h1 : ∀ sq r n w, k = .grant sq r n w → 0 < s.ids sq.inst) (h2 : ∀ id w, k = .done id w → 0 < id) :
    Ids outs { s with fired := b, tasks := upd s.tasks t k } := by
  refine ⟨h.pos, h.ids, h.reg, h.uniq, h.own, h.key, h.sent, h.sem, ?_, ?_⟩
  · intro u sq' r n w hw
    simp only [upd] at hw
    split at hw
    · exact h1 _ _ _ _ hw
    · exact h.grant u sq' r n w hw
  · intro u id' w hw
    simp only [upd] at hw
    split at hw
    · exact h2 _ _ hw
    · exact h.done u id' w hw

theorem exitSeq_frame (s : State) (sq : Seq) :
    Frame { s with reg := s.reg.filter (·.1 ≠ s.ids sq.inst) } (exitSeq s sq) ∧ (exitSeq s sq).waitSeq = s.waitSeq := by
  unfold exitSeq
  simp only
  split
  · exact ⟨Frame.same rfl rfl rfl rfl rfl rfl rfl rfl rfl, rfl⟩
  · exact ⟨⟨rfl, rfl, rfl, rfl, rfl, rfl, rfl, rfl, fun _ => Or.inr rfl⟩, rfl⟩

theorem Ids.step {mode : Mode} {rel : Seq → Bool} {rnd : Nat → Nat} {outs : List Out} {s : State} (h : Ids outs s) (op : Op) :
    Ids (outs ++ (step mode rel rnd s op).2) (step mode rel rnd s op).1 := by
  have hself : Ids (outs ++ []) s := by rw [append_nil']; exact h
  cases op with
  | start sq => simp only [Sequencer.step, append_nil']; rw [startSeq_eq]; exact h.assign _
  | startItem t sq prio lock =>
    simp only [Sequencer.step]
    split
    · unfold Sequencer.waitForGrant
      obtain ⟨h1, h2⟩ := h.register sq.inst
      have h3 := (h1.pushReqs sq prio lock).frame (frame_update _) (r := []) (by simp)
      rw [append_nil'] at h3
      refine h3.grantLoop t sq _ ?_
      cases lock <;> exact h2
    · exact hself
  | send sq x tr => exact (h.send sq.inst x tr).1
  | finishItem t sq x tr =>
    simp only [Sequencer.step]
    split
    · obtain ⟨h1, h2, h3⟩ := h.send sq.inst x tr
      by_cases hr : (sendRequest s sq.inst x tr).2.2 = true
      · rw [if_pos hr]
        simp only
        rw [← List.append_assoc]
        exact h1.waitDone t _ (by rw [h2]; exact h3 hr)
      · rw [if_neg hr]; exact h1
    · exact hself
  | resume t =>
    simp only [Sequencer.step]
    split
    next sq r n ht =>
      have hi := h.grant t sq r n true ht
      split
      · exact Ids.grantLoop (s := { s with fired := false })
          ⟨h.pos, h.ids, h.reg, h.uniq, h.own, h.key, h.sent, h.sem, h.grant, h.done⟩ t sq r hi
      · exact Ids.noSent (h.task t _ false (by intro _ _ _ _ he; simp only [Task.grant.injEq] at he; rw [← he.1]; exact hi) (by simp)) (by simp)
    next id ht =>
      have hi := h.done t id true ht
      split
      · exact Ids.noSent (h.task t _ false (by simp) (by simp)) (by simp)
      · exact Ids.noSent (h.task t _ false (by simp) (by intro _ _ he; simp only [Task.done.injEq] at he; rw [← he.1]; exact hi)) (by simp)
    · exact hself
  | kill t => exact Ids.noSent (h.task t .idle s.fired (by simp) (by simp)) (by simp [Sequencer.step])
  | exit sq =>
    refine Ids.frame (s := { s with reg := s.reg.filter (·.1 ≠ s.ids sq.inst) }) ?_ (exitSeq_frame s sq).1 (by simp [Sequencer.step])
    have hm : ∀ p ∈ s.reg.filter (·.1 ≠ s.ids sq.inst), p ∈ s.reg := fun p hp => (List.mem_filter.mp hp).1
    refine ⟨h.pos, h.ids, fun p hp => h.reg p (hm p hp), h.uniq, fun p hp => h.own p (hm p hp),
      fun p hp p' hp' => h.key p (hm p hp) p' (hm p' hp'), ?_, h.sem, h.grant, h.done⟩
    intro i x a hx
    obtain ⟨a1, a2, a3, a4⟩ := h.sent i x a hx
    exact ⟨a1, a2, fun p hp => a3 p (hm p hp), a4⟩
  | setNumLast n =>
    exact Ids.noSent (s := setNumLast s n) ⟨h.pos, h.ids, h.reg, h.uniq, h.own, h.key, h.sent, h.sem, h.grant, h.done⟩ (by simp [Sequencer.step])
  | getNext => have := step_drv (mode := mode) (rel := rel) (rnd := rnd) s .getNext rfl; exact h.frame this.frame this.nosent
  | peek => have := step_drv (mode := mode) (rel := rel) (rnd := rnd) s .peek rfl; exact h.frame this.frame this.nosent
  | get => have := step_drv (mode := mode) (rel := rel) (rnd := rnd) s .get rfl; exact h.frame this.frame this.nosent
  | tryNext => have := step_drv (mode := mode) (rel := rel) (rnd := rnd) s .tryNext rfl; exact h.frame this.frame this.nosent
  | itemDone => have := step_drv (mode := mode) (rel := rel) (rnd := rnd) s .itemDone rfl; exact h.frame this.frame this.nosent
  | drvStep => have := step_drv (mode := mode) (rel := rel) (rnd := rnd) s .drvStep rfl; exact h.frame this.frame this.nosent
  | putResponse id => have := step_drv (mode := mode) (rel := rel) (rnd := rnd) s (.putResponse id) rfl; exact h.frame this.frame this.nosent
  | stop => have := step_drv (mode := mode) (rel := rel) (rnd := rnd) s .stop rfl; exact h.frame this.frame this.nosent

theorem hist_ids {mode : Mode} {rel : Seq → Bool} {rnd : Nat → Nat} {ops : List Op} {outs : List Out} {s : State}
    (h : Hist mode rel rnd ops outs s) : Ids outs s := by
  induction h with
  | nil => exact ids_init
  | snoc op _ ih => exact ih.step op

/-! ## Registered sequences -/

/-- A sequence that has not exited is registered under every id its items carry. -/
def Registered (i : Nat) (outs : List Out) (s : State) : Prop :=
  (0 < s.ids i → (s.ids i, i) ∈ s.reg) ∧ ∀ x a, Out.sent i x a ∈ outs → (x.seqId, i) ∈ s.reg

theorem Registered.frame {i : Nat} {outs r : List Out} {s s' : State} (h : Registered i outs s) (h1 : s'.ids = s.ids) (h2 : s'.reg = s.reg)
    (hr : ∀ i x a, Out.sent i x a ∉ r) : Registered i (outs ++ r) s' := by
  refine ⟨by rw [h1, h2]; exact h.1, ?_⟩
  intro x a hm
  rw [h2]
  rcases List.mem_append.mp hm with hm | hm
  · exact h.2 x a hm
  · exact absurd hm (hr _ _ _)

theorem assign_reg {outs : List Out} {s : State} (hI : Ids outs s) (j : Nat) :
    (assignId s j).reg = s.reg ++ [(s.gSeq, j)] := by
  simp only [assignId]
  congr 1
  apply List.filter_eq_self.mpr
  intro p hp
  have := hI.reg p hp
  simp only [ne_eq, decide_eq_true_eq]
  omega

theorem Registered.assign {i : Nat} {outs : List Out} {s : State} (hI : Ids outs s) (h : Registered i outs s) (j : Nat) :
    Registered i outs (assignId s j) := by
  have hr := assign_reg hI j
  refine ⟨?_, fun x a hm => by rw [hr]; simp [h.2 x a hm]⟩
  rw [hr]
  show 0 < upd s.ids j s.gSeq i → (upd s.ids j s.gSeq i, i) ∈ _
  simp only [upd]
  split
  next hij => intro _; subst hij; simp
  · intro hp; simp [h.1 hp]

theorem Registered.register {i : Nat} {outs : List Out} {s : State} (hI : Ids outs s) (h : Registered i outs s) (j : Nat) :
    Registered i outs (register s j) := by
  unfold Sequencer.register
  split
  · exact h
  · exact h.assign hI j

theorem grantLoop_nosent (s : State) (t : Nat) (sq : Seq) (r : Nat) (i : Nat) (x : Item) (a : Bool) :
    Out.sent i x a ∉ (grantLoop s t sq r).2 := by
  unfold grantLoop; split <;> simp

theorem grantLoop_same (s : State) (t : Nat) (sq : Seq) (r : Nat) :
    (grantLoop s t sq r).1.ids = s.ids ∧ (grantLoop s t sq r).1.reg = s.reg ∧ (grantLoop s t sq r).1.numSent = s.numSent ∧
      (grantLoop s t sq r).1.nextTr = s.nextTr ∧ (grantLoop s t sq r).1.lastBuf = s.lastBuf ∧ (grantLoop s t sq r).1.numLast = s.numLast ∧
      (grantLoop s t sq r).1.waitSeq = s.waitSeq := by
  unfold grantLoop; split <;> exact ⟨rfl, rfl, rfl, rfl, rfl, rfl, rfl⟩

theorem Registered.send {i : Nat} {outs : List Out} {s : State} (hI : Ids outs s) (h : Registered i outs s) (j x : Nat) (tr : Int) :
    Registered i (outs ++ (sendRequest s j x tr).2.1) (sendRequest s j x tr).1 := by
  rcases sendRequest_cases s j x tr with ⟨_, e⟩ | ⟨_, _, e⟩ | ⟨h1, h2, r, b, e, hr⟩
  · rw [e]; exact h.frame rfl rfl (by simp)
  · rw [e]; exact h.frame rfl rfl (by simp)
  · rw [e]
    refine ⟨h.1, ?_⟩
    intro y a hm
    rcases List.mem_append.mp hm with hm | hm
    · exact h.2 y a hm
    · simp only [List.mem_cons] at hm
      rcases hm with hm | hm
      · simp only [Out.sent.injEq] at hm
        obtain ⟨rfl, rfl, rfl⟩ := hm
        exact h.1 (hI.sem i h1)
      · rcases hr with ⟨_, rfl⟩ | ⟨_, rfl⟩ <;> simp at hm

theorem Registered.step {mode : Mode} {rel : Seq → Bool} {rnd : Nat → Nat} {i : Nat} {outs : List Out} {s : State} (hI : Ids outs s)
    (h : Registered i outs s) (op : Op) (hop : ∀ sq, op = .exit sq → sq.inst ≠ i) :
    Registered i (outs ++ (step mode rel rnd s op).2) (step mode rel rnd s op).1 := by
  have hself : Registered i (outs ++ []) s := by rw [append_nil']; exact h
  cases op with
  | start sq => simp only [Sequencer.step, append_nil']; rw [startSeq_eq]; exact h.assign hI _
  | startItem t sq prio lock =>
    simp only [Sequencer.step]
    split
    · unfold Sequencer.waitForGrant
      have h1 := h.register hI sq.inst
      obtain ⟨e1, e2, _⟩ := grantLoop_same (updateLists (Sequencer.pushReqs (Sequencer.register s sq.inst) sq prio lock)) t sq
          ((updateLists (Sequencer.pushReqs (Sequencer.register s sq.inst) sq prio lock)).gReq - 1)
      exact h1.frame (by rw [e1]; cases lock <;> rfl) (by rw [e2]; cases lock <;> rfl) (grantLoop_nosent _ _ _ _)
    · exact hself
  | send sq x tr => exact h.send hI sq.inst x tr
  | finishItem t sq x tr =>
    simp only [Sequencer.step]
    split
    · have h1 := h.send hI sq.inst x tr
      by_cases hr : (sendRequest s sq.inst x tr).2.2 = true
      · rw [if_pos hr]
        simp only
        rw [← List.append_assoc]
        refine h1.frame ?_ ?_ ?_
        · unfold Sequencer.waitDone; split <;> rfl
        · unfold Sequencer.waitDone; split <;> rfl
        · unfold Sequencer.waitDone; split <;> simp
      · rw [if_neg hr]; exact h1
    · exact hself
  | resume t =>
    simp only [Sequencer.step]
    split
    next sq r n ht =>
      split
      · obtain ⟨e1, e2, _⟩ := grantLoop_same { s with fired := false } t sq r
        exact h.frame e1 e2 (grantLoop_nosent _ _ _ _)
      · exact h.frame rfl rfl (by simp)
    · split
      · exact h.frame rfl rfl (by simp)
      · exact h.frame rfl rfl (by simp)
    · exact hself
  | kill t => exact h.frame rfl rfl (by simp [Sequencer.step])
  | exit sq =>
    have hne := hop sq rfl
    have hf := (exitSeq_frame s sq).1
    have hreg : ∀ id, (id, i) ∈ s.reg → (∀ j, s.ids j = id → j = i) → (id, i) ∈ s.reg.filter (·.1 ≠ s.ids sq.inst) := by
      intro id hm hown
      refine List.mem_filter.mpr ⟨hm, ?_⟩
      simp only [ne_eq, decide_eq_true_eq]
      intro he
      exact hne (hown _ he.symm)
    simp only [Sequencer.step, append_nil']
    refine ⟨?_, ?_⟩
    · rw [hf.ids, hf.reg]
      intro hp
      exact hreg _ (h.1 hp) (fun j hj => (hI.uniq i j hj.symm hp).symm)
    · intro x a hm
      rw [hf.reg]
      exact hreg _ (h.2 x a hm) (hI.sent i x a hm).2.2.2
  | setNumLast n => exact h.frame rfl rfl (by simp [Sequencer.step])
  | getNext => have := step_drv (mode := mode) (rel := rel) (rnd := rnd) s .getNext rfl; exact h.frame this.frame.ids this.frame.reg this.nosent
  | peek => have := step_drv (mode := mode) (rel := rel) (rnd := rnd) s .peek rfl; exact h.frame this.frame.ids this.frame.reg this.nosent
  | get => have := step_drv (mode := mode) (rel := rel) (rnd := rnd) s .get rfl; exact h.frame this.frame.ids this.frame.reg this.nosent
  | tryNext => have := step_drv (mode := mode) (rel := rel) (rnd := rnd) s .tryNext rfl; exact h.frame this.frame.ids this.frame.reg this.nosent
  | itemDone => have := step_drv (mode := mode) (rel := rel) (rnd := rnd) s .itemDone rfl; exact h.frame this.frame.ids this.frame.reg this.nosent
  | drvStep => have := step_drv (mode := mode) (rel := rel) (rnd := rnd) s .drvStep rfl; exact h.frame this.frame.ids this.frame.reg this.nosent
  | putResponse id =>
    have := step_drv (mode := mode) (rel := rel) (rnd := rnd) s (.putResponse id) rfl; exact h.frame this.frame.ids this.frame.reg this.nosent
  | stop => have := step_drv (mode := mode) (rel := rel) (rnd := rnd) s .stop rfl; exact h.frame this.frame.ids this.frame.reg this.nosent

theorem hist_registered {mode : Mode} {rel : Seq → Bool} {rnd : Nat → Nat} {ops : List Op} {outs : List Out} {s : State}
    (h : Hist mode rel rnd ops outs s) (i : Nat) (hops : ∀ sq, Op.exit sq ∈ ops → sq.inst ≠ i) : Registered i outs s := by
  induction h with
  | nil => exact ⟨fun h => absurd h (by show ¬ _; simp), by simp⟩
  | snoc op hh ih =>
    refine Registered.step (hist_ids hh) (ih fun sq hm => hops sq (by simp [hm])) op ?_
    intro sq he
    exact hops sq (by simp [he])

end Verif.Sequencer
