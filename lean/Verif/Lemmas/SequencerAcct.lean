import Verif.Lemmas.SequencerIds
/-! # Lemmas about the sequencer: done marks, counts, transaction ids, request history -/
namespace Verif.Sequencer
open Arbiter

/-! ## Marks -/

theorem waitDone_mark (s : State) (t : Nat) (id : Int) : (waitDone s t id).1.waitSeq = (waitDone s t id).2.foldl mark s.waitSeq := by
  unfold waitDone; split <;> rfl

theorem sendRequest_mark (s : State) (i x : Nat) (tr : Int) :
    (sendRequest s i x tr).1.waitSeq = (sendRequest s i x tr).2.1.foldl mark s.waitSeq := by
  rcases sendRequest_cases s i x tr with ⟨_, e⟩ | ⟨_, _, e⟩ | ⟨_, _, r, b, e, hr⟩
  · rw [e]; rfl
  · rw [e]; rfl
  · rw [e]; rcases hr with ⟨_, rfl⟩ | ⟨_, rfl⟩ <;> rfl

theorem grantLoop_mark (s : State) (t : Nat) (sq : Seq) (r : Nat) : (grantLoop s t sq r).2.foldl mark s.waitSeq = s.waitSeq := by
  unfold grantLoop; split <;> rfl

/-- Registration and the requests touch none of this. -/
theorem requests_same (s : State) (sq : Seq) (prio : Int) (lock : Bool) :
    (updateLists (pushReqs (register s sq.inst) sq prio lock)).waitSeq = s.waitSeq ∧
    (updateLists (pushReqs (register s sq.inst) sq prio lock)).numSent = s.numSent ∧
    (updateLists (pushReqs (register s sq.inst) sq prio lock)).nextTr = s.nextTr ∧
    (updateLists (pushReqs (register s sq.inst) sq prio lock)).lastBuf = s.lastBuf ∧
    (updateLists (pushReqs (register s sq.inst) sq prio lock)).numLast = s.numLast := by
  have h : (register s sq.inst).waitSeq = s.waitSeq ∧ (register s sq.inst).numSent = s.numSent ∧ (register s sq.inst).nextTr = s.nextTr ∧
      (register s sq.inst).lastBuf = s.lastBuf ∧ (register s sq.inst).numLast = s.numLast := by
    unfold register; split <;> exact ⟨rfl, rfl, rfl, rfl, rfl⟩
  cases lock <;> exact h

theorem grantLoop_nolimit (s : State) (t : Nat) (sq : Seq) (r : Nat) (n : Int) : Out.limit n ∉ (grantLoop s t sq r).2 := by
  unfold grantLoop; split <;> simp

theorem step_mark (mode : Mode) (rel : Seq → Bool) (rnd : Nat → Nat) (s : State) (op : Op) :
    (step mode rel rnd s op).1.waitSeq = (step mode rel rnd s op).2.foldl mark s.waitSeq := by
  cases op with
  | start sq => simp only [step]; rw [startSeq_eq]; rfl
  | startItem t sq prio lock =>
    simp only [step]
    split
    · unfold waitForGrant
      have hw := (requests_same s sq prio lock).1
      rw [(grantLoop_same _ _ _ _).2.2.2.2.2.2, hw, ← hw, grantLoop_mark]
    · rfl
  | send sq x tr => exact sendRequest_mark s _ _ _
  | finishItem t sq x tr =>
    simp only [step]
    split
    · by_cases hr : (sendRequest s sq.inst x tr).2.2 = true
      · rw [if_pos hr]
        simp only
        rw [waitDone_mark, sendRequest_mark, List.foldl_append]
      · rw [if_neg hr]; exact sendRequest_mark s _ _ _
    · rfl
  | resume t =>
    simp only [step]
    split
    · split
      · rw [(grantLoop_same _ _ _ _).2.2.2.2.2.2]
        exact (grantLoop_mark { s with fired := false } _ _ _).symm
      · rfl
    · split <;> rfl
    · rfl
  | kill t => rfl
  | exit sq => exact (exitSeq_frame s sq).2
  | setNumLast n => rfl
  | getNext => exact (step_drv s .getNext rfl).mark
  | peek => exact (step_drv s .peek rfl).mark
  | get => exact (step_drv s .get rfl).mark
  | tryNext => exact (step_drv s .tryNext rfl).mark
  | itemDone => exact (step_drv s .itemDone rfl).mark
  | drvStep => exact (step_drv s .drvStep rfl).mark
  | putResponse id => exact (step_drv s (.putResponse id) rfl).mark
  | stop => exact (step_drv s .stop rfl).mark

theorem hist_mark {mode : Mode} {rel : Seq → Bool} {rnd : Nat → Nat} {ops : List Op} {outs : List Out} {s : State}
    (h : Hist mode rel rnd ops outs s) : s.waitSeq = outs.foldl mark 0 := by
  induction h with
  | nil => rfl
  | snoc op _ ih => rw [step_mark, ih, List.foldl_append]

/-- A mark that is an id was set by the last `item_done`, after which nobody entered `wait_for_item_done`. -/
theorem mark_last : ∀ (outs : List Out) (id : Int), 0 < id → outs.foldl mark 0 = id →
    ∃ pre x post, outs = pre ++ Out.done x :: post ∧ x.seqId = id ∧ (∀ t, Out.waiting t ∉ post) ∧ ∀ y, Out.done y ∉ post := by
  intro outs
  have key : ∀ l : List Out, ∀ id : Int, 0 < id → l.reverse.foldl mark 0 = id →
      ∃ pre x post, l.reverse = pre ++ Out.done x :: post ∧ x.seqId = id ∧ (∀ t, Out.waiting t ∉ post) ∧ ∀ y, Out.done y ∉ post := by
    intro l
    induction l with
    | nil => intro id h e; simp only [List.reverse_nil, List.foldl_nil] at e; omega
    | cons o l ih =>
      intro id h e
      rw [List.reverse_cons, List.foldl_append] at e
      simp only [List.foldl_cons, List.foldl_nil] at e
      rw [List.reverse_cons]
      by_cases hk : mark (l.reverse.foldl mark 0) o = l.reverse.foldl mark 0 ∧ (∀ t, o ≠ .waiting t) ∧ ∀ y, o ≠ .done y
      · obtain ⟨hk1, hk2, hk3⟩ := hk
        rw [hk1] at e
        obtain ⟨pre, x, post, h1, h2, h3, h4⟩ := ih id h e
        refine ⟨pre, x, post ++ [o], ?_, h2, ?_, ?_⟩
        · rw [h1]; simp
        · intro t ht
          rcases List.mem_append.mp ht with ht | ht
          · exact h3 t ht
          · exact hk2 t (by simpa using Eq.symm (by simpa using ht))
        · intro t ht
          rcases List.mem_append.mp ht with ht | ht
          · exact h4 t ht
          · exact hk3 t (by simpa using Eq.symm (by simpa using ht))
      · cases o with
        | done x => exact ⟨l.reverse, x, [], rfl, e, by simp, by simp⟩
        | waiting t => simp only [mark] at e; omega
        | _ => exact absurd ⟨rfl, by simp, by simp⟩ hk
  have := key outs.reverse
  rwa [List.reverse_reverse] at this

/-- Without new marks the remembered id stays. -/
theorem mark_stays : ∀ (outs : List Out) (m : Int), (∀ t, Out.waiting t ∉ outs) → (∀ y, Out.done y ∉ outs) → outs.foldl mark m = m := by
  intro outs
  induction outs with
  | nil => intros; rfl
  | cons o l ih =>
    intro m h1 h2
    have he : mark m o = m := by
      cases o with
      | done x => exact absurd (by simp) (h2 x)
      | waiting t => exact absurd (by simp) (h1 t)
      | _ => rfl
    rw [List.foldl_cons, he]
    exact ih m (fun t ht => h1 t (by simp [ht])) (fun t ht => h2 t (by simp [ht]))

/-! ## Sent items -/

theorem autoOf_append (i : Nat) (a b : List Out) : autoOf i (a ++ b) = autoOf i a ++ autoOf i b := by
  induction a with
  | nil => rfl
  | cons x a ih =>
    cases x with
    | sent j y au => cases au <;> simp [autoOf, ih]; split <;> simp
    | _ => simp [autoOf, ih]

theorem sentOf_nil {r : List Out} (h : ∀ i x a, Out.sent i x a ∉ r) : sentOf r = [] := by
  induction r with
  | nil => rfl
  | cons o r ih =>
    have := ih fun i x a hm => h i x a (by simp [hm])
    cases o with
    | sent i x a => exact absurd (by simp) (h i x a)
    | _ => simpa [sentOf] using this

theorem autoOf_nil {r : List Out} (h : ∀ i x a, Out.sent i x a ∉ r) (j : Nat) : autoOf j r = [] := by
  induction r with
  | nil => rfl
  | cons o r ih =>
    have := ih fun i x a hm => h i x a (by simp [hm])
    cases o with
    | sent i x a => exact absurd (by simp) (h i x a)
    | _ => simpa [autoOf] using this

theorem specHist_id {r : List Out} (h : ∀ i x a, Out.sent i x a ∉ r) (h' : ∀ n, Out.limit n ∉ r) (a : Nat × List Item) :
    r.foldl specHist a = a := by
  induction r with
  | nil => rfl
  | cons o r ih =>
    have := ih (fun i x a hm => h i x a (by simp [hm])) (fun n hm => h' n (by simp [hm]))
    rw [List.foldl_cons]
    cases o with
    | sent i x a => exact absurd (by simp) (h i x a)
    | limit n => exact absurd (by simp) (h' n)
    | _ => exact this

theorem pushHist_take (k : Nat) (buf : List Item) (x : Item) (h : buf.length ≤ k) : pushHist k buf x = (x :: buf).take k := by
  unfold pushHist
  by_cases h0 : (k : Int) = 0
  · rw [if_pos h0]
    have : k = 0 := by omega
    subst this
    have : buf = [] := List.eq_nil_of_length_eq_zero (by omega)
    subst this
    rfl
  · rw [if_neg h0]
    by_cases h1 : (buf.length : Int) = k
    · rw [if_pos h1]
      have hk : k = buf.length := by omega
      subst hk
      cases hb : buf with
      | nil => rw [hb] at h0; simp at h0
      | cons b bs => rw [List.dropLast_eq_take]; simp
    · rw [if_neg h1, List.take_of_length_le]
      simp only [List.length_cons]; omega

theorem shrink_take (n : Nat) (buf : List Item) : shrink n buf = buf.take n := by
  have key : ∀ (k : Nat) (buf : List Item), buf.length ≤ k → shrinkLoop n k buf = buf.take n := by
    intro k
    induction k with
    | zero =>
      intro buf h
      have : buf = [] := List.eq_nil_of_length_eq_zero (by omega)
      subst this
      simp [shrinkLoop]
    | succ k ih =>
      intro buf h
      unfold shrinkLoop
      by_cases hb : (buf.length : Int) > n
      · rw [if_pos hb, ih _ (by rw [List.length_dropLast]; omega), List.dropLast_eq_take, List.take_take]
        congr 1
        omega
      · rw [if_neg hb, List.take_of_length_le (by omega)]
  exact key _ buf (Nat.le_refl _)

/-- The accounting of sent items. -/
structure Acct (outs : List Out) (s : State) : Prop where
  num : s.numSent = (sentOf outs).length
  next : ∀ i, s.nextTr i = (autoOf i outs).length + 1
  auto : ∀ i, autoOf i outs = (List.range (autoOf i outs).length).map (fun (n : Nat) => (n : Int) + 1)
  hist : (∀ n, Out.limit n ∈ outs → 0 ≤ n) →
    s.numLast = (outs.foldl specHist (1, [])).1 ∧ s.lastBuf = (outs.foldl specHist (1, [])).2 ∧
      (outs.foldl specHist (1, [])).2.length ≤ (outs.foldl specHist (1, [])).1

theorem acct_init : Acct [] {} :=
  ⟨rfl, fun _ => rfl, fun _ => rfl, fun _ => ⟨rfl, rfl, by simp⟩⟩

theorem Acct.same {outs r : List Out} {s s' : State} (h : Acct outs s) (h1 : s'.numSent = s.numSent) (h2 : s'.nextTr = s.nextTr)
    (h3 : s'.lastBuf = s.lastBuf) (h4 : s'.numLast = s.numLast) (hr : ∀ i x a, Out.sent i x a ∉ r) (hl : ∀ n, Out.limit n ∉ r) :
    Acct (outs ++ r) s' := by
  refine ⟨?_, ?_, ?_, ?_⟩
  · rw [h1, sentOf_append, sentOf_nil hr, List.append_nil]; exact h.num
  · intro i; rw [h2, autoOf_append, autoOf_nil hr, List.append_nil]; exact h.next i
  · intro i; rw [autoOf_append, autoOf_nil hr, List.append_nil]; exact h.auto i
  · intro hn
    rw [List.foldl_append, specHist_id hr hl, h3, h4]
    exact h.hist fun n hm => hn n (by simp [hm])

theorem Acct.send {outs : List Out} {s : State} (h : Acct outs s) (i x : Nat) (tr : Int) (hc : Clean (sendRequest s i x tr).2.1) :
    Acct (outs ++ (sendRequest s i x tr).2.1) (sendRequest s i x tr).1 := by
  rcases sendRequest_cases s i x tr with ⟨_, e⟩ | ⟨_, _, e⟩ | ⟨_, hf, r, b, e, hr⟩
  · rw [e] at hc; exact absurd (by simp) hc.1
  · rw [e] at hc; exact absurd (by simp) hc.1
  · rcases hr with ⟨rfl, rfl⟩ | ⟨rfl, rfl⟩
    · rw [e]
      simp only
      refine ⟨?_, ?_, ?_, ?_⟩
      · rw [sentOf_append]; simp [sentOf, h.num]
      · intro j
        rw [autoOf_append]
        show (if tr = -1 then upd s.nextTr i (s.nextTr i + 1) else s.nextTr) j = _
        by_cases ht : tr = -1
        · subst ht
          simp only [if_true, beq_self_eq_true, autoOf, upd]
          by_cases hij : i = j
          · subst hij; rw [if_pos rfl, if_pos rfl, h.next i]; simp
          · rw [if_neg hij, if_neg (fun h => hij h.symm)]; simpa using h.next j
        · rw [if_neg ht]
          have : (tr == -1) = false := by simp [ht]
          simp only [this, autoOf, List.append_nil]
          exact h.next j
      · intro j
        rw [autoOf_append]
        by_cases ht : tr = -1
        · subst ht
          simp only [beq_self_eq_true, autoOf]
          by_cases hij : i = j
          · subst hij
            rw [if_pos rfl]
            simp only [mkItem, if_true, List.length_append, List.length_cons, List.length_nil]
            rw [List.range_succ, List.map_append, ← h.auto i, h.next i]
            rfl
          · rw [if_neg hij, List.append_nil]; exact h.auto j
        · have : (tr == -1) = false := by simp [ht]
          simp only [this, autoOf, List.append_nil]
          exact h.auto j
      · intro hn
        obtain ⟨h1, h2, h3⟩ := h.hist fun n hm => hn n (by simp [hm])
        rw [List.foldl_append]
        generalize hg : outs.foldl specHist (1, []) = g at *
        obtain ⟨k, buf⟩ := g
        simp only at h1 h2 h3
        simp only [List.foldl_cons, List.foldl_nil, specHist]
        refine ⟨h1, ?_, by rw [List.length_take]; omega⟩
        show pushHist s.numLast s.lastBuf _ = _
        rw [h1, h2, pushHist_take k buf _ h3]
    · rw [e] at hc; exact absurd (by simp) hc.2

theorem Acct.step {mode : Mode} {rel : Seq → Bool} {rnd : Nat → Nat} {outs : List Out} {s : State} (h : Acct outs s) (op : Op)
    (hc : Clean (step mode rel rnd s op).2) : Acct (outs ++ (step mode rel rnd s op).2) (step mode rel rnd s op).1 := by
  have hdrv : isDrv op = true → Acct (outs ++ (Sequencer.step mode rel rnd s op).2) (Sequencer.step mode rel rnd s op).1 := by
    intro hd
    have := step_drv (mode := mode) (rel := rel) (rnd := rnd) s op hd
    exact h.same this.frame.numSent this.frame.nextTr this.frame.lastBuf this.frame.numLast this.nosent this.nolimit
  have hself : Acct (outs ++ []) s := by rw [append_nil']; exact h
  cases op with
  | start sq => simp only [Sequencer.step]; rw [startSeq_eq]; exact h.same rfl rfl rfl rfl (by simp) (by simp)
  | startItem t sq prio lock =>
    simp only [Sequencer.step]
    split
    · unfold waitForGrant
      obtain ⟨_, e1, e2, e3, e4⟩ := requests_same s sq prio lock
      obtain ⟨_, _, g1, g2, g3, g4, _⟩ := grantLoop_same (updateLists (pushReqs (register s sq.inst) sq prio lock)) t sq
        ((updateLists (pushReqs (register s sq.inst) sq prio lock)).gReq - 1)
      refine h.same (by rw [g1, e1]) (by rw [g2, e2]) (by rw [g3, e3]) (by rw [g4, e4]) (grantLoop_nosent _ _ _ _)
        (grantLoop_nolimit _ _ _ _)
    · exact hself
  | send sq x tr => exact h.send _ _ _ hc
  | finishItem t sq x tr =>
    simp only [Sequencer.step] at hc ⊢
    split at hc
    · by_cases hr : (sendRequest s sq.inst x tr).2.2 = true
      · rw [if_pos hr] at hc ⊢
        simp only at hc ⊢
        have := h.send _ _ _ (clean_append hc).1
        rw [← List.append_assoc]
        refine this.same ?_ ?_ ?_ ?_ ?_ ?_
        · unfold waitDone; split <;> rfl
        · unfold waitDone; split <;> rfl
        · unfold waitDone; split <;> rfl
        · unfold waitDone; split <;> rfl
        · unfold waitDone; split <;> simp
        · unfold waitDone; split <;> simp
      · rw [if_neg hr] at hc ⊢; exact h.send _ _ _ hc
    · exact hself
  | resume t =>
    simp only [Sequencer.step]
    split
    · split
      · have hg := grantLoop_same { s with fired := false } t
        exact h.same (hg _ _).2.2.1 (hg _ _).2.2.2.1 (hg _ _).2.2.2.2.1 (hg _ _).2.2.2.2.2.1 (grantLoop_nosent _ _ _ _)
          (grantLoop_nolimit _ _ _ _)
      · exact h.same rfl rfl rfl rfl (by simp) (by simp)
    · split
      · exact h.same rfl rfl rfl rfl (by simp) (by simp)
      · exact h.same rfl rfl rfl rfl (by simp) (by simp)
    · exact hself
  | kill t => exact h.same rfl rfl rfl rfl (by simp [Sequencer.step]) (by simp [Sequencer.step])
  | exit sq =>
    have hf := (exitSeq_frame s sq).1
    exact h.same hf.numSent hf.nextTr hf.lastBuf hf.numLast (by simp [Sequencer.step]) (by simp [Sequencer.step])
  | setNumLast n =>
    simp only [Sequencer.step]
    refine ⟨?_, ?_, ?_, ?_⟩
    · rw [sentOf_append]; simpa [sentOf, setNumLast] using h.num
    · intro i; rw [autoOf_append]; simpa [autoOf, setNumLast] using h.next i
    · intro i
      have : autoOf i (outs ++ [Out.limit n]) = autoOf i outs := by rw [autoOf_append]; simp [autoOf]
      rw [this]; exact h.auto i
    · intro hn
      have hnn := hn n (by simp)
      obtain ⟨h1, h2, h3⟩ := h.hist fun n hm => hn n (by simp [hm])
      rw [List.foldl_append]
      generalize hg : outs.foldl specHist (1, []) = g at *
      obtain ⟨k, buf⟩ := g
      simp only at h1 h2 h3
      simp only [List.foldl_cons, List.foldl_nil, specHist]
      have hmin : (if n > 1024 then 1024 else n) = ((min n.toNat 1024 : Nat) : Int) := by split <;> omega
      refine ⟨?_, ?_, by rw [List.length_take]; omega⟩
      · show (if n > 1024 then 1024 else n) = _
        rw [hmin]
      · show shrink (if n > 1024 then 1024 else n) s.lastBuf = _
        rw [hmin, h2, shrink_take]
  | getNext => exact hdrv rfl
  | peek => exact hdrv rfl
  | get => exact hdrv rfl
  | tryNext => exact hdrv rfl
  | itemDone => exact hdrv rfl
  | drvStep => exact hdrv rfl
  | putResponse id => exact hdrv rfl
  | stop => exact hdrv rfl

theorem reach_acct {mode : Mode} {rel : Seq → Bool} {rnd : Nat → Nat} {ops : List Op} {outs : List Out} {s : State}
    (h : Reach mode rel rnd ops outs s) : Acct outs s := by
  induction h with
  | nil => exact acct_init
  | snoc _ _ hc ih => exact ih.step _ hc

end Verif.Sequencer
