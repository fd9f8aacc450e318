import Verif.Spec.Scoreboard
import Verif.Props.Port
import Verif.Props.Comparator
import Verif.Props.TlmFifo
import Verif.Props.Sequencer
/-! # Lemmas: projecting a history of a checking environment to its parts -/
namespace Verif.Scoreboard
variable {α : Type}

/-! ## Analysis FIFOs: nobody but `write` puts -/

/-- No coroutine is inside `put`. -/
def NoPut (m : Mailbox.State α) : Prop := ∀ t x, m.tasks t ≠ .putWait x ∧ m.tasks t ≠ .putWoken x

theorem noPut_setTask {m : Mailbox.State α} (h : NoPut m) (t : Nat) (k : Mailbox.Task α) (hk : ∀ x, k ≠ .putWait x ∧ k ≠ .putWoken x) :
    NoPut (Mailbox.setTask m t k) := by
  intro u x
  simp only [Mailbox.setTask]
  split
  · exact hk x
  · exact h u x

theorem noPut_setWrite {m : Mailbox.State α} (h : NoPut m) : NoPut (Mailbox.setWrite m) := by
  intro u x
  have := h u x
  simp only [Mailbox.setWrite]
  split <;> simp_all

theorem noPut_setRead {m : Mailbox.State α} (h : NoPut m) : NoPut (Mailbox.setRead m) := by
  intro u x
  have := fun y => h u y
  simp only [Mailbox.setRead]
  split <;> simp_all

theorem noPut_get {m : Mailbox.State α} (h : NoPut m) (t : Nat) :
    NoPut (Mailbox.getLoop m t).1 ∧ ∀ u x, (Mailbox.getLoop m t).2 ≠ .putDone u x := by
  unfold Mailbox.getLoop
  split
  · refine ⟨noPut_setTask (m := { m with writeFired := false }) h t _ ?_, nofun⟩
    intro x; split <;> exact ⟨nofun, nofun⟩
  · split
    · exact ⟨noPut_setTask h t _ (fun _ => ⟨nofun, nofun⟩), nofun⟩
    · rename_i q _
      exact ⟨noPut_setTask (noPut_setRead (m := { m with queue := q }) h) t _ (fun _ => ⟨nofun, nofun⟩), nofun⟩

theorem putBy_after (s : TlmFifo.State α) (m : Mailbox.State α) (o : Mailbox.Out α) (h : ∀ u x, o ≠ .putDone u x) :
    TlmFifo.putBy (TlmFifo.after s m o).2 = [] := by
  cases o <;> first | rfl | exact absurd rfl (h _ _)

theorem noPut_peek {m : Mailbox.State α} (h : NoPut m) (t : Nat) :
    NoPut (Mailbox.step m (.callPeek t)).1 ∧ ∀ u x, (Mailbox.step m (.callPeek t)).2 ≠ .putDone u x := by
  simp only [Mailbox.step]
  split
  · split
    · refine ⟨noPut_setTask (m := { m with writeFired := false }) h t _ ?_, nofun⟩
      intro x; split <;> exact ⟨nofun, nofun⟩
    · exact ⟨noPut_setTask h t _ (fun _ => ⟨nofun, nofun⟩), nofun⟩
  · exact ⟨h, nofun⟩

theorem noPut_resume {m : Mailbox.State α} (h : NoPut m) (t : Nat) :
    NoPut (Mailbox.step m (.resume t)).1 ∧ ∀ u x, (Mailbox.step m (.resume t)).2 ≠ .putDone u x := by
  simp only [Mailbox.step]
  split
  · rename_i x hx; exact absurd hx (h t x).2
  · exact noPut_get (m := { m with writeFired := false }) h t
  · exact ⟨noPut_setTask (m := { m with writeFired := false }) h t _ (fun _ => ⟨nofun, nofun⟩), nofun⟩
  · exact ⟨h, nofun⟩

theorem noPut_tryGet {s : TlmFifo.State α} (h : NoPut s.m) (l : List α) : NoPut (TlmFifo.tryGet s l).1.m := by
  cases hq : s.m.queue with
  | nil => rw [TlmFifo.tryGet_nil s l hq]; exact h
  | cons x q =>
    simp only [TlmFifo.tryGet, Mailbox.step, Mailbox.canGet, hq]
    exact noPut_setRead (m := { s.m with queue := q }) h

theorem noPut_flushLoop (n : Nat) : ∀ {s : TlmFifo.State α} (l : List α), NoPut s.m → NoPut (TlmFifo.flushLoop n s l).1.m := by
  induction n with
  | zero => intro s l h; exact h
  | succ n ih =>
    intro s l h
    have hg := noPut_tryGet h l
    rw [TlmFifo.flushLoop]
    generalize TlmFifo.tryGet s l = r at hg ⊢
    obtain ⟨s', b, l'⟩ := r
    cases b
    · exact hg
    · exact ih _ hg

theorem noPut_take (s : TlmFifo.State α) (h : NoPut s.m) (e : Take α) :
    NoPut (TlmFifo.step s e.ev).1.m ∧ TlmFifo.putBy (TlmFifo.step s e.ev).2 = [] := by
  cases e with
  | get t =>
    simp only [Take.ev, TlmFifo.step]
    cases ht : s.m.tasks t <;> try exact ⟨h, rfl⟩
    have := noPut_get h t
    simp only [Mailbox.step, ht]
    exact ⟨by rw [TlmFifo.after_m]; exact this.1, putBy_after _ _ _ this.2⟩
  | peek t b =>
    simp only [Take.ev, TlmFifo.step]
    have := noPut_peek h t
    cases ht : s.m.tasks t <;> try exact ⟨h, rfl⟩
    exact ⟨by rw [TlmFifo.after_m]; exact this.1, putBy_after _ _ _ this.2⟩
  | resume t =>
    simp only [Take.ev, TlmFifo.step]
    have := noPut_resume h t
    exact ⟨by rw [TlmFifo.after_m]; exact this.1, putBy_after _ _ _ this.2⟩
  | kill t =>
    simp only [Take.ev, TlmFifo.step]
    refine ⟨?_, putBy_after _ _ _ nofun⟩
    rw [TlmFifo.after_m]
    exact noPut_setTask h t _ (fun _ => ⟨nofun, nofun⟩)
  | tryGet l => exact ⟨noPut_tryGet h l, rfl⟩
  | tryPeek l =>
    simp only [Take.ev, TlmFifo.step]
    cases hq : s.m.queue with
    | nil => simp only [Mailbox.step, Mailbox.canGet, hq]; exact ⟨h, rfl⟩
    | cons x q => simp only [Mailbox.step, Mailbox.canGet, hq]; exact ⟨h, rfl⟩
  | flush => exact ⟨noPut_flushLoop _ _ h, rfl⟩

theorem noPut_write (s : TlmFifo.State α) (h : NoPut s.m) (x : α) : NoPut (TlmFifo.step s (.write x)).1.m := by
  simp only [TlmFifo.step, TlmFifo.tryPut, Mailbox.step]
  cases hc : Mailbox.canPut s.m
  · exact h
  · exact noPut_setWrite (m := { s.m with queue := s.m.queue ++ [x] }) h

theorem run_snoc {S O R : Type} (step : S → O → S × R) (s : S) (os : List O) (o : O) :
    Verif.run step s (os ++ [o]) = ((step (Verif.runS step s os) o).1, (Verif.run step s os).2 ++ [(step (Verif.runS step s os) o).2]) := by
  induction os generalizing s with
  | nil => rfl
  | cons a os ih => simp only [List.cons_append, Verif.run, ih]; rfl

/-- The state of an analysis FIFO: it has a history of writes and takes, in which `ws` was written. -/
def FifoAt (f : TlmFifo.State α) (outs : List (TlmFifo.Out α)) (ws : List α) : Prop :=
  ∃ es, Verif.run TlmFifo.step TlmFifo.initAnalysis es = (f, outs) ∧ NoPut f.m ∧ outs.flatMap TlmFifo.putBy = ws

theorem fifoAt_init : FifoAt (TlmFifo.initAnalysis : TlmFifo.State α) [] [] :=
  ⟨[], rfl, fun _ _ => ⟨nofun, nofun⟩, rfl⟩

theorem fifoAt_take {f : TlmFifo.State α} {outs ws} (h : FifoAt f outs ws) (e : Take α) :
    FifoAt (TlmFifo.step f e.ev).1 (outs ++ [(TlmFifo.step f e.ev).2]) ws := by
  obtain ⟨es, h1, h2, h3⟩ := h
  have hr : Verif.runS TlmFifo.step TlmFifo.initAnalysis es = f := congrArg Prod.fst h1
  refine ⟨es ++ [e.ev], ?_, (noPut_take f h2 e).1, ?_⟩
  · rw [run_snoc, hr, h1]
  · rw [List.flatMap_append, h3, List.flatMap_singleton, (noPut_take f h2 e).2, List.append_nil]

theorem fifoAt_write {f : TlmFifo.State α} {outs ws} (h : FifoAt f outs ws) (x : α) :
    FifoAt (TlmFifo.step f (.write x)).1 (outs ++ [(TlmFifo.step f (.write x)).2]) (ws ++ [x]) := by
  obtain ⟨es, h1, h2, h3⟩ := h
  have hr : Verif.runS TlmFifo.step TlmFifo.initAnalysis es = f := congrArg Prod.fst h1
  refine ⟨es ++ [.write x], ?_, noPut_write f h2 x, ?_⟩
  · rw [run_snoc, hr, h1]
  · have := (TlmFifo.C42_analysis_write es x).1
    rw [hr] at this
    rw [List.flatMap_append, h3, List.flatMap_singleton, this]; rfl

/-! ## Comparators -/

/-- The state of a comparator: it has a history in which `bs` and `as` were written; it was flushed only if `fl`. -/
def CmpAt (comp : α → α → Bool) (s : Comparator.State α) (ps : List (Comparator.Pair α)) (bs as : List α) (fl : Prop) : Prop :=
  ∃ es, Verif.runS (Comparator.step comp) Comparator.init es = s ∧ Comparator.published comp es = ps ∧
    Comparator.befores es = bs ∧ Comparator.afters es = as ∧ (.flush ∈ es → fl)

theorem befores_append (es fs : List (Comparator.Ev α)) :
    Comparator.befores (es ++ fs) = Comparator.befores es ++ Comparator.befores fs := by
  induction es with
  | nil => rfl
  | cons e es ih => cases e <;> simp [Comparator.befores, ih]

theorem afters_append (es fs : List (Comparator.Ev α)) :
    Comparator.afters (es ++ fs) = Comparator.afters es ++ Comparator.afters fs := by
  induction es with
  | nil => rfl
  | cons e es ih => cases e <;> simp [Comparator.afters, ih]

theorem cmpAt_step {comp : α → α → Bool} {s ps bs as fl} (h : CmpAt comp s ps bs as fl) (e : Comparator.Ev α) (fl' : Prop)
    (hf : fl → fl') (he : e = .flush → fl') :
    CmpAt comp (Comparator.step comp s e).1 (ps ++ (Comparator.step comp s e).2) (bs ++ Comparator.befores [e])
      (as ++ Comparator.afters [e]) fl' := by
  obtain ⟨es, h1, h2, h3, h4, h5⟩ := h
  refine ⟨es ++ [e], ?_, ?_, ?_, ?_, ?_⟩
  · rw [Verif.runS_append, h1]; rfl
  · unfold Comparator.published at *
    rw [run_snoc, h1, List.flatten_append, h2]; simp
  · rw [befores_append, h3]
  · rw [afters_append, h4]
  · intro hm
    rcases List.mem_append.1 hm with hm | hm
    · exact hf (h5 hm)
    · exact he (List.mem_singleton.1 hm).symm

/-! ## One write -/

theorem upd_same {β : Type} (f : Nat → β) (k : Nat) (v : β) : upd f k v k = v := by simp [upd]
theorem upd_other {β : Type} (f : Nat → β) {k j : Nat} (v : β) (h : j ≠ k) : upd f k v j = f j := by simp [upd, h]

/-- What one analysis write does to a subscriber. -/
theorem fold_sub (comp : α → α → Bool) (sink : Nat → Sink) (x : α) (i k : Nat) (hi : sink i = .sub k) (hu : ∀ j, sink j = .sub k → j = i)
    (w : List Port.Call) (hn : w.Nodup) : ∀ s : State α,
    (w.foldl (call comp sink x) s).subs k = s.subs k ++ (if .imp i ∈ w then [x] else []) := by
  induction w with
  | nil => intro s; simp
  | cons c w ih =>
    intro s
    have ⟨hc, hw⟩ := List.nodup_cons.1 hn
    rw [List.foldl_cons, ih hw]
    cases c with
    | notConnected => simp [call]
    | imp j =>
      by_cases hj : j = i
      · subst hj
        simp [call, hi, deliver, upd_same, hc]
      · have hne : sink j ≠ .sub k := fun h => hj (hu j h)
        have : (call comp sink x s (.imp j)).subs k = s.subs k := by
          simp only [call]
          cases hs : sink j with
          | sub k' =>
            have : k ≠ k' := fun h => hne (by rw [hs, h])
            exact upd_other _ _ this
          | _ => rfl
        rw [this]
        simp [show ¬ i = j from fun h => hj h.symm]

/-- What one analysis write does to a FIFO. -/
theorem fold_fifo (comp : α → α → Bool) (sink : Nat → Sink) (x : α) (i k : Nat) (hi : sink i = .fifo k) (hu : ∀ j, sink j = .fifo k → j = i)
    (w : List Port.Call) (hn : w.Nodup) : ∀ (s : State α) ws, FifoAt (s.fifos k) (s.fifoOut k) ws →
    FifoAt ((w.foldl (call comp sink x) s).fifos k) ((w.foldl (call comp sink x) s).fifoOut k) (ws ++ (if .imp i ∈ w then [x] else [])) := by
  induction w with
  | nil => intro s ws h; simpa using h
  | cons c w ih =>
    intro s ws h
    have ⟨hc, hw⟩ := List.nodup_cons.1 hn
    rw [List.foldl_cons]
    cases c with
    | notConnected => simpa [call] using ih hw s ws h
    | imp j =>
      by_cases hj : j = i
      · subst hj
        have h' := ih hw (call comp sink x s (.imp j)) (ws ++ [x]) (by
          simp only [call, hi, deliver, fifoStep, upd_same]; exact fifoAt_write h x)
        simpa [hc] using h'
      · have hne : sink j ≠ .fifo k := fun h => hj (hu j h)
        have h' := ih hw (call comp sink x s (.imp j)) ws (by
          simp only [call]
          cases hs : sink j with
          | fifo k' =>
            have : k ≠ k' := fun h => hne (by rw [hs, h])
            simp only [deliver, fifoStep, upd_other _ _ this]; exact h
          | _ => exact h)
        simpa [show ¬ i = j from fun h => hj h.symm] using h'

/-- What one analysis write does to a comparator. -/
theorem fold_cmp (comp : α → α → Bool) (sink : Nat → Sink) (x : α) (i j c : Nat) (hi : sink i = .before c) (hj : sink j = .after c)
    (hui : ∀ m, sink m = .before c → m = i) (huj : ∀ m, sink m = .after c → m = j) (fl : Prop)
    (w : List Port.Call) (hn : w.Nodup) : ∀ (s : State α) bs as, CmpAt comp (s.cmps c) (s.pairs c) bs as fl →
    CmpAt comp ((w.foldl (call comp sink x) s).cmps c) ((w.foldl (call comp sink x) s).pairs c)
      (bs ++ (if .imp i ∈ w then [x] else [])) (as ++ (if .imp j ∈ w then [x] else [])) fl := by
  have hij : i ≠ j := fun h => by rw [h, hj] at hi; cases hi
  induction w with
  | nil => intro s bs as h; simpa using h
  | cons k w ih =>
    intro s bs as h
    have ⟨hc, hw⟩ := List.nodup_cons.1 hn
    rw [List.foldl_cons]
    cases k with
    | notConnected => simpa [call] using ih hw s bs as h
    | imp m =>
      by_cases hmi : m = i
      · subst hmi
        have h' := ih hw (call comp sink x s (.imp m)) (bs ++ [x]) as (by
          simp only [call, hi, deliver, cmpStep, upd_same]
          simpa [Comparator.befores, Comparator.afters] using cmpAt_step h (.writeBefore x) fl id nofun)
        simpa [hc, show ¬ j = m from fun h => hij h.symm] using h'
      · by_cases hmj : m = j
        · subst hmj
          have h' := ih hw (call comp sink x s (.imp m)) bs (as ++ [x]) (by
            simp only [call, hj, deliver, cmpStep, upd_same]
            simpa [Comparator.befores, Comparator.afters] using cmpAt_step h (.writeAfter x) fl id nofun)
          simpa [hc, hij] using h'
        · have h1 : sink m ≠ .before c := fun h => hmi (hui m h)
          have h2 : sink m ≠ .after c := fun h => hmj (huj m h)
          have h' := ih hw (call comp sink x s (.imp m)) bs as (by
            simp only [call]
            cases hs : sink m with
            | before k' =>
              have : c ≠ k' := fun h => h1 (by rw [hs, h])
              simp only [deliver, cmpStep, upd_other _ _ this]; exact h
            | after k' =>
              have : c ≠ k' := fun h => h2 (by rw [hs, h])
              simp only [deliver, cmpStep, upd_other _ _ this]; exact h
            | _ => exact h)
          simpa [show ¬ i = m from fun h => hmi h.symm, show ¬ j = m from fun h => hmj h.symm] using h'

/-! ## Histories -/

theorem writtenTo_append (l : Nat → Bool) (a b : List (Op α)) : writtenTo l (a ++ b) = writtenTo l a ++ writtenTo l b := by
  induction a with
  | nil => rfl
  | cons o a ih => cases o <;> simp only [List.cons_append, writtenTo, ih]; split <;> simp

theorem wired_write {nm node calls ps net} (h : Wired nm node calls ps net) {p : Nat} (hp : p ∈ ps) :
    (Port.write net p).Nodup ∧ ∀ i leads, LeadsTo (Port.built nm node calls) ps i leads → (.imp i ∈ Port.write net p ↔ leads p = true) := by
  obtain ⟨rank, depth, ha, hd, rfl⟩ := h.bound
  have := Port.C57_write_reaches nm h.names node h.fresh calls rank ha depth ps hd p hp
  exact ⟨this.1, fun i leads hl => (this.2.2 i).trans (hl p hp).symm⟩

theorem run_append (comp : α → α → Bool) (net : Port.State) (sink : Nat → Sink) (s : State α) (a b : List (Op α)) :
    run comp net sink s (a ++ b) = run comp net sink (run comp net sink s a) b := List.foldl_append

theorem writesIn_cons {ps : List Nat} {o : Op α} {ops} (h : WritesIn ps (o :: ops)) : WritesIn ps ops :=
  fun p x hm => h p x (List.mem_cons_of_mem _ hm)

theorem run_sub {nm node calls ps net} (hw : Wired nm node calls ps net) (comp : α → α → Bool) (sink : Nat → Sink) (i k : Nat)
    (hi : sink i = .sub k) (hu : ∀ j, sink j = .sub k → j = i) (leads : Nat → Bool) (hl : LeadsTo (Port.built nm node calls) ps i leads)
    (ops : List (Op α)) (hp : WritesIn ps ops) : ∀ s : State α,
    (run comp net sink s ops).subs k = s.subs k ++ writtenTo leads ops := by
  induction ops with
  | nil => intro s; simp [run, writtenTo]
  | cons o ops ih =>
    intro s
    show (run comp net sink (step comp net sink s o) ops).subs k = _
    rw [ih (writesIn_cons hp)]
    cases o with
    | write p x =>
      have := wired_write hw (hp p x (List.mem_cons_self ..))
      have h2 := this.2 i leads hl
      simp only [step, fold_sub comp sink x i k hi hu _ this.1, writtenTo]
      cases hb : leads p
      · rw [hb] at h2; rw [if_neg (fun h => by simpa using h2.1 h)]; simp
      · rw [if_pos (h2.2 hb)]; simp
    | fifo _ _ => rfl
    | cmp _ _ => rfl

theorem run_fifo {nm node calls ps net} (hw : Wired nm node calls ps net) (comp : α → α → Bool) (sink : Nat → Sink) (i k : Nat)
    (hi : sink i = .fifo k) (hu : ∀ j, sink j = .fifo k → j = i) (leads : Nat → Bool) (hl : LeadsTo (Port.built nm node calls) ps i leads)
    (ops : List (Op α)) (hp : WritesIn ps ops) : ∀ (s : State α) ws, FifoAt (s.fifos k) (s.fifoOut k) ws →
    FifoAt ((run comp net sink s ops).fifos k) ((run comp net sink s ops).fifoOut k) (ws ++ writtenTo leads ops) := by
  induction ops with
  | nil => intro s ws h; simpa [run, writtenTo] using h
  | cons o ops ih =>
    intro s ws h
    show FifoAt ((run comp net sink (step comp net sink s o) ops).fifos k) ((run comp net sink (step comp net sink s o) ops).fifoOut k) _
    cases o with
    | write p x =>
      have := wired_write hw (hp p x (List.mem_cons_self ..))
      have h2 := this.2 i leads hl
      have h3 := ih (writesIn_cons hp) _ _ (fold_fifo comp sink x i k hi hu _ this.1 s ws h)
      simp only [writtenTo]
      cases hb : leads p
      · rw [hb] at h2; rw [if_neg (fun h => by simpa using h2.1 h)] at h3; simpa [step] using h3
      · rw [if_pos (h2.2 hb)] at h3; simpa [step] using h3
    | fifo k' e =>
      refine ih (writesIn_cons hp) _ ws ?_
      by_cases hk : k = k'
      · subst hk; simp only [step, fifoStep, upd_same]; exact fifoAt_take h e
      · simp only [step, fifoStep, upd_other _ _ hk]; exact h
    | cmp _ _ => exact ih (writesIn_cons hp) _ ws h

theorem run_cmp {nm node calls ps net} (hw : Wired nm node calls ps net) (comp : α → α → Bool) (sink : Nat → Sink) (i j c : Nat)
    (hi : sink i = .before c) (hj : sink j = .after c) (hui : ∀ m, sink m = .before c → m = i) (huj : ∀ m, sink m = .after c → m = j)
    (lb la : Nat → Bool) (hb : LeadsTo (Port.built nm node calls) ps i lb) (ha : LeadsTo (Port.built nm node calls) ps j la)
    (ops : List (Op α)) (hp : WritesIn ps ops) : ∀ (s : State α) bs as fl, CmpAt comp (s.cmps c) (s.pairs c) bs as fl →
    CmpAt comp ((run comp net sink s ops).cmps c) ((run comp net sink s ops).pairs c) (bs ++ writtenTo lb ops) (as ++ writtenTo la ops)
      (fl ∨ .cmp c .flush ∈ ops) := by
  induction ops with
  | nil =>
    intro s bs as fl h
    obtain ⟨es, h1, h2, h3, h4, h5⟩ := h
    exact ⟨es, h1, h2, by simpa [writtenTo] using h3, by simpa [writtenTo] using h4, fun h => .inl (h5 h)⟩
  | cons o ops ih =>
    intro s bs as fl h
    show CmpAt comp ((run comp net sink (step comp net sink s o) ops).cmps c) ((run comp net sink (step comp net sink s o) ops).pairs c) _ _ _
    have weaken : ∀ {s' ps bs as}, CmpAt comp s' ps bs as ((fl ∨ o = .cmp c .flush) ∨ .cmp c .flush ∈ ops) →
        CmpAt comp s' ps bs as (fl ∨ .cmp c .flush ∈ o :: ops) := by
      rintro s' ps bs as ⟨es, h1, h2, h3, h4, h5⟩
      refine ⟨es, h1, h2, h3, h4, fun h => ?_⟩
      rcases h5 h with (h | h) | h
      · exact .inl h
      · exact .inr (by rw [h]; exact List.mem_cons_self ..)
      · exact .inr (List.mem_cons_of_mem _ h)
    have widen : CmpAt comp (s.cmps c) (s.pairs c) bs as (fl ∨ o = .cmp c .flush) := by
      obtain ⟨es, h1, h2, h3, h4, h5⟩ := h
      exact ⟨es, h1, h2, h3, h4, fun h => .inl (h5 h)⟩
    cases o with
    | write p x =>
      have := wired_write hw (hp p x (List.mem_cons_self ..))
      have e1 := this.2 i lb hb
      have e2 := this.2 j la ha
      have h3 := ih (writesIn_cons hp) _ _ _ _ (fold_cmp comp sink x i j c hi hj hui huj _ _ this.1 s bs as widen)
      refine weaken ?_
      simp only [writtenTo]
      cases hlb : lb p <;> cases hla : la p <;> rw [hlb] at e1 <;> rw [hla] at e2
      · rw [if_neg (fun h => by simpa using e1.1 h), if_neg (fun h => by simpa using e2.1 h)] at h3; simpa [step] using h3
      · rw [if_neg (fun h => by simpa using e1.1 h), if_pos (e2.2 rfl)] at h3; simpa [step] using h3
      · rw [if_pos (e1.2 rfl), if_neg (fun h => by simpa using e2.1 h)] at h3; simpa [step] using h3
      · rw [if_pos (e1.2 rfl), if_pos (e2.2 rfl)] at h3; simpa [step] using h3
    | fifo k' e => exact weaken (ih (writesIn_cons hp) _ _ _ _ widen)
    | cmp c' e =>
      refine weaken (ih (writesIn_cons hp) _ _ _ _ ?_)
      by_cases hc : c = c'
      · subst hc
        simp only [step, cmpStep, upd_same]
        have := cmpAt_step h e.ev (fl ∨ (.cmp c e : Op α) = .cmp c .flush) .inl (fun h => .inr (by cases e <;> first | rfl | cases h))
        cases e <;> simpa [Go.ev, Comparator.befores, Comparator.afters] using this
      · simp only [step, cmpStep, upd_other _ _ hc]; exact widen

theorem cmpAt_init (comp : α → α → Bool) : CmpAt comp (Comparator.init : Comparator.State α) [] [] [] False := ⟨[], rfl, rfl, rfl, rfl, nofun⟩

end Verif.Scoreboard
