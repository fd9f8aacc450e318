import Verif.Spec.TlmFifo
import Verif.Lemmas.Mailbox
namespace Verif.TlmFifo
open Verif
variable {α : Type}

/-- Outputs a blocking call of the mailbox can have. -/
def coOut : Mailbox.Out α → Bool
  | .nothing | .blocked | .raised | .putDone .. | .gotten .. | .peeked .. => true
  | _ => false

theorem coOut_put (m : Mailbox.State α) (t : Nat) (x : α) : coOut (Mailbox.putLoop m t x).2 = true := by
  simp only [Mailbox.putLoop]; split <;> rfl

theorem coOut_get (m : Mailbox.State α) (t : Nat) : coOut (Mailbox.getLoop m t).2 = true := by
  simp only [Mailbox.getLoop]; split
  · rfl
  · split <;> first | rfl | (split <;> rfl)

theorem coOut_callPut (m : Mailbox.State α) (t : Nat) (x : α) : coOut (Mailbox.step m (.callPut t x)).2 = true := by
  simp only [Mailbox.step]; split
  · exact coOut_put _ _ _
  · rfl
theorem coOut_callGet (m : Mailbox.State α) (t : Nat) : coOut (Mailbox.step m (.callGet t)).2 = true := by
  simp only [Mailbox.step]; split
  · exact coOut_get _ _
  · rfl
theorem coOut_callPeek (m : Mailbox.State α) (t : Nat) : coOut (Mailbox.step m (.callPeek t)).2 = true := by
  simp only [Mailbox.step]; split
  · split <;> rfl
  · rfl
theorem coOut_resume (m : Mailbox.State α) (t : Nat) : coOut (Mailbox.step m (.resume t)).2 = true := by
  simp only [Mailbox.step]; split
  · exact coOut_put _ _ _
  · exact coOut_get _ _
  · rfl
  · rfl

theorem after_m (s : State α) (m : Mailbox.State α) (o : Mailbox.Out α) : (after s m o).1.m = m := by
  cases o <;> rfl
theorem after_size (s : State α) (m : Mailbox.State α) (o : Mailbox.Out α) : (after s m o).1.size = s.size := by
  cases o <;> rfl
theorem after_put (s : State α) (m : Mailbox.State α) {o : Mailbox.Out α} (h : coOut o = true) :
    putBy (after s m o).2 = (Mailbox.accepted o).toList := by cases o <;> first | rfl | simp [coOut] at h
theorem after_taken (s : State α) (m : Mailbox.State α) {o : Mailbox.Out α} (h : coOut o = true) :
    takenBy (after s m o).2 = (Mailbox.delivered o).toList := by cases o <;> first | rfl | simp [coOut] at h
theorem after_putSeen (s : State α) (m : Mailbox.State α) {o : Mailbox.Out α} (h : coOut o = true) :
    (after s m o).1.putSeen = s.putSeen ++ (Mailbox.accepted o).toList := by
  cases o <;> first | (simp [after, Mailbox.accepted]; done) | simp [coOut] at h
theorem after_getSeen (s : State α) (m : Mailbox.State α) {o : Mailbox.Out α} (h : coOut o = true) :
    (after s m o).1.getSeen = s.getSeen ++ (Mailbox.delivered o).toList := by
  cases o <;> first | (simp [after, Mailbox.delivered]; done) | simp [coOut] at h

/-- One step's bookkeeping: stored transactions, and what `put_ap` observers see. -/
structure Acc (s s' : State α) (put taken : List α) : Prop where
  queue : s.m.queue ++ put = taken ++ s'.m.queue
  putSeen : s'.putSeen = s.putSeen ++ put
  size : s'.size = s.size
  inv : ∀ k, Mailbox.Inv k s.m → Mailbox.Inv k s'.m

theorem Acc.refl (s : State α) : Acc s s [] [] := ⟨by simp, by simp, rfl, fun _ h => h⟩

theorem acc_co (s0 s : State α) (e : Mailbox.Ev α) (hm : s.m = s0.m) (hp : s.putSeen = s0.putSeen)
    (hs : s.size = s0.size) (h : coOut (Mailbox.step s.m e).2 = true) :
    Acc s0 (after s (Mailbox.step s.m e).1 (Mailbox.step s.m e).2).1
      (putBy (after s (Mailbox.step s.m e).1 (Mailbox.step s.m e).2).2)
      (takenBy (after s (Mailbox.step s.m e).1 (Mailbox.step s.m e).2).2) := by
  constructor
  · rw [after_m, after_put _ _ h, after_taken _ _ h, ← hm]; exact Mailbox.step_account s.m e
  · rw [after_putSeen _ _ h, after_put _ _ h, hp]
  · rw [after_size, hs]
  · intro k hk; rw [after_m]; rw [← hm] at hk; exact Mailbox.inv_step hk e

theorem tryPut_eq (s : State α) (x : α) :
    tryPut s x = if Mailbox.canPut s.m = true then
      ({ s with m := (Mailbox.step s.m (.tryPut x)).1, putSeen := s.putSeen ++ [x] }, true) else (s, false) := by
  by_cases h : Mailbox.canPut s.m = true <;> simp [tryPut, Mailbox.step, h]

theorem mb_tryPut_queue (m : Mailbox.State α) (x : α) (h : Mailbox.canPut m = true) :
    (Mailbox.step m (.tryPut x)).1.queue = m.queue ++ [x] := by simp [Mailbox.step, h, Mailbox.setWrite]

theorem tryGet_nil (s : State α) (l : List α) (h : s.m.queue = []) : tryGet s l = (s, false, l) := by
  simp [tryGet, Mailbox.step, Mailbox.canGet, h]

theorem tryGet_cons (s : State α) (l : List α) {x : α} {q : List α} (h : s.m.queue = x :: q) :
    tryGet s l = ({ s with m := (Mailbox.step s.m .tryGet).1, getSeen := s.getSeen ++ ((l ++ [x]).head?.toList) },
      true, l ++ [x]) := by
  simp [tryGet, Mailbox.step, Mailbox.canGet, h]

theorem mb_tryGet_queue (m : Mailbox.State α) {x : α} {q : List α} (h : m.queue = x :: q) :
    (Mailbox.step m .tryGet).1.queue = q := by simp [Mailbox.step, Mailbox.canGet, h, Mailbox.setRead]

theorem acc_tryPut (s : State α) (x : α) :
    Acc s (tryPut s x).1 (if (tryPut s x).2 = true then [x] else []) [] := by
  rw [tryPut_eq]
  by_cases h : Mailbox.canPut s.m = true
  · simp only [if_pos h, if_true]
    refine ⟨by simp [mb_tryPut_queue _ _ h], rfl, rfl, fun k hk => Mailbox.inv_step hk _⟩
  · simp only [if_neg h]; exact Acc.refl s

theorem acc_tryGet (s : State α) (l : List α) :
    Acc s (tryGet s l).1 [] (if (tryGet s l).2.1 = true then (tryGet s l).2.2.getLast?.toList else []) := by
  cases h : s.m.queue with
  | nil => rw [tryGet_nil s l h]; exact Acc.refl s
  | cons x q =>
    rw [tryGet_cons s l h]
    refine ⟨by simp [h, mb_tryGet_queue _ h], by simp, rfl, fun k hk => Mailbox.inv_step hk _⟩

/-- The flush loop: everything is removed, oldest first; `get_ap` sees the first removed transaction each time. -/
theorem flushLoop_spec (q : List α) (s : State α) (l : List α) (h : s.m.queue = q) (n : Nat) (hn : q.length < n) :
    (flushLoop n s l).2 = l ++ q ∧ (flushLoop n s l).1.m.queue = [] ∧ (flushLoop n s l).1.putSeen = s.putSeen ∧
    (flushLoop n s l).1.getSeen = s.getSeen ++ List.flatten (q.map (fun _ => (l ++ q).head?.toList)) ∧
    (flushLoop n s l).1.size = s.size ∧ (flushLoop n s l).1.pending = s.pending ∧
    (∀ u, inGet ((flushLoop n s l).1.m.tasks u) = inGet (s.m.tasks u)) ∧
    (∀ k, Mailbox.Inv k s.m → Mailbox.Inv k (flushLoop n s l).1.m) := by
  induction q generalizing s l n with
  | nil =>
    cases n with
    | zero => simp at hn
    | succ n => simp [flushLoop, tryGet_nil s l h, h]
  | cons x q ih =>
    cases n with
    | zero => simp at hn
    | succ n =>
      simp only [flushLoop, tryGet_cons s l h]
      have hq := mb_tryGet_queue s.m h
      have hn' : q.length < n := by simp at hn; omega
      obtain ⟨i1, i2, i3, i4, i5, i6, i7, i8⟩ := ih
        { s with m := (Mailbox.step s.m .tryGet).1, getSeen := s.getSeen ++ ((l ++ [x]).head?.toList) }
        (l ++ [x]) hq n hn'
      refine ⟨by rw [i1]; simp, i2, i3, ?_, i5, i6, ?_, fun k hk => i8 k (Mailbox.inv_step hk _)⟩
      · rw [i4]
        have e : (l ++ [x] ++ q).head? = (l ++ x :: q).head? := by simp
        have e2 : (l ++ [x]).head? = (l ++ x :: q).head? := by cases l <;> rfl
        rw [e, e2]; simp
      · intro u
        rw [i7 u]
        simp only [Mailbox.step, Mailbox.canGet, h, List.length_cons]
        simp only [Nat.zero_lt_succ, decide_true, if_true, Mailbox.setRead]
        cases s.m.tasks u <;> rfl

theorem acc_step (s : State α) (e : Ev α) : Acc s (step s e).1 (putBy (step s e).2) (takenBy (step s e).2) := by
  cases e with
  | callPut t x =>
    cases h : s.m.tasks t <;> simp only [step, h] <;>
      first | exact acc_co s s _ rfl rfl rfl (coOut_callPut _ _ _) | exact Acc.refl s
  | callGet t =>
    cases h : s.m.tasks t <;> simp only [step, h] <;>
      first | exact acc_co s { s with pending := s.pending + 1 } _ rfl rfl rfl (coOut_callGet _ _) | exact Acc.refl s
  | callPeek t b =>
    cases h : s.m.tasks t <;> simp only [step, h] <;>
      first
        | exact acc_co s { s with withList := fun u => if u = t then b else s.withList u } _ rfl rfl rfl
            (coOut_callPeek _ _)
        | exact Acc.refl s
  | resume t => exact acc_co s s _ rfl rfl rfl (coOut_resume _ _)
  | kill t => exact acc_co s s _ rfl rfl rfl rfl
  | tryPut x =>
    have h := acc_tryPut s x
    simp only [step]
    cases hb : (tryPut s x).2 <;> simp [hb, putBy, takenBy] at h ⊢ <;> exact h
  | tryGet l =>
    have h := acc_tryGet s l
    simp only [step]
    cases hb : (tryGet s l).2.1 <;> simp [hb, putBy, takenBy] at h ⊢ <;> exact h
  | tryPeek l =>
    have hc : ∀ m o, Mailbox.step s.m .tryPeek = (m, o) → m = s.m := by
      intro m o hm
      have h1 : m = (Mailbox.step s.m .tryPeek).1 := by rw [hm]
      rw [h1]; simp only [Mailbox.step]; split <;> rfl
    simp only [step]
    split
    · next m x hm => have := hc _ _ hm; subst this; exact Acc.refl s
    · next m o _ hm => have := hc _ _ hm; subst this; exact Acc.refl s
  | write x =>
    have h := acc_tryPut s x
    simp only [step]
    cases hb : (tryPut s x).2 <;> simp [hb, putBy, takenBy] at h ⊢ <;> exact h
  | flush =>
    obtain ⟨i1, i2, i3, i4, i5, i6, i7, i8⟩ := flushLoop_spec s.m.queue s [] rfl (s.m.queue.length + 1) (by omega)
    refine ⟨?_, ?_, i5, i8⟩
    · simp [step, flush, putBy, takenBy, i1, i2]
    · simp [step, flush, putBy, i3]

/-- What `get_ap` sees in one ordinary step. -/
theorem getSeen_step (s : State α) (e : Ev α) (hp : PlainGet e) :
    (step s e).1.getSeen = s.getSeen ++ takenBy (step s e).2 := by
  have co : ∀ (s0 : State α) (e : Mailbox.Ev α), s0.getSeen = s.getSeen → coOut (Mailbox.step s0.m e).2 = true →
      (after s0 (Mailbox.step s0.m e).1 (Mailbox.step s0.m e).2).1.getSeen =
        s.getSeen ++ takenBy (after s0 (Mailbox.step s0.m e).1 (Mailbox.step s0.m e).2).2 := by
    intro s0 e hg h
    rw [after_getSeen _ _ h, after_taken _ _ h, hg]
  cases e with
  | callPut t x =>
    cases h : s.m.tasks t <;> simp only [step, h] <;>
      first | exact co s _ rfl (coOut_callPut _ _ _) | simp [takenBy]
  | callGet t =>
    cases h : s.m.tasks t <;> simp only [step, h] <;>
      first | exact co { s with pending := s.pending + 1 } _ rfl (coOut_callGet _ _) | simp [takenBy]
  | callPeek t b =>
    cases h : s.m.tasks t <;> simp only [step, h] <;>
      first | exact co { s with withList := fun u => if u = t then b else s.withList u } _ rfl (coOut_callPeek _ _)
            | simp [takenBy]
  | resume t => exact co s _ rfl (coOut_resume _ _)
  | kill t => exact co s _ rfl rfl
  | tryPut x => simp only [step, tryPut_eq]; split <;> simp [takenBy]
  | write x => simp only [step, tryPut_eq]; split <;> simp [takenBy]
  | tryGet l =>
    have hp' : l = [] := hp
    subst hp'
    cases h : s.m.queue with
    | nil => simp [step, tryGet_nil s _ h, takenBy]
    | cons x q => simp [step, tryGet_cons s _ h, takenBy]
  | tryPeek l => simp only [step]; split <;> simp [takenBy]
  | flush => exact hp.elim

theorem run_acc (s : State α) (es : List (Ev α)) :
    Acc s (run step s es).1 ((run step s es).2.flatMap putBy) ((run step s es).2.flatMap takenBy) := by
  induction es generalizing s with
  | nil => exact Acc.refl s
  | cons e es ih =>
    have a := acc_step s e
    have b := ih (step s e).1
    simp only [run]
    refine ⟨?_, ?_, b.size.trans a.size, fun k hk => b.inv k (a.inv k hk)⟩
    · rw [List.flatMap_cons, List.flatMap_cons, ← List.append_assoc, a.queue, List.append_assoc, b.queue,
        List.append_assoc]
    · rw [b.putSeen, a.putSeen, List.flatMap_cons, List.append_assoc]

theorem run_getSeen (s : State α) (es : List (Ev α)) (hp : ∀ e ∈ es, PlainGet e) :
    (run step s es).1.getSeen = s.getSeen ++ (run step s es).2.flatMap takenBy := by
  induction es generalizing s with
  | nil => simp [run]
  | cons e es ih =>
    simp only [run]
    rw [ih _ (fun e he => hp e (List.mem_cons_of_mem _ he)), getSeen_step s e (hp e (List.mem_cons_self ..)),
      List.flatMap_cons, List.append_assoc]

theorem init_inv (k : Int) : Mailbox.Inv k (init k : State α).m := Mailbox.inv_init k

theorem reach_inv (k : Int) (es : List (Ev α)) : Mailbox.Inv k (runS step (init k) es).m :=
  (run_acc (init k) es).inv k (init_inv k)

theorem reach_size (k : Int) (es : List (Ev α)) : (runS step (init k : State α) es).size = k :=
  (run_acc (init k) es).size

/-! ## The pending-get counter -/

/-- Indicator. -/
def ind (b : Bool) : Int := if b then 1 else 0

theorem count_update (f g : Nat → Bool) (t : Nat) (h : ∀ u, u ≠ t → g u = f u) (N : Nat) :
    (((List.range N).filter g).length : Int) =
      ((List.range N).filter f).length + (if t < N then ind (g t) - ind (f t) else 0) := by
  induction N with
  | zero => simp
  | succ N ih =>
    rw [List.range_succ, List.filter_append, List.filter_append, List.length_append, List.length_append]
    by_cases hN : N = t
    · subst hN
      rw [if_neg (by omega)] at ih
      rw [if_pos (by omega)]
      cases hf : f N <;> cases hg : g N <;> simp [hf, hg, ind] <;> omega
    · have hu := h N hN
      by_cases ht : t < N
      · rw [if_pos ht] at ih; rw [if_pos (by omega)]
        cases hf : f N <;> simp [hf, hu] <;> omega
      · rw [if_neg ht] at ih; rw [if_neg (by omega)]
        cases hf : f N <;> simp [hf, hu] <;> omega

theorem inGet_setWrite (m : Mailbox.State α) (u : Nat) : inGet ((Mailbox.setWrite m).tasks u) = inGet (m.tasks u) := by
  simp only [Mailbox.setWrite]; cases m.tasks u <;> rfl
theorem inGet_setRead (m : Mailbox.State α) (u : Nat) : inGet ((Mailbox.setRead m).tasks u) = inGet (m.tasks u) := by
  simp only [Mailbox.setRead]; cases m.tasks u <;> rfl

/-- Effect of one coroutine's segment on who is inside `get`. -/
structure Seg (m m' : Mailbox.State α) (t : Nat) (b : Bool) : Prop where
  other : ∀ u, u ≠ t → inGet (m'.tasks u) = inGet (m.tasks u)
  self : inGet (m'.tasks t) = b

theorem seg_put (m : Mailbox.State α) (t : Nat) (x : α) : Seg m (Mailbox.putLoop m t x).1 t false := by
  simp only [Mailbox.putLoop]
  split
  · constructor
    · intro u hu; simp [Mailbox.waitRead, Mailbox.setTask, hu]
    · simp only [Mailbox.waitRead, Mailbox.setTask, if_true]; split <;> rfl
  · constructor
    · intro u hu; simp only [Mailbox.setTask, if_neg hu]; exact inGet_setWrite { m with queue := m.queue ++ [x] } u
    · simp [Mailbox.setTask, inGet]

theorem getLoop_nil (m : Mailbox.State α) (t : Nat) (h : m.queue = []) :
    Mailbox.getLoop m t = (Mailbox.waitWrite { m with writeFired := false } t false, .blocked) := by
  simp [Mailbox.getLoop, Mailbox.canGet, h]
theorem getLoop_cons (m : Mailbox.State α) (t : Nat) {x : α} {q : List α} (h : m.queue = x :: q) :
    Mailbox.getLoop m t = (Mailbox.setTask (Mailbox.setRead { m with queue := q }) t .idle, .gotten t x) := by
  simp [Mailbox.getLoop, Mailbox.canGet, h]

theorem seg_get (m : Mailbox.State α) (t : Nat) :
    ((Mailbox.getLoop m t).2 = .blocked ∧ Seg m (Mailbox.getLoop m t).1 t true) ∨
    (∃ x, (Mailbox.getLoop m t).2 = .gotten t x ∧ Seg m (Mailbox.getLoop m t).1 t false) := by
  cases h : m.queue with
  | nil =>
    left
    rw [getLoop_nil m t h]
    refine ⟨rfl, ?_, ?_⟩
    · intro u hu; simp [Mailbox.waitWrite, Mailbox.setTask, hu]
    · simp [Mailbox.waitWrite, Mailbox.setTask, inGet]
  | cons x q =>
    right
    rw [getLoop_cons m t h]
    refine ⟨x, rfl, ?_, ?_⟩
    · intro u hu; simp only [Mailbox.setTask, if_neg hu]; exact inGet_setRead { m with queue := q } u
    · simp [Mailbox.setTask, inGet]

theorem getters_seg {s s' : State α} {t : Nat} {b : Bool} (h : Seg s.m s'.m t b) {N : Nat} (ht : t < N) :
    (getters s' N : Int) = getters s N + (ind b - ind (inGet (s.m.tasks t))) := by
  have := count_update (fun u => inGet (s.m.tasks u)) (fun u => inGet (s'.m.tasks u)) t h.other N
  rw [if_pos ht, h.self] at this
  exact this

theorem getters_same {s s' : State α} (h : ∀ u, inGet (s'.m.tasks u) = inGet (s.m.tasks u)) (N : Nat) :
    getters s' N = getters s N := by
  unfold getters
  have : (fun u => inGet (s'.m.tasks u)) = (fun u => inGet (s.m.tasks u)) := funext h
  rw [this]

/-- After the get segment of a coroutine that was counted in `p` (as pending) but not yet in `getters`. -/
theorem pend_get (s0 s : State α) (m0 : Mailbox.State α) (t N : Nat) (ht : t < N) (b : Bool)
    (hp : s0.pending = s.pending + (if b then 0 else 1)) (h0 : ∀ u, m0.tasks u = s.m.tasks u)
    (hb : inGet (s.m.tasks t) = b) (h : s.pending = getters s N) :
    (after s0 (Mailbox.getLoop m0 t).1 (Mailbox.getLoop m0 t).2).1.pending =
      getters (after s0 (Mailbox.getLoop m0 t).1 (Mailbox.getLoop m0 t).2).1 N := by
  rcases seg_get m0 t with ⟨ho, hs⟩ | ⟨x, ho, hs⟩
  · have hs' : Seg s.m (after s0 (Mailbox.getLoop m0 t).1 (Mailbox.getLoop m0 t).2).1.m t true := by
      rw [after_m]; exact ⟨fun u hu => by rw [hs.other u hu, h0], hs.self⟩
    rw [getters_seg hs' ht, hb, ho]
    cases b <;> simp [after, ind] at hp ⊢ <;> omega
  · have hs' : Seg s.m (after s0 (Mailbox.getLoop m0 t).1 (Mailbox.getLoop m0 t).2).1.m t false := by
      rw [after_m]; exact ⟨fun u hu => by rw [hs.other u hu, h0], hs.self⟩
    rw [getters_seg hs' ht, hb, ho]
    cases b <;> simp [after, ind] at hp ⊢ <;> omega

/-- A put or peek segment of a coroutine that is not inside `get`. -/
theorem pend_other {s s' : State α} {t : Nat} (hs : Seg s.m s'.m t false) {N : Nat} (ht : t < N)
    (hb : inGet (s.m.tasks t) = false) (hp : s'.pending = s.pending) (h : s.pending = getters s N) :
    s'.pending = getters s' N := by
  rw [getters_seg hs ht, hb, hp, h]; simp

theorem after_pending (s : State α) (m : Mailbox.State α) (o : Mailbox.Out α) (h : ∀ t x, o ≠ .gotten t x) :
    (after s m o).1.pending = s.pending := by
  cases o <;> first | rfl | (next t x => exact absurd rfl (h t x))

theorem put_not_gotten (m : Mailbox.State α) (t : Nat) (x : α) (u : Nat) (y : α) :
    (Mailbox.putLoop m t x).2 ≠ .gotten u y := by
  simp only [Mailbox.putLoop]; split <;> simp

theorem pend_step (s : State α) (e : Ev α) (N : Nat) (hb : Below N e) (hk : NoKill e)
    (h : s.pending = getters s N) : (step s e).1.pending = getters (step s e).1 N := by
  cases e with
  | callPut t x =>
    cases hi : s.m.tasks t <;> simp only [step, hi] <;> try exact h
    simp only [Mailbox.step, hi]
    refine pend_other (t := t) ?_ hb (by rw [hi]; rfl) (after_pending _ _ _ (put_not_gotten _ _ _)) h
    rw [after_m]; exact seg_put s.m t x
  | callGet t =>
    cases hi : s.m.tasks t <;> simp only [step, hi] <;> try exact h
    simp only [Mailbox.step, hi]
    exact pend_get { s with pending := s.pending + 1 } s s.m t N hb false rfl (fun _ => rfl) (by rw [hi]; rfl) h
  | callPeek t b =>
    cases hi : s.m.tasks t <;> simp only [step, hi] <;> try exact h
    simp only [Mailbox.step, hi]
    split
    · refine pend_other (s := s) (t := t) ⟨?_, ?_⟩ hb (by rw [hi]; rfl) rfl h
      · intro u hu; simp [after, Mailbox.waitWrite, Mailbox.setTask, hu]
      · simp [after, Mailbox.waitWrite, Mailbox.setTask, inGet]
    · refine pend_other (s := s) (t := t) ⟨?_, ?_⟩ hb (by rw [hi]; rfl) rfl h
      · intro u hu; simp [after, Mailbox.peekTail, Mailbox.setTask, hu]
      · simp [after, Mailbox.peekTail, Mailbox.setTask, inGet]
  | resume t =>
    cases hi : s.m.tasks t with
    | putWoken x =>
      simp only [step, Mailbox.step, hi]
      refine pend_other (t := t) ?_ hb (by rw [hi]; rfl) (after_pending _ _ _ (put_not_gotten _ _ _)) h
      rw [after_m]
      have := seg_put { s.m with readFired := false } t x
      exact ⟨this.other, this.self⟩
    | getWoken =>
      simp only [step, Mailbox.step, hi]
      exact pend_get s s { s.m with writeFired := false } t N hb true (by simp) (fun _ => rfl) (by rw [hi]; rfl) h
    | peekWoken =>
      simp only [step, Mailbox.step, hi]
      refine pend_other (s := s) (t := t) ⟨?_, ?_⟩ hb (by rw [hi]; rfl) rfl h
      · intro u hu; simp [after, Mailbox.peekTail, Mailbox.setTask, hu]
      · simp [after, Mailbox.peekTail, Mailbox.setTask, inGet]
    | _ => simp only [step, Mailbox.step, hi, after]; exact h
  | kill t => exact hk.elim
  | tryPut x =>
    simp only [step, tryPut_eq]
    by_cases hc : Mailbox.canPut s.m = true
    · simp only [if_pos hc]
      rw [getters_same (s := s) _ N]; exact h
      intro u; simp only [Mailbox.step, hc, if_true]; exact inGet_setWrite { s.m with queue := s.m.queue ++ [x] } u
    · simp only [if_neg hc]; exact h
  | write x =>
    simp only [step, tryPut_eq]
    by_cases hc : Mailbox.canPut s.m = true
    · simp only [if_pos hc]
      rw [getters_same (s := s) _ N]; exact h
      intro u; simp only [Mailbox.step, hc, if_true]; exact inGet_setWrite { s.m with queue := s.m.queue ++ [x] } u
    · simp only [if_neg hc]; exact h
  | tryGet l =>
    cases hq : s.m.queue with
    | nil => simp only [step, tryGet_nil s l hq]; exact h
    | cons x q =>
      simp only [step, tryGet_cons s l hq]
      rw [getters_same (s := s) _ N]; exact h
      intro u
      have : (Mailbox.step s.m .tryGet).1 = Mailbox.setRead { s.m with queue := q } := by
        simp [Mailbox.step, Mailbox.canGet, hq]
      simp only [this]; exact inGet_setRead { s.m with queue := q } u
  | tryPeek l =>
    have hc : (Mailbox.step s.m .tryPeek).1 = s.m := by simp only [Mailbox.step]; split <;> rfl
    simp only [step]
    split
    · next m x hm => have := congrArg Prod.fst hm; rw [hc] at this; subst this; exact h
    · next m o _ hm => have := congrArg Prod.fst hm; rw [hc] at this; subst this; exact h
  | flush =>
    obtain ⟨i1, i2, i3, i4, i5, i6, i7, i8⟩ := flushLoop_spec s.m.queue s [] rfl (s.m.queue.length + 1) (by omega)
    simp only [step, flush]
    rw [getters_same i7 N, i6]; exact h

theorem pend_run (N : Nat) (s : State α) (es : List (Ev α)) (hb : ∀ e ∈ es, Below N e) (hk : ∀ e ∈ es, NoKill e)
    (h : s.pending = getters s N) : (runS step s es).pending = getters (runS step s es) N := by
  induction es generalizing s with
  | nil => exact h
  | cons e es ih =>
    rw [runS_cons]
    exact ih _ (fun e he => hb e (List.mem_cons_of_mem _ he)) (fun e he => hk e (List.mem_cons_of_mem _ he))
      (pend_step s e N (hb e (List.mem_cons_self ..)) (hk e (List.mem_cons_self ..)) h)

end Verif.TlmFifo
