import Verif.Props.RspRoute
import Verif.Lemmas.Response
import Verif.Spec.RspSystem
/-! # C395: get_response gives the answer to the right item, on several sequencers -/
namespace Verif.RspSystem

theorem snoc_ind {P : List Op → Prop} (h0 : P []) (h1 : ∀ l o, P l → P (l ++ [o])) (l : List Op) : P l := by
  rw [← List.reverse_reverse l]
  induction l.reverse with
  | nil => exact h0
  | cons o r ih => rw [List.reverse_cons]; exact h1 _ _ ih

/-- What one call on a response queue does to its contents. -/
theorem queue_step (s : Response.State Rsp) (h : Response.MoreOk s) (o : Response.Op Rsp) (r : Rsp)
    (hr : r ∈ (Response.step Rsp.tid s o).1.queue) : r ∈ s.queue ∨ o = .put r := by
  have k := Response.step_rel (tid := Rsp.tid) h o
  have e : (Response.step Rsp.tid s o).1.queue = (Response.abs (Response.step Rsp.tid s o).1).q := rfl
  have e' : s.queue = (Response.abs s).q := rfl
  rw [e] at hr
  rw [e']
  generalize Response.abs (Response.step Rsp.tid s o).1 = b at *
  generalize Response.abs s = a at *
  have sub : ∀ {id x q'}, Response.Obtains Rsp.tid id a.q x q' → ∀ y ∈ q', y ∈ a.q := by
    intro id x q' ho y hy
    unfold Response.Obtains at ho
    split at ho
    · rw [ho]; exact List.mem_cons_of_mem _ hy
    · obtain ⟨c, d, h1, h2, _⟩ := ho
      rw [h2] at hy; rw [h1]
      rcases List.mem_append.1 hy with k | k <;> simp [k]
  generalize (Response.step Rsp.tid s o).2 = out at k
  cases k with
  | stored _ =>
    rcases List.mem_append.1 hr with k | k
    · exact .inl k
    · simp only [List.mem_singleton] at k; exact .inr (by rw [k])
  | dropped => exact .inl hr
  | got _ ho => exact .inl (sub ho _ hr)
  | blocked => exact .inl hr
  | busy => exact .inl hr
  | resumed _ ho => exact .inl (sub ho _ hr)
  | again => exact .inl hr
  | spurious => exact .inl hr
  | kill => exact .inl hr
  | clear => simp at hr
  | depth => exact .inl hr
  | off => exact .inl hr

/-- What a coroutine gets was in the queue and has the id it asked for. -/
theorem queue_got (s : Response.State Rsp) (h : Response.MoreOk s) (o : Response.Op Rsp) (t : Nat) (id : Int) (r : Rsp)
    (hg : (Response.step Rsp.tid s o).2 = .got t id r) : r ∈ s.queue ∧ (id ≠ -1 → r.tid = id) ∧
    (o = .get t id ∨ o = .resume t) := by
  have k := Response.step_rel (tid := Rsp.tid) h o
  rw [hg] at k
  have e' : s.queue = (Response.abs s).q := rfl
  rw [e']
  generalize Response.abs (Response.step Rsp.tid s o).1 = b at *
  generalize Response.abs s = a at *
  have sub : ∀ {q'}, Response.Obtains Rsp.tid id a.q r q' → r ∈ a.q ∧ (id ≠ -1 → r.tid = id) := by
    intro q' ho
    unfold Response.Obtains at ho
    split at ho
    · rename_i e; rw [ho]; exact ⟨by simp, fun k => absurd e k⟩
    · obtain ⟨c, d, h1, _, h3, _⟩ := ho
      rw [h1]; exact ⟨by simp, fun _ => h3⟩
  cases k with
  | got _ ho => exact ⟨(sub ho).1, (sub ho).2, .inl rfl⟩
  | resumed _ ho => exact ⟨(sub ho).1, (sub ho).2, .inr rfl⟩

/-- Response `r` waits for sequence `i`: it was put after the last start of `i`, and the sequencer found `i`. -/
def Waiting (h : List Op) (i : Nat) (r : Rsp) : Prop :=
  ∃ l q l', h = l ++ .route (.respond q r.item) :: l' ∧ (∀ p, .route (.start i p) ∉ l') ∧
    RspRoute.answer (calls l) q r.item = .to i r.tid

structure Inv (h : List Op) (s : State) : Prop where
  route : s.route = runS RspRoute.step RspRoute.init (calls h)
  more : ∀ i, Response.MoreOk (s.queue i)
  wait : ∀ i r, r ∈ (s.queue i).queue → Waiting h i r

theorem waiting_snoc {h : List Op} {i : Nat} {r : Rsp} {o : Op} (w : Waiting h i r) (ho : ∀ p, o ≠ .route (.start i p)) :
    Waiting (h ++ [o]) i r := by
  obtain ⟨l, q, l', e, hn, ha⟩ := w
  refine ⟨l, q, l' ++ [o], by simp [e], ?_, ha⟩
  intro p k
  rcases List.mem_append.1 k with k | k
  · exact hn p k
  · exact ho p (List.mem_singleton.1 k).symm

/-- A call that touches the queue of `j` without putting, and does not start a sequence. -/
theorem inv_other {h : List Op} {s : State} (I : Inv h s) (o : Op) (j : Nat) (ro : Response.Op Rsp) (hp : ∀ r, ro ≠ .put r)
    (hs : ∀ i p, o ≠ .route (.start i p)) (hr : routed o = none) : Inv (h ++ [o]) (onQueue s j ro).1 := by
  have hc : calls (h ++ [o]) = calls h := by simp [calls, List.filterMap_append, hr]
  refine ⟨by rw [hc]; exact I.route, ?_, ?_⟩
  · intro i
    simp only [onQueue]
    split
    · exact Response.moreOk_step (I.more j) ro
    · exact I.more i
  · intro i r k
    simp only [onQueue] at k
    refine waiting_snoc ?_ (hs i)
    split at k
    · rename_i e; subst e
      exact I.wait i r ((queue_step _ (I.more i) ro r k).resolve_right (hp r))
    · exact I.wait i r k

theorem inv_step {h : List Op} {s : State} (I : Inv h s) (o : Op) : Inv (h ++ [o]) (step s o).1 := by
  cases o with
  | get i t id => exact inv_other I _ i _ (by simp) (by simp) rfl
  | resume i t => exact inv_other I _ i _ (by simp) (by simp) rfl
  | kill i t => exact inv_other I _ i _ (by simp) (by simp) rfl
  | setDepth i d => exact inv_other I _ i _ (by simp) (by simp) rfl
  | route ro =>
    have hc : calls (h ++ [.route ro]) = calls h ++ [ro] := by simp [calls, List.filterMap_append, routed]
    have hroute : (RspRoute.step s.route ro).1 = runS RspRoute.step RspRoute.init (calls (h ++ [.route ro])) := by
      rw [hc, RspRoute.runS_snoc, I.route]
    have plain : (∀ i p, ro ≠ .start i p) →
        Inv (h ++ [.route ro]) { s with route := (RspRoute.step s.route ro).1 } := fun hn =>
      ⟨hroute, I.more, fun i r k => waiting_snoc (I.wait i r k) (fun p e => hn i p (by simpa using e))⟩
    cases ro with
    | register i q => exact plain (by simp)
    | exit i q => exact plain (by simp)
    | send i q x => exact plain (by simp)
    | start i q =>
      refine ⟨hroute, ?_, ?_⟩
      · intro j
        simp only [step, after, onQueue]
        split
        · exact Response.moreOk_step (I.more i) _
        · exact I.more j
      · intro j r k
        simp only [step, after, onQueue] at k
        split at k
        · simp [Response.step, Response.setEvent] at k
        · rename_i e
          exact waiting_snoc (I.wait j r k) (fun p e' => by simp at e'; exact e e'.1.symm)
    | respond q x =>
      cases ho : (RspRoute.step s.route (.respond q x)).2 with
      | unit => simp only [step, ho, after]; exact plain (by simp)
      | lost => simp only [step, ho, after]; exact plain (by simp)
      | fatal => simp only [step, ho, after]; exact plain (by simp)
      | to i t =>
        simp only [step, ho, after]
        refine ⟨hroute, ?_, ?_⟩
        · intro j
          simp only [onQueue]
          split
          · exact Response.moreOk_step (I.more i) _
          · exact I.more j
        · intro j r k
          simp only [onQueue] at k
          split at k
          · rename_i e; subst e
            rcases queue_step _ (I.more j) _ r k with k | k
            · exact waiting_snoc (I.wait j r k) (by simp)
            · cases k
              refine ⟨h, q, [], rfl, by simp, ?_⟩
              unfold RspRoute.answer
              rw [← I.route, ho]
          · exact waiting_snoc (I.wait j r k) (by simp)

theorem inv_run (h : List Op) : Inv h (runS step init h) := by
  induction h using snoc_ind with
  | h0 => exact ⟨rfl, fun _ => Response.moreOk_init, by intro i r k; simp [runS, run, init] at k⟩
  | h1 l o ih => rw [RspRoute.runS_snoc]; exact inv_step ih o

theorem tid_kept (l : List RspRoute.Op) (s : RspRoute.State) (x : Nat) (h : s.tid x ≠ -1) :
    (runS RspRoute.step s l).tid x = s.tid x := by
  induction l generalizing s with
  | nil => rfl
  | cons o l ih =>
    have e : (RspRoute.step s o).1.tid x = s.tid x := by
      cases o with
      | send i q y =>
        simp only [RspRoute.step, RspRoute.send_tid]
        unfold RspRoute.number
        split
        · rename_i ht
          simp only
          rw [if_neg]
          intro e; subst e; exact h ht
        · rfl
      | start i q => rfl
      | register i q => rfl
      | exit i q => rfl
      | respond q y => rfl
    rw [runS_cons, ih _ (by rw [e]; exact h), e]

/-- C395. In every testbench history, with any number of sequences, sequencers, items and coroutines that wait for responses, if
no item object is sent twice: when a coroutine of sequence `i` gets a response, a driver put it, after the last start of `i`, as
the answer to an item that `i` had sent through the sequencer of that driver; the response has the transaction id of that item,
which is the one the coroutine asked for (if it asked for one), and no other item that `i` sent through any sequencer has it. -/
theorem C395_right_answer (h : List Op) (ho : RspRoute.Once (calls h)) (o : Op) (t : Nat) (id : Int) (r : Rsp)
    (hg : (step (runS step init h) o).2 = .got t id r) :
    ∃ i q l l', caller o = some i ∧ h = l ++ .route (.respond q r.item) :: l' ∧ (∀ p, .route (.start i p) ∉ l') ∧
      .route (.send i q r.item) ∈ l ∧ RspRoute.tidOf (calls h) r.item = r.tid ∧ (id ≠ -1 → r.tid = id) ∧
      ∀ p y, .route (.send i p y) ∈ h → RspRoute.tidOf (calls h) y = r.tid → y = r.item := by
  have I := inv_run h
  generalize runS step init h = s at *
  have main : ∀ i ro, (Response.step Rsp.tid (s.queue i) ro).2 = .got t id r →
      ∃ q l l', h = l ++ .route (.respond q r.item) :: l' ∧ (∀ p, .route (.start i p) ∉ l') ∧
      .route (.send i q r.item) ∈ l ∧ RspRoute.tidOf (calls h) r.item = r.tid ∧ (id ≠ -1 → r.tid = id) ∧
      ∀ p y, .route (.send i p y) ∈ h → RspRoute.tidOf (calls h) y = r.tid → y = r.item := by
    intro i ro hr
    obtain ⟨hq, hid, _⟩ := queue_got _ (I.more i) ro t id r hr
    obtain ⟨l, q, l', e, hn, ha⟩ := I.wait i r hq
    have hc : calls h = calls l ++ (.respond q r.item :: calls l') := by
      simp [calls, e, List.filterMap_append, routed]
    have hol : RspRoute.Once (calls l) := by
      unfold RspRoute.Once at *
      rw [hc, List.filterMap_append, List.nodup_append] at ho
      exact ho.1
    obtain ⟨hs, ht, _⟩ := RspRoute.C393_identifies (calls l) hol q r.item i r.tid ha
    have hmem : ∀ {m : List Op} {c : RspRoute.Op}, c ∈ calls m ↔ .route c ∈ m := by
      intro m c
      unfold calls
      rw [List.mem_filterMap]
      constructor
      · rintro ⟨a, ha, e⟩
        cases a <;> simp [routed] at e
        subst e; exact ha
      · exact fun k => ⟨_, k, rfl⟩
    have hne : RspRoute.tidOf (calls l) r.item ≠ -1 := by
      obtain ⟨m, m1, _, m3⟩ := (RspRoute.inv_run (calls l) hol).num i q r.item hs
      unfold RspRoute.tidOf; rw [m3]; omega
    have htid : RspRoute.tidOf (calls h) r.item = r.tid := by
      rw [← ht]
      unfold RspRoute.tidOf at *
      rw [hc, runS_append]
      exact tid_kept _ _ _ hne
    refine ⟨q, l, l', e, hn, hmem.1 hs, htid, hid, ?_⟩
    intro p y hy hty
    refine (RspRoute.inv_run (calls h) ho).inj i p q y r.item (hmem.2 hy) ?_ ?_
    · rw [hc]; exact List.mem_append_left _ hs
    · exact hty.trans htid.symm
  cases o with
  | get i u id' =>
    obtain ⟨q, l, l', rest⟩ := main i _ hg
    exact ⟨i, q, l, l', rfl, rest⟩
  | resume i u =>
    obtain ⟨q, l, l', rest⟩ := main i _ hg
    exact ⟨i, q, l, l', rfl, rest⟩
  | kill i u =>
    have := (queue_got _ (I.more i) _ t id r hg).2.2
    simp at this
  | setDepth i d =>
    have := (queue_got _ (I.more i) _ t id r hg).2.2
    simp at this
  | route ro =>
    exfalso
    have none_put : ∀ (s' : State) i ro', (∀ i, Response.MoreOk (s'.queue i)) → (onQueue s' i ro').2 = .got t id r →
        ro' = .get t id ∨ ro' = .resume t := fun s' i ro' hm k => (queue_got _ (hm i) ro' t id r k).2.2
    cases ro with
    | start i q => have := none_put _ i .clear I.more hg; simp at this
    | respond q x =>
      simp only [step] at hg
      cases hout : (RspRoute.step s.route (.respond q x)).2 with
      | to i t' =>
        rw [hout] at hg
        have := none_put _ i _ I.more hg
        simp at this
      | unit => rw [hout] at hg; cases hg
      | lost => rw [hout] at hg; cases hg
      | fatal => rw [hout] at hg; cases hg
    | register i q => cases hg
    | exit i q => cases hg
    | send i q x => cases hg

def wOut (p : Rsp → Bool) : Response.Out Rsp → Nat
  | .got _ _ r => if p r then 1 else 0
  | _ => 0

def wOp (p : Rsp → Bool) : Response.Op Rsp → Nat
  | .put r => if p r then 1 else 0
  | _ => 0

theorem queue_count (p : Rsp → Bool) (s : Response.State Rsp) (h : Response.MoreOk s) (o : Response.Op Rsp) :
    (Response.step Rsp.tid s o).1.queue.countP p + wOut p (Response.step Rsp.tid s o).2 ≤ s.queue.countP p + wOp p o := by
  have k := Response.step_rel (tid := Rsp.tid) h o
  have e : (Response.step Rsp.tid s o).1.queue = (Response.abs (Response.step Rsp.tid s o).1).q := rfl
  have e' : s.queue = (Response.abs s).q := rfl
  rw [e, e']
  generalize Response.abs (Response.step Rsp.tid s o).1 = b at *
  generalize Response.abs s = a at *
  have sub : ∀ {id x q'}, Response.Obtains Rsp.tid id a.q x q' → q'.countP p + (if p x then 1 else 0) = a.q.countP p := by
    intro id x q' ho
    unfold Response.Obtains at ho
    split at ho
    · rw [ho, List.countP_cons]
    · obtain ⟨c, d, h1, h2, _⟩ := ho
      rw [h1, h2, List.countP_append, List.countP_append, List.countP_cons]; omega
  generalize (Response.step Rsp.tid s o).2 = out at k
  cases k with
  | stored _ => simp only [List.countP_append, List.countP_cons, List.countP_nil, wOut, wOp]; omega
  | got _ ho => have := sub ho; simp only [wOut, wOp]; omega
  | resumed _ ho => have := sub ho; simp only [wOut, wOp]; omega
  | clear => simp [wOut]
  | _ => simp [wOut]

def about (x : Nat) (r : Rsp) : Bool := decide (r.item = x)

def cnt (i x : Nat) (s : State) : Nat := (s.queue i).queue.countP (about x)

theorem more_step {s : State} (hm : ∀ i, Response.MoreOk (s.queue i)) (o : Op) : ∀ i, Response.MoreOk ((step s o).1.queue i) := by
  have hq : ∀ (s' : State) j ro, (∀ i, Response.MoreOk (s'.queue i)) → ∀ i, Response.MoreOk ((onQueue s' j ro).1.queue i) := by
    intro s' j ro h i
    simp only [onQueue]
    split
    · exact Response.moreOk_step (h j) ro
    · exact h i
  cases o with
  | get i t id => exact hq _ _ _ hm
  | resume i t => exact hq _ _ _ hm
  | kill i t => exact hq _ _ _ hm
  | setDepth i d => exact hq _ _ _ hm
  | route ro =>
    simp only [step]
    generalize (RspRoute.step s.route ro).2 = out
    unfold after
    split
    · exact hq _ _ _ hm
    · exact hq _ _ _ hm
    · exact hm

theorem cnt_on {s : State} (hm : ∀ i, Response.MoreOk (s.queue i)) (i j x : Nat) (ro : Response.Op Rsp) :
    cnt i x (onQueue s j ro).1 + (if j = i then wOut (about x) (onQueue s j ro).2 else 0) ≤ cnt i x s + wOp (about x) ro := by
  by_cases e : j = i
  · subst e
    have := queue_count (about x) _ (hm j) ro
    simpa [cnt, onQueue] using this
  · have e' : ¬ i = j := fun k => e k.symm
    simp [cnt, onQueue, e, e']

theorem isGot_eq (i x : Nat) (o : Op) (out : Response.Out Rsp) :
    (isGot i x (o, out)).toNat = if caller o = some i then wOut (about x) out else 0 := by
  cases out <;> simp [isGot, wOut, about]
  rename_i r
  by_cases h1 : caller o = some i <;> by_cases h2 : r.item = x <;> simp [h1, h2]

theorem cnt_step {s : State} (hm : ∀ i, Response.MoreOk (s.queue i)) (i x : Nat) (o : Op) :
    cnt i x (step s o).1 + (isGot i x (o, (step s o).2)).toNat ≤ cnt i x s + (isAnswer x o).toNat := by
  rw [isGot_eq]
  cases o with
  | get j t id => simpa [caller, step, wOp, isAnswer] using cnt_on hm i j x (.get t id)
  | resume j t => simpa [caller, step, wOp, isAnswer] using cnt_on hm i j x (.resume t)
  | kill j t =>
    have := cnt_on hm i j x (.kill t)
    simp only [caller, step, wOp, isAnswer, Bool.toNat_false] at *
    simp only [reduceCtorEq, if_false]; omega
  | setDepth j d =>
    have := cnt_on hm i j x (.setDepth d)
    simp only [caller, step, wOp, isAnswer, Bool.toNat_false] at *
    simp only [reduceCtorEq, if_false]; omega
  | route ro =>
    simp only [caller, reduceCtorEq, if_false, step]
    generalize (RspRoute.step s.route ro).2 = out
    have hm' : ∀ i, Response.MoreOk (({ s with route := (RspRoute.step s.route ro).1 } : State).queue i) := hm
    have hc : cnt i x { s with route := (RspRoute.step s.route ro).1 } = cnt i x s := rfl
    rw [← hc]
    generalize ({ s with route := (RspRoute.step s.route ro).1 } : State) = s' at *
    unfold after
    split
    · rename_i j _
      have := cnt_on hm' i j x .clear
      simp only [wOp] at this
      omega
    · rename_i q y j t
      have := cnt_on hm' i j x (.put ⟨y, t⟩)
      have e : wOp (about x) (.put ⟨y, t⟩) = (isAnswer x (.route (.respond q y))).toNat := by
        simp only [wOp, about, isAnswer]
        by_cases k : y = x <;> simp [k]
      omega
    · simp

/-- C396. In every history a response is given at most as often as a driver answered its item. -/
theorem C396_at_most_once (h : List Op) (i x : Nat) : (trace h).countP (isGot i x) ≤ h.countP (isAnswer x) := by
  have gen : ∀ (h : List Op) (s : State), (∀ i, Response.MoreOk (s.queue i)) →
      (h.zip (run step s h).2).countP (isGot i x) ≤ cnt i x s + h.countP (isAnswer x) := by
    intro h
    induction h with
    | nil => intro s _; simp
    | cons o h ih =>
      intro s hm
      have h1 := ih _ (more_step hm o)
      have h2 := cnt_step hm i x o
      have e : (run step s (o :: h)).2 = (step s o).2 :: (run step (step s o).1 h).2 := rfl
      rw [e, List.zip_cons_cons, List.countP_cons, List.countP_cons]
      cases ha : isGot i x (o, (step s o).2) <;> cases hb : isAnswer x o <;>
        simp only [ha, hb, Bool.toNat_true, Bool.toNat_false] at h2 <;> simp <;> omega
  have := gen h init (fun _ => Response.moreOk_init)
  simpa [trace, cnt, init] using this

theorem queue_keep (s : Response.State Rsp) (h : Response.MoreOk s) (o : Response.Op Rsp) (r : Rsp) (hr : r ∈ s.queue)
    (hc : o ≠ .clear) (hg : ∀ t id, (Response.step Rsp.tid s o).2 ≠ .got t id r) : r ∈ (Response.step Rsp.tid s o).1.queue := by
  have k := Response.step_rel (tid := Rsp.tid) h o
  have e : (Response.step Rsp.tid s o).1.queue = (Response.abs (Response.step Rsp.tid s o).1).q := rfl
  have e' : s.queue = (Response.abs s).q := rfl
  rw [e]
  rw [e'] at hr
  generalize Response.abs (Response.step Rsp.tid s o).1 = b at *
  generalize Response.abs s = a at *
  have sub : ∀ {id x q'}, Response.Obtains Rsp.tid id a.q x q' → r ≠ x → r ∈ q' := by
    intro id x q' ho hne
    unfold Response.Obtains at ho
    split at ho
    · rw [ho] at hr; exact (List.mem_cons.1 hr).resolve_left hne
    · obtain ⟨c, d, h1, h2, _⟩ := ho
      rw [h1] at hr; rw [h2]
      rcases List.mem_append.1 hr with k | k
      · exact List.mem_append_left _ k
      · exact List.mem_append_right _ ((List.mem_cons.1 k).resolve_left hne)
  generalize (Response.step Rsp.tid s o).2 = out at *
  cases k with
  | stored _ => exact List.mem_append_left _ hr
  | got _ ho => exact sub ho (fun e => hg _ _ (by rw [e]))
  | resumed _ ho => exact sub ho (fun e => hg _ _ (by rw [e]))
  | clear => exact absurd rfl hc
  | _ => exact hr

theorem queue_pend (s : Response.State Rsp) (h : Response.MoreOk s) (o : Response.Op Rsp) (u : Nat)
    (hu : (Response.abs s).pend u = none) (hg : ∀ id, o ≠ .get u id) :
    (Response.abs (Response.step Rsp.tid s o).1).pend u = none := by
  have k := Response.step_rel (tid := Rsp.tid) h o
  generalize Response.abs (Response.step Rsp.tid s o).1 = b at *
  generalize Response.abs s = a at *
  generalize (Response.step Rsp.tid s o).2 = out at *
  cases k with
  | blocked _ _ =>
    simp only [Response.setPend]
    split
    · rename_i e; subst e; exact absurd rfl (hg _)
    · exact hu
  | resumed _ _ => simp only [Response.setPend]; split <;> simp [hu]
  | kill => simp only [Response.setPend]; split <;> simp [hu]
  | _ => exact hu

theorem queue_ready (s : Response.State Rsp) (h : Response.MoreOk s) (u : Nat) (r : Rsp) (hr : r ∈ s.queue) (ht : r.tid ≠ -1)
    (hu : (Response.abs s).pend u = none) : ∃ r', (Response.step Rsp.tid s (.get u r.tid)).2 = .got u r.tid r' := by
  have k := Response.step_rel (tid := Rsp.tid) h (.get u r.tid)
  have e' : s.queue = (Response.abs s).q := rfl
  rw [e'] at hr
  generalize Response.abs (Response.step Rsp.tid s (.get u r.tid)).1 = b at *
  generalize Response.abs s = a at *
  generalize (Response.step Rsp.tid s (.get u r.tid)).2 = out at *
  cases k with
  | got _ ho => exact ⟨_, rfl⟩
  | blocked _ hn => simp only [Response.Nothing, if_neg ht] at hn; exact absurd rfl (hn r hr)
  | busy hb => exact absurd hu hb

/-- What a call of the testbench does to the queue of sequence `i`: nothing, or one call on it. -/
theorem on_queue (s : State) (o : Op) (i : Nat) : (step s o).1.queue i = s.queue i ∨
    ∃ ro, (step s o).1.queue i = (Response.step Rsp.tid (s.queue i) ro).1 ∧
      (step s o).2 = (Response.step Rsp.tid (s.queue i) ro).2 ∧
      (ro = .clear → ∃ p, o = .route (.start i p)) ∧ (∀ u id, ro = .get u id → o = .get i u id) ∧
      (∀ u, ro = .resume u → o = .resume i u) := by
  have hq : ∀ (s' : State) j ro, s'.queue = s.queue → (ro = .clear → ∃ p, o = .route (.start j p)) →
      (∀ u id, ro = .get u id → o = .get j u id) → (∀ u, ro = .resume u → o = .resume j u) → ((onQueue s' j ro).1.queue i = s.queue i ∨
      ∃ ro', (onQueue s' j ro).1.queue i = (Response.step Rsp.tid (s.queue i) ro').1 ∧
      (onQueue s' j ro).2 = (Response.step Rsp.tid (s.queue i) ro').2 ∧
      (ro' = .clear → ∃ p, o = .route (.start i p)) ∧ (∀ u id, ro' = .get u id → o = .get i u id) ∧
      (∀ u, ro' = .resume u → o = .resume i u)) := by
    intro s' j ro e hc hg hr
    by_cases ej : i = j
    · subst ej
      refine .inr ⟨ro, ?_, ?_, hc, hg, hr⟩ <;> simp [onQueue, e]
    · left; simp [onQueue, ej, e]
  cases o with
  | get j t id => exact hq _ _ _ rfl (by simp) (by simp) (by simp)
  | resume j t => exact hq _ _ _ rfl (by simp) (by simp) (by simp)
  | kill j t => exact hq _ _ _ rfl (by simp) (by simp) (by simp)
  | setDepth j d => exact hq _ _ _ rfl (by simp) (by simp) (by simp)
  | route ro =>
    simp only [step]
    generalize (RspRoute.step s.route ro).2 = out
    unfold after
    split
    · exact hq _ _ _ rfl (fun _ => ⟨_, rfl⟩) (by simp) (by simp)
    · exact hq _ _ _ rfl (by simp) (by simp) (by simp)
    · exact .inl rfl

/-- C396. An answer that was stored stays available: if a driver answered item `x` of sequence `i` with transaction id `t`, the
response was not dropped, `i` was not started again and no coroutine of `i` got a response to `x` since, then a coroutine of `i`
that calls get_response for the first time, with id `t`, gets the answer to `x` at once. -/
theorem C396_available (l l' : List Op) (q x i u : Nat) (t : Int)
    (ho : RspRoute.Once (calls (l ++ .route (.respond q x) :: l')))
    (ha : RspRoute.answer (calls l) q x = .to i t)
    (hst : (step (runS step init l) (.route (.respond q x))).2 = .stored ⟨x, t⟩)
    (hs : ∀ p, .route (.start i p) ∉ l')
    (hg : ∀ m o m', l' = m ++ o :: m' → isGot i x (o, (step (runS step init (l ++ .route (.respond q x) :: m)) o).2) = false)
    (hu : ∀ id, .get i u id ∉ l ++ .route (.respond q x) :: l') :
    (step (runS step init (l ++ .route (.respond q x) :: l')) (.get i u t)).2 = .got u t ⟨x, t⟩ := by
  have I := inv_run l
  have hout : (RspRoute.step (runS step init l).route (.respond q x)).2 = .to i t := by rw [I.route]; exact ha
  have hcl : calls (l ++ .route (.respond q x) :: l') = calls l ++ (.respond q x :: calls l') := by
    simp [calls, List.filterMap_append, routed]
  have hol : RspRoute.Once (calls l) := by
    unfold RspRoute.Once at *
    rw [hcl, List.filterMap_append, List.nodup_append] at ho
    exact ho.1
  obtain ⟨hsend, htid, _⟩ := RspRoute.C393_identifies (calls l) hol q x i t ha
  have ht : t ≠ -1 := by
    obtain ⟨m, m1, _, m3⟩ := (RspRoute.inv_run (calls l) hol).num i q x hsend
    rw [← htid]; unfold RspRoute.tidOf; rw [m3]; omega
  have keep : ∀ m m', l' = m ++ m' → ⟨x, t⟩ ∈ ((runS step init (l ++ .route (.respond q x) :: m)).queue i).queue := by
    intro m
    induction m using snoc_ind with
    | h0 =>
      intro m' _
      rw [RspRoute.runS_snoc]
      generalize runS step init l = s at *
      simp only [step, hout, after] at hst ⊢
      simp only [onQueue, if_true] at hst ⊢
      have k := Response.step_rel (tid := Rsp.tid) (I.more i) (.put ⟨x, t⟩)
      rw [hst] at k
      have e : ∀ w : Response.State Rsp, w.queue = (Response.abs w).q := fun _ => rfl
      rw [e]
      generalize Response.abs (Response.step Rsp.tid (s.queue i) (.put ⟨x, t⟩)).1 = b at *
      generalize Response.abs (s.queue i) = a at *
      cases k
      simp
    | h1 m o ih =>
      intro m' e
      have e1 : l' = m ++ o :: m' := by rw [e]; simp
      have hk := ih _ e1
      have hgo := hg m o m' e1
      have hM := (inv_run (l ++ .route (.respond q x) :: m)).more i
      rw [← List.cons_append, ← List.append_assoc, RspRoute.runS_snoc]
      generalize runS step init (l ++ .route (.respond q x) :: m) = s at *
      rcases on_queue s o i with k | ⟨ro, k1, k2, k3, k4, k5⟩
      · rw [k]; exact hk
      · rw [k1]
        refine queue_keep _ hM ro _ hk ?_ ?_
        · intro e2
          obtain ⟨p, e3⟩ := k3 e2
          exact hs p (by rw [e1, e3]; simp)
        · intro t' id' e2
          rw [k2, e2] at hgo
          have hcall : caller o = some i := by
            rcases (queue_got _ hM ro _ _ _ e2).2.2 with e3 | e3
            · rw [k4 _ _ e3]; rfl
            · rw [k5 _ e3]; rfl
          simp [isGot, hcall] at hgo
  have idle : ∀ h : List Op, (∀ id, .get i u id ∉ h) → (Response.abs ((runS step init h).queue i)).pend u = none := by
    intro h
    induction h using snoc_ind with
    | h0 => intro _; rfl
    | h1 m o ih =>
      intro hn
      have hk := ih (fun id k => hn id (List.mem_append_left _ k))
      have hM := (inv_run m).more i
      rw [RspRoute.runS_snoc]
      generalize runS step init m = s at *
      rcases on_queue s o i with k | ⟨ro, k1, k2, k3, k4, k5⟩
      · rw [k]; exact hk
      · rw [k1]
        exact queue_pend _ hM ro u hk (fun id e => hn id (by rw [k4 _ _ e]; simp))
  obtain ⟨r, hr⟩ := queue_ready _ ((inv_run (l ++ .route (.respond q x) :: l')).more i) u _ (keep l' [] (by simp)) ht (idle _ hu)
  have hstep : (step (runS step init (l ++ .route (.respond q x) :: l')) (.get i u t)).2 = .got u t r := hr
  obtain ⟨i', q', a, b, hi, hab, _, hsa, htr, hid, huniq⟩ := C395_right_answer _ ho _ u t r hstep
  have hi' : i' = i := by simpa [caller] using hi.symm
  subst hi'
  have hrt : r.tid = t := hid ht
  have hx : x = r.item := by
    refine huniq q x ?_ ?_
    · refine List.mem_append_left _ ?_
      unfold calls at hsend
      rw [List.mem_filterMap] at hsend
      obtain ⟨c, hc, e⟩ := hsend
      cases c <;> simp [routed] at e
      subst e; exact hc
    · rw [hrt, ← htid]
      unfold RspRoute.tidOf
      rw [hcl, runS_append]
      refine tid_kept _ _ _ ?_
      have := htid
      unfold RspRoute.tidOf at this
      rw [this]; exact ht
  rw [hstep]
  cases r
  simp only at hx hrt
  rw [hx, hrt]

-- Non-vacuity: two sequencers, answers in the other order than the items; sequence 1 asks by transaction id.
namespace Sample
def h : List Op := [.route (.start 1 (some 10)), .route (.start 2 (some 11)), .route (.register 1 11), .route (.send 1 10 100),
  .route (.send 1 11 101), .route (.send 2 11 200), .get 1 0 1, .route (.respond 11 200), .route (.respond 11 101),
  .route (.respond 10 100)]
example : RspRoute.Once (calls h) := by unfold RspRoute.Once; decide
example : (step (runS step init h) (.get 1 5 2)).2 = .got 5 2 ⟨101, 2⟩ := by decide
example : (step (runS step init h) (.resume 1 0)).2 = .got 0 1 ⟨100, 1⟩ := by decide
example : (step (runS step init h) (.get 2 0 (-1))).2 = .got 0 (-1) ⟨200, 1⟩ := by decide
-- C396: the answer to item 101 was stored after eight calls, and stays until coroutine 5 asks for it.
example : (trace (h ++ [.get 1 5 2, .get 1 6 2])).countP (isGot 1 101) = 1 ∧ h.countP (isAnswer 101) = 1 := by decide
example : RspRoute.answer (calls (h.take 8)) 11 101 = .to 1 2 ∧
    (step (runS step init (h.take 8)) (.route (.respond 11 101))).2 = .stored ⟨101, 2⟩ ∧
    h = h.take 8 ++ .route (.respond 11 101) :: [.route (.respond 10 100)] ∧
    isGot 1 101 (.route (.respond 10 100), (step (runS step init (h.take 9)) (.route (.respond 10 100))).2) = false := by decide
end Sample

end Verif.RspSystem
