import Verif.Props.SqrIds
import Verif.Spec.RspRoute
/-! # C393, C394: responses identify their items on several sequencers -/
namespace Verif.RspRoute

theorem runS_snoc {S O R : Type} (f : S → O → S × R) (s : S) (l : List O) (o : O) : runS f s (l ++ [o]) = (f (runS f s l) o).1 := by
  rw [runS_append]; rfl

theorem snoc_ind {P : List Op → Prop} (h0 : P []) (h1 : ∀ l o, P l → P (l ++ [o])) (l : List Op) : P l := by
  rw [← List.reverse_reverse l]
  induction l.reverse with
  | nil => exact h0
  | cons o r ih => rw [List.reverse_cons]; exact h1 _ _ ih

theorem number_base (s : State) (i x : Nat) : (number s i x).base = s.base := by unfold number; split <;> rfl
theorem number_sid (s : State) (i x : Nat) : (number s i x).sid = s.sid := by unfold number; split <;> rfl

theorem send_base (s : State) (i q x : Nat) : (send s i q x).base = (SqrIds.getId s.base i q).1 := by
  simp [send, number_base]
theorem send_tid (s : State) (i q x : Nat) : (send s i q x).tid = (number s i x).tid := rfl
theorem send_nextT (s : State) (i q x : Nat) : (send s i q x).nextT = (number s i x).nextT := rfl
theorem send_sid (s : State) (i q x y : Nat) :
    (send s i q x).sid y = if y = x then (SqrIds.getId s.base i q).2 else s.sid y := by
  simp [send, number_base, number_sid]

/-- The id tables follow the calls that concern them. -/
theorem base_run (h : List Op) : (runS step init h).base = runS SqrIds.step SqrIds.init (h.filterMap ids) := by
  induction h using snoc_ind with
  | h0 => rfl
  | h1 l o ih =>
    rw [runS_snoc, List.filterMap_append]
    cases o with
    | respond q x =>
      rw [show List.filterMap ids [Op.respond q x] = [] from rfl, List.append_nil]
      exact ih
    | send i q x =>
      simp only [step, List.filterMap_cons, List.filterMap_nil, ids, runS_snoc, send_base, ih, SqrIds.step]
    | start i q => simp only [step, List.filterMap_cons, List.filterMap_nil, ids, runS_snoc, ih, SqrIds.step]
    | register i q => simp only [step, List.filterMap_cons, List.filterMap_nil, ids, runS_snoc, ih, SqrIds.step]
    | exit i q => simp only [step, List.filterMap_cons, List.filterMap_nil, ids, runS_snoc, ih, SqrIds.step]

/-- What the numbers say after a history in which no item is sent twice. -/
structure Inv (h : List Op) (s : State) : Prop where
  pos : ∀ i, 0 < s.nextT i
  new : ∀ x, (∀ i q, .send i q x ∉ h) → s.tid x = -1 ∧ s.sid x = -1
  num : ∀ i q x, .send i q x ∈ h → ∃ m : Nat, 0 < m ∧ m < s.nextT i ∧ s.tid x = (m : Int)
  inj : ∀ i q r x y, .send i q x ∈ h → .send i r y ∈ h → s.tid x = s.tid y → x = y
  sid : ∀ i q x, .send i q x ∈ h → s.sid x = -1 ∨ ∃ n : Nat, s.sid x = (n : Int) ∧ SqrIds.Pinned n i q s.base

theorem once_init {l : List Op} {o : Op} (h : Once (l ++ [o])) : Once l := by
  unfold Once at *
  rw [List.filterMap_append, List.nodup_append] at h
  exact h.1

theorem once_new {l : List Op} {i q x : Nat} (h : Once (l ++ [.send i q x])) : ∀ j r, .send j r x ∉ l := by
  unfold Once at h
  rw [List.filterMap_append, List.nodup_append] at h
  intro j r hm
  exact h.2.2 x (List.mem_filterMap.2 ⟨_, hm, rfl⟩) x (by simp [item]) rfl

theorem inv_same {l : List Op} {s t : State} {o : Op} (hs : ∀ i q x, o ≠ .send i q x) (h : Inv l s) (e1 : t.nextT = s.nextT)
    (e2 : t.tid = s.tid) (e3 : t.sid = s.sid) (hp : ∀ n i q, SqrIds.Pinned n i q s.base → SqrIds.Pinned n i q t.base) :
    Inv (l ++ [o]) t := by
  have hm : ∀ i q x, .send i q x ∈ l ++ [o] ↔ .send i q x ∈ l := by
    intro i q x
    simp only [List.mem_append, List.mem_singleton]
    exact ⟨fun k => k.elim id (fun e => absurd e.symm (hs i q x)), .inl⟩
  constructor
  · rw [e1]; exact h.pos
  · intro x hx
    rw [e2, e3]
    exact h.new x (fun i q k => hx i q ((hm i q x).2 k))
  · intro i q x hx; rw [e1, e2]; exact h.num i q x ((hm i q x).1 hx)
  · intro i q r x y hx hy; rw [e2]; exact h.inj i q r x y ((hm _ _ _).1 hx) ((hm _ _ _).1 hy)
  · intro i q x hx
    rw [e3]
    rcases h.sid i q x ((hm _ _ _).1 hx) with k | ⟨n, k, p⟩
    · exact .inl k
    · exact .inr ⟨n, k, hp n i q p⟩

theorem inv_send {l : List Op} {s : State} {i q x : Nat} (hv : SqrIds.Inv s.base) (h : Inv l s) (hx : ∀ j r, .send j r x ∉ l) :
    Inv (l ++ [.send i q x]) (send s i q x) := by
  have ht : s.tid x = -1 := (h.new x hx).1
  have e1 : (send s i q x).tid = fun y => if y = x then (s.nextT i : Int) else s.tid y := by
    rw [send_tid]; simp [number, ht]
  have e2 : (send s i q x).nextT = fun j => if j = i then s.nextT i + 1 else s.nextT j := by
    rw [send_nextT]; simp [number, ht]
  have hm : ∀ j r y, .send j r y ∈ l ++ [Op.send i q x] ↔ .send j r y ∈ l ∨ (j = i ∧ r = q ∧ y = x) := by
    intro j r y; simp [List.mem_append]
  have hne : ∀ j r y, .send j r y ∈ l → y ≠ x := fun j r y k e => hx j r (e ▸ k)
  have hpos := h.pos i
  constructor
  · intro j
    rw [e2]
    have := h.pos j
    simp only; split <;> omega
  · intro y hy
    have hyx : y ≠ x := by
      intro e; exact hy i q ((hm _ _ _).2 (.inr ⟨rfl, rfl, e⟩))
    have := h.new y (fun j r k => hy j r ((hm _ _ _).2 (.inl k)))
    rw [e1, send_sid]
    simp [hyx, this]
  · intro j r y hy
    rw [e1, e2]
    rcases (hm _ _ _).1 hy with k | ⟨rfl, rfl, rfl⟩
    · obtain ⟨m, m1, m2, m3⟩ := h.num j r y k
      refine ⟨m, m1, ?_, by simp [hne _ _ _ k, m3]⟩
      simp only
      split
      · rename_i e; subst e; omega
      · exact m2
    · exact ⟨s.nextT j, hpos, by simp, by simp⟩
  · intro j r r' y z hy hz
    rw [e1]
    rcases (hm _ _ _).1 hy with k | ⟨e, _, rfl⟩ <;> rcases (hm _ _ _).1 hz with k' | ⟨e', _, rfl⟩
    · simp only [hne _ _ _ k, hne _ _ _ k', if_false]
      exact h.inj j r r' y z k k'
    · subst e'
      obtain ⟨m, _, m2, m3⟩ := h.num _ _ _ k
      simp only [hne _ _ _ k, if_false, if_true, m3]
      intro hc; omega
    · subst e
      obtain ⟨m, _, m2, m3⟩ := h.num _ _ _ k'
      simp only [hne _ _ _ k', if_false, if_true, m3]
      intro hc; omega
    · intro _; rfl
  · intro j r y hy
    rw [send_sid, send_base]
    have hpin : ∀ n j r, SqrIds.Pinned n j r s.base → SqrIds.Pinned n j r (SqrIds.getId s.base i q).1 :=
      fun n j r p => SqrIds.pinned_step p hv (.send i q)
    rcases (hm _ _ _).1 hy with k | ⟨rfl, rfl, rfl⟩
    · rw [if_neg (hne _ _ _ k)]
      rcases h.sid j r y k with k | ⟨n, k, p⟩
      · exact .inl k
      · exact .inr ⟨n, k, hpin n j r p⟩
    · rw [if_pos rfl]
      cases hi : s.base.ids j r with
      | none => exact .inl (by rw [SqrIds.getId_none hi])
      | some n => exact .inr ⟨n, by rw [SqrIds.getId_some hi], hpin n j r (SqrIds.pinned_of_id hv hi)⟩

theorem base_inv (h : List Op) : SqrIds.Inv (runS step init h).base := by rw [base_run]; exact SqrIds.inv_run _

theorem inv_run (h : List Op) (ho : Once h) : Inv h (runS step init h) := by
  induction h using snoc_ind with
  | h0 => exact ⟨fun _ => Nat.one_pos, fun _ _ => ⟨rfl, rfl⟩, by simp, by simp, by simp⟩
  | h1 l o ih =>
    have I := ih (once_init ho)
    have hv := base_inv l
    rw [runS_snoc]
    cases o with
    | send i q x => exact inv_send hv I (once_new ho)
    | start i q => exact inv_same (by simp) I rfl rfl rfl (fun n j r p => SqrIds.pinned_step p hv (.start i q))
    | register i q => exact inv_same (by simp) I rfl rfl rfl (fun n j r p => SqrIds.pinned_step p hv (.register i q))
    | exit i q => exact inv_same (by simp) I rfl rfl rfl (fun n j r p => SqrIds.pinned_step p hv (.exit i q))
    | respond q x => exact inv_same (by simp) I rfl rfl rfl (fun n j r p => p)

theorem respond_to {s : State} {q x i : Nat} {t : Int} (h : respond s q x = .to i t) :
    s.sid x ≠ -1 ∧ s.base.reg q (s.sid x) = some i ∧ t = s.tid x := by
  unfold respond SqrIds.response at h
  by_cases e : s.sid x = -1
  · simp [e] at h
  · rw [if_neg e] at h
    cases hr : s.base.reg q (s.sid x) with
    | none => simp [hr] at h
    | some j => simp [hr] at h; exact ⟨e, by rw [h.1], h.2.symm⟩

/-- C393. With any number of sequences and sequencers, if no item object is sent twice: a response that is given to sequence `i`
with transaction id `t` answers an item that `i` itself sent through the sequencer where the response was put, and that item
is the only one with transaction id `t` among all items that `i` ever sent through any sequencer, in any of its runs. -/
theorem C393_identifies (h : List Op) (ho : Once h) (q x i : Nat) (t : Int) (ha : answer h q x = .to i t) :
    .send i q x ∈ h ∧ tidOf h x = t ∧ ∀ r y, .send i r y ∈ h → tidOf h y = t → y = x := by
  have I := inv_run h ho
  obtain ⟨h1, h2, h3⟩ := respond_to ha
  have hs : .send i q x ∈ h := by
    by_cases hx : ∃ j r, .send j r x ∈ h
    · obtain ⟨j, r, hm⟩ := hx
      rcases I.sid j r x hm with k | ⟨n, k, p⟩
      · exact absurd k h1
      · rw [k] at h2
        obtain ⟨rfl, rfl⟩ := p.reg _ _ h2
        exact hm
    · exact absurd (I.new x (fun j r k => hx ⟨j, r, k⟩)).2 h1
  exact ⟨hs, h3.symm, fun r y hy e => I.inj i r q y x hy hs (by rw [← h3]; exact e)⟩

theorem sid_kept (l : List Op) (x : Nat) (s : State) (hl : ∀ i q, .send i q x ∉ l) :
    (runS step s l).sid x = s.sid x ∧ (s.tid x ≠ -1 → (runS step s l).tid x = s.tid x) := by
  induction l generalizing s with
  | nil => exact ⟨rfl, fun _ => rfl⟩
  | cons o l ih =>
    rw [runS_cons]
    have I := ih (step s o).1 (fun i q k => hl i q (by simp [k]))
    have hk : (step s o).1.sid x = s.sid x ∧ (s.tid x ≠ -1 → (step s o).1.tid x = s.tid x) := by
      cases o with
      | send i q y =>
        have hyx : x ≠ y := by intro e; subst e; exact hl i q (by simp)
        simp only [step, send_sid, if_neg hyx, send_tid]
        refine ⟨trivial, fun _ => ?_⟩
        unfold number
        split
        · simp [hyx]
        · rfl
      | start i q => exact ⟨rfl, fun _ => rfl⟩
      | register i q => exact ⟨rfl, fun _ => rfl⟩
      | exit i q => exact ⟨rfl, fun _ => rfl⟩
      | respond q y => exact ⟨rfl, fun _ => rfl⟩
    exact ⟨I.1.trans hk.1, fun ht => (I.2 (by rw [hk.2 ht]; exact ht)).trans (hk.2 ht)⟩

/-- C393. And the response arrives: an item sent by a sequence in use at the sequencer (and not sent again) gets its answer
there, with its transaction id, at any later time until the sequence ends at that sequencer. -/
theorem C393_arrives (h : List Op) (i q x : Nat) (hu : InUse h i q) (l : List Op) (hx : ∀ j r, .send j r x ∉ l) (he : .exit i q ∉ l) :
    answer (h ++ [.send i q x] ++ l) q x = .to i (tidOf (h ++ [.send i q x]) x) ∧ tidOf (h ++ [.send i q x]) x ≠ -1 := by
  have ht : (runS step init (h ++ [.send i q x])).tid x ≠ -1 := by
    rw [runS_snoc]
    simp only [step, send_tid]
    unfold number
    split
    · simp
    · assumption
  have k := sid_kept l x (runS step init (h ++ [.send i q x])) hx
  have hsid : (runS step init (h ++ [.send i q x])).sid x = SqrIds.sentId (h.filterMap ids) i q := by
    rw [runS_snoc]
    simp only [step, send_sid, if_true, SqrIds.sentId_eq, base_run]
  have hr := SqrIds.C391_routed (h.filterMap ids) i q hu ([.send i q] ++ l.filterMap ids) (by
    intro hm
    rcases List.mem_append.1 hm with hm | hm
    · simp at hm
    · obtain ⟨o, ho, e⟩ := List.mem_filterMap.1 hm
      cases o <;> simp [ids] at e
      obtain ⟨rfl, rfl⟩ := e
      exact he ho)
  refine ⟨?_, ht⟩
  unfold answer tidOf
  simp only [step, respond]
  rw [base_run, runS_append step, k.1, k.2 ht, hsid]
  have e : (h ++ [Op.send i q x] ++ l).filterMap ids = h.filterMap ids ++ ([.send i q] ++ l.filterMap ids) := by
    simp [List.filterMap_append, ids]
  rw [e]
  simp only [SqrIds.answer, SqrIds.step] at hr
  rw [hr]

/-- C394 fails: an item object that is sent again keeps its old transaction id. After every history, if that id is the next
one of the sending sequence, the sequence's next new item gets the same one: two items of one sequence, one id. -/
theorem C394_sent_again_fails (h : List Op) (j q r x y : Nat) (hxy : y ≠ x) (hy : tidOf h y = -1) (m : Nat)
    (hx : tidOf h x = (m : Int)) (hn : (runS step init h).nextT j = m) :
    tidOf (h ++ [.send j q x, .send j r y]) x = (m : Int) ∧ tidOf (h ++ [.send j q x, .send j r y]) y = (m : Int) := by
  unfold tidOf at *
  rw [show h ++ [Op.send j q x, .send j r y] = (h ++ [.send j q x]) ++ [.send j r y] by simp, runS_snoc, runS_snoc]
  generalize runS step init h = s at *
  have e : number s j x = s := by unfold number; rw [if_neg (by rw [hx]; omega)]
  have e1 : (send s j q x).tid = s.tid := by rw [send_tid, e]
  have e2 : (send s j q x).nextT = s.nextT := by rw [send_nextT, e]
  simp only [step, send_tid]
  have e3 : (number (send s j q x) j y).tid = fun z => if z = y then (s.nextT j : Int) else s.tid z := by
    unfold number; rw [e1, e2, if_pos hy]
  rw [e3, hn]
  simp [Ne.symm hxy, hx]

/-- C394, the part that holds: an item that is sent again by any sequence keeps its transaction id and gets the sequence id of
its new sender, so that its response goes to the sequence that sent it last. Missing: its transaction id may be that of another
item of that sequence (`C394_sent_again_fails`). -/
theorem C394_new_sender_partial (h : List Op) (i q x : Nat) (hu : InUse h i q) (hs : tidOf h x ≠ -1) (l : List Op)
    (hx : ∀ j r, .send j r x ∉ l) (he : .exit i q ∉ l) :
    answer (h ++ [.send i q x] ++ l) q x = .to i (tidOf h x) := by
  rw [(C393_arrives h i q x hu l hx he).1]
  have : tidOf (h ++ [.send i q x]) x = tidOf h x := by
    unfold tidOf at *
    rw [runS_snoc]
    simp only [step, send_tid]
    unfold number
    rw [if_neg hs]
  rw [this]

-- Non-vacuity: sequence 1 on sequencers 10 and 11, sequence 2 on 11; items 100, 101, 200.
example : (run step init [.start 1 (some 10), .start 2 (some 11), .register 1 11, .send 1 10 100, .send 1 11 101, .send 2 11 200,
    .respond 11 200, .respond 11 101, .respond 10 100, .respond 10 101, .exit 1 10, .respond 10 100, .respond 11 300]).2 =
    [.unit, .unit, .unit, .unit, .unit, .unit, .to 2 1, .to 1 2, .to 1 1, .lost, .unit, .lost, .fatal] := by decide
example : Once [.start 1 (some 10), .send 1 10 100, .respond 10 100, .send 1 10 101] ∧
    InUse [.start 1 (some 10), .start 2 (some 11), .register 1 11] 1 11 := by
  unfold Once InUse; decide
example : tidOf [.start 1 (some 10), .send 1 10 100, .exit 1 10, .start 2 (some 10)] 100 = 1 ∧
    (runS step init [.start 1 (some 10), .send 1 10 100, .exit 1 10, .start 2 (some 10)]).nextT 2 = 1 := by decide

end Verif.RspRoute
