import Verif.Lemmas.Response
/-! # Property C34: the response queue of a sequence -/
namespace Verif.Response
variable {α : Type} (tid : α → Int)

/-- C34: in every history, under every interleaving, each call has the effect the specification allows: responses are appended in order of arrival
while fewer than the depth are stored (always for depth -1), otherwise dropped and reported (unless switched off); a get without id
obtains the oldest response, one with an id the oldest with this id, leaving the others in order; a get suspends at once only if there is
nothing for it, and a resumed get obtains what it asked for. -/
theorem C34_refines (ops : List (Op α)) :
    Trace (Rel tid) ⟨[], 8, false, fun _ => none⟩ ops (run (step tid) {} ops).2 (abs (run (step tid) {} ops).1) :=
  run_rel moreOk_init ops

/-- C34: as long as no ids are used and the queue is not cleared, responses are handed out in the order in which they were stored, none
lost, none twice: what was stored is what was handed out followed by what is still there. -/
theorem C34_fifo (ops : List (Op α)) (h : ∀ op ∈ ops, ∀ t id, op = .get t id → id = -1) (hc : .clear ∉ ops) :
    storedOf (run (step tid) {} ops).2 = gotOf (run (step tid) {} ops).2 ++ (run (step tid) {} ops).1.queue := by
  -- every suspended get has id -1
  suffices H : ∀ (s : State α), (∀ t id w, s.tasks t = .first id w → id = -1) → (∀ t id n w, s.tasks t ≠ .more id n w) →
      s.queue ++ storedOf (run (step tid) s ops).2 = gotOf (run (step tid) s ops).2 ++ (run (step tid) s ops).1.queue by
    simpa using H {} (by simp) (by simp)
  have hw : ∀ (s : State α) (q : List α), (∀ t id w, s.tasks t = .first id w → id = -1) → (∀ t id n w, s.tasks t ≠ .more id n w) →
      (∀ t id w, (setEvent { s with queue := q }).tasks t = .first id w → id = -1) ∧
      (∀ t id n w, (setEvent { s with queue := q }).tasks t ≠ .more id n w) := by
    intro s q h1 h2
    constructor
    · intro t id w ht
      simp only [setEvent] at ht
      cases hs : s.tasks t with
      | idle => simp [hs, wake] at ht
      | first i w' => simp only [hs, wake, Task.first.injEq] at ht; exact ht.1 ▸ h1 t i w' hs
      | more i n w' => exact absurd hs (h2 _ _ _ _)
    · intro t id n w ht
      simp only [setEvent] at ht
      cases hs : s.tasks t with
      | idle => simp [hs, wake] at ht
      | first i w' => simp [hs, wake] at ht
      | more i n w' => exact absurd hs (h2 _ _ _ _)
  have hst : ∀ (s : State α) t k, (k = .idle ∨ ∃ w, k = .first (-1) w) → (∀ t id w, s.tasks t = .first id w → id = -1) →
      (∀ t id n w, s.tasks t ≠ .more id n w) →
      (∀ u id w, (setTask s t k).tasks u = .first id w → id = -1) ∧ (∀ u id n w, (setTask s t k).tasks u ≠ .more id n w) := by
    intro s t k hk h1 h2
    constructor
    · intro u id w hu
      simp only [setTask] at hu
      split at hu
      · rcases hk with rfl | ⟨w', rfl⟩
        · cases hu
        · simp only [Task.first.injEq] at hu; exact hu.1.symm
      · exact h1 _ _ _ hu
    · intro u id n w hu
      simp only [setTask] at hu
      split at hu
      · rcases hk with rfl | ⟨w', rfl⟩ <;> cases hu
      · exact h2 _ _ _ _ hu
  have hstart : ∀ (s : State α) t, (∀ t id w, s.tasks t = .first id w → id = -1) → (∀ t id n w, s.tasks t ≠ .more id n w) →
      ((∀ u id w, (start tid s t (-1)).1.tasks u = .first id w → id = -1) ∧
        (∀ u id n w, (start tid s t (-1)).1.tasks u ≠ .more id n w)) ∧
      ((∃ x, (start tid s t (-1)).2 = .got t (-1) x ∧ s.queue = x :: (start tid s t (-1)).1.queue) ∨
       ((start tid s t (-1)).2 = .blocked ∧ (start tid s t (-1)).1.queue = s.queue)) := by
    intro s t h1 h2
    unfold start
    by_cases hl : s.queue.length = 0
    · rw [if_pos hl]
      exact ⟨hst _ _ _ (Or.inr ⟨_, rfl⟩) h1 h2, Or.inr ⟨rfl, rfl⟩⟩
    · rw [if_neg hl, attempt, if_pos rfl]
      cases hq : s.queue with
      | nil => simp [hq] at hl
      | cons x q =>
        exact ⟨hst { s with queue := q } _ _ (Or.inl rfl) h1 h2, Or.inl ⟨x, rfl, rfl⟩⟩
  induction ops with
  | nil => intro s _ _; simp [run, storedOf, gotOf]
  | cons op ops ih =>
    intro s h1 h2
    have ih := ih (fun op' h' => h op' (by simp [h'])) (fun h' => hc (by simp [h']))
    have hfin : ∀ (s' : State α) (o : Out α), step tid s op = (s', o) →
        (∀ t id w, s'.tasks t = .first id w → id = -1) → (∀ t id n w, s'.tasks t ≠ .more id n w) →
        s.queue ++ storedOf [o] = gotOf [o] ++ s'.queue →
        s.queue ++ storedOf (run (step tid) s (op :: ops)).2 =
          gotOf (run (step tid) s (op :: ops)).2 ++ (run (step tid) s (op :: ops)).1.queue := by
      intro s' o hs h1' h2' hq
      have e := ih s' h1' h2'
      have hso : ∀ l : List (Out α), storedOf (o :: l) = storedOf [o] ++ storedOf l := by
        intro l; cases o <;> simp [storedOf]
      have hgo : ∀ l : List (Out α), gotOf (o :: l) = gotOf [o] ++ gotOf l := by
        intro l; cases o <;> simp [gotOf]
      simp only [run, hs]
      rw [hso, hgo, ← List.append_assoc, hq, List.append_assoc, e, List.append_assoc]
    cases op with
    | put x =>
      by_cases hd : s.depth = -1 ∨ (s.queue.length : Int) < s.depth
      · have := hw s (s.queue ++ [x]) h1 h2
        exact hfin _ _ (by simp only [step, put, if_pos hd]; rfl) this.1 this.2 (by simp [storedOf, gotOf, setEvent])
      · exact hfin _ _ (by simp only [step, put, if_neg hd]; rfl) h1 h2 (by simp [storedOf, gotOf])
    | get t id =>
      obtain rfl := h (.get t id) (by simp) t id rfl
      cases hs : s.tasks t with
      | idle =>
        obtain ⟨⟨a, b⟩, c⟩ := hstart s t h1 h2
        refine hfin (start tid s t (-1)).1 (start tid s t (-1)).2 (by simp only [step, hs]) a b ?_
        rcases c with ⟨x, c1, c2⟩ | ⟨c1, c2⟩
        · rw [c1, c2]; simp [storedOf, gotOf]
        · rw [c1, c2]; simp [storedOf, gotOf]
      | first i w => exact hfin _ _ (by simp only [step, hs]; rfl) h1 h2 (by simp [storedOf, gotOf])
      | more i n w => exact absurd hs (h2 _ _ _ _)
    | resume t =>
      cases hs : s.tasks t with
      | idle => exact hfin _ _ (by simp only [step, hs]; rfl) h1 h2 (by simp [storedOf, gotOf])
      | first i w =>
        obtain rfl := h1 t i w hs
        cases w
        · exact hfin _ _ (by simp only [step, hs]; rfl) h1 h2 (by simp [storedOf, gotOf])
        · obtain ⟨⟨a, b⟩, c⟩ := hstart { s with fired := false } t h1 h2
          refine hfin (start tid { s with fired := false } t (-1)).1 (start tid { s with fired := false } t (-1)).2
            (by simp only [step, hs]) a b ?_
          rcases c with ⟨x, c1, c2⟩ | ⟨c1, c2⟩
          · simp only at c2; rw [c1]; simp only [storedOf, gotOf, List.append_nil]; exact c2
          · rw [c1, c2]; simp [storedOf, gotOf]
      | more i n w => exact absurd hs (h2 _ _ _ _)
    | kill t =>
      have := hst s t .idle (Or.inl rfl) h1 h2
      exact hfin _ _ rfl this.1 this.2 (by simp [storedOf, gotOf, setTask])
    | clear => simp at hc
    | setDepth d => exact hfin _ _ rfl h1 h2 (by simp [storedOf, gotOf])
    | setErrDisabled b => exact hfin _ _ rfl h1 h2 (by simp [storedOf, gotOf])

example : (run (step (fun p : Int × Nat => p.1)) {} [.get 0 (-1), .setDepth 2, .put (5, 1), .get 1 (-1), .put (6, 2), .put (7, 3),
    .put (8, 4), .resume 0, .resume 0, .get 2 7]).2 =
    [.blocked, .unit, .stored (5, 1), .got 1 (-1) (5, 1), .stored (6, 2), .stored (7, 3), .dropped (8, 4) true,
     .got 0 (-1) (6, 2), .nothing, .got 2 7 (7, 3)] := by decide

/-- C34: the queue never holds more than the depth, if the depth is set once, at the start. -/
theorem C34_bounded (d : Nat) (ops : List (Op α)) (h : ∀ op ∈ ops, ∀ e, op ≠ .setDepth e) :
    (runS (step tid) ({ depth := d } : State α) ops).queue.length ≤ d := by
  have H : ∀ s : State α, s.depth = d → s.queue.length ≤ d → (runS (step tid) s ops).queue.length ≤ d := by
    induction ops with
    | nil => intro s _ h2; exact h2
    | cons op ops ih =>
      intro s h1 h2
      have ih := ih fun op' h' => h op' (by simp [h'])
      have hatt : ∀ s : State α, s.depth = d → s.queue.length ≤ d → ∀ t id,
          (attempt tid s t id).1.depth = d ∧ (attempt tid s t id).1.queue.length ≤ d := by
        intro s h1 h2 t id
        unfold attempt
        split
        · cases hq : s.queue with
          | nil => exact ⟨h1, by simp [setTask, hq]⟩
          | cons x q => exact ⟨h1, by simp [hq] at h2; simp [setTask]; omega⟩
        · cases ht : takeId tid id s.queue with
          | none => exact ⟨h1, h2⟩
          | some r =>
            obtain ⟨a, b, e1, e2, -⟩ := takeId_some ht
            refine ⟨h1, ?_⟩
            rw [e1] at h2
            simp only [setTask, setEvent, e2]
            simp at h2 ⊢
            omega
      have hst : ∀ s : State α, s.depth = d → s.queue.length ≤ d → ∀ t id,
          (start tid s t id).1.depth = d ∧ (start tid s t id).1.queue.length ≤ d := by
        intro s h1 h2 t id
        unfold start
        split
        · exact ⟨h1, h2⟩
        · exact hatt s h1 h2 t id
      rw [runS_cons]
      suffices hs : (step tid s op).1.depth = d ∧ (step tid s op).1.queue.length ≤ d from ih _ hs.1 hs.2
      cases op with
      | put x =>
        simp only [step, put]
        split
        next hc => exact ⟨h1, by simp [setEvent]; omega⟩
        · exact ⟨h1, h2⟩
      | get t id =>
        simp only [step]
        cases s.tasks t with
        | idle => exact hst s h1 h2 t id
        | first i w => exact ⟨h1, h2⟩
        | more i n w => exact ⟨h1, h2⟩
      | resume t =>
        simp only [step]
        cases s.tasks t with
        | idle => exact ⟨h1, h2⟩
        | first i w =>
          cases w
          · exact ⟨h1, h2⟩
          · exact hst { s with fired := false } h1 h2 t i
        | more i n w =>
          cases w
          · exact ⟨h1, h2⟩
          · simp only
            split
            · exact hatt { s with fired := false } h1 h2 t i
            · exact ⟨h1, h2⟩
      | kill t => exact ⟨h1, h2⟩
      | clear => exact ⟨h1, by simp [step, setEvent]⟩
      | setDepth e => exact absurd rfl (h (.setDepth e) (by simp) e)
      | setErrDisabled b => exact ⟨h1, h2⟩
  exact H _ rfl (by simp)

/-- C34: a get that waits for any response is never left asleep while a response is in the queue. -/
theorem C34_any_not_stuck (ops : List (Op α)) (t : Nat) (h : Stuck (runS (step tid) {} ops) t (-1)) :
    (runS (step tid) {} ops).queue = [] := by
  have h1 : FirstOk (runS (step tid) {} ops) :=
    runS_inv (I := FirstOk) (fun s o hs => firstOk_step hs o) (by intro t id h; cases h) ops
  have h2 : MoreOk (runS (step tid) {} ops) := runS_inv (I := MoreOk) (fun s o hs => moreOk_step hs o) moreOk_init ops
  rcases h with h | ⟨n, h⟩
  · exact (h1 t _ h).1
  · exact absurd rfl (h2 t _ _ _ h)

example : Stuck (runS (step (fun p : Int × Nat => p.1)) {} [.get 0 (-1), .put (5, 1), .get 1 (-1), .resume 0]) 0 (-1) := Or.inl (by decide)

/-- C100, weaker: a get with an id is never left asleep while such a response is in the queue, if it comes from the only getting coroutine and the
queue is not cleared.  Missing: several getters, see `C100_id_missed_fails`. -/
theorem C100_id_not_stuck_partial (ops : List (Op α)) (t : Nat) (id : Int) (h1 : OneGetter t ops)
    (h : Stuck (runS (step tid) {} ops) t id) : ∀ y ∈ (runS (step tid) {} ops).queue, tid y ≠ id := by
  have hi : OneInv tid t (runS (step tid) {} ops) := oneInv_run ⟨fun _ _ => rfl, by intro id n w h; cases h⟩ ops h1
  have hf : FirstOk (runS (step tid) {} ops) :=
    runS_inv (I := FirstOk) (fun s o hs => firstOk_step hs o) (by intro t id h; cases h) ops
  rcases h with h | ⟨n, h⟩
  · rw [(hf t _ h).1]; simp
  · obtain ⟨-, a, b⟩ := hi.2 _ _ _ h
    rw [← b rfl, List.take_length] at a
    exact a

example : OneGetter 3 [.get 3 7, .put ((5, 1) : Int × Nat), .resume 3, .put (6, 2), .resume 3] ∧
    Stuck (runS (step (fun p : Int × Nat => p.1)) {} [.get 3 7, .put (5, 1), .resume 3, .put (6, 2), .resume 3]) 3 7 :=
  ⟨by simp [OneGetter], Or.inr ⟨2, by decide⟩⟩

/-- C100 fails for several getters: the size of the queue is compared instead of its contents, so a get that waits for a response stays asleep
although the response has arrived, because another get took a response in between. -/
theorem C100_id_missed_fails : ∃ (ops : List (Op (Int × Nat))) (t : Nat) (id : Int),
    Stuck (runS (step (fun p : Int × Nat => p.1)) {} ops) t id ∧
    ∃ y ∈ (runS (step (fun p : Int × Nat => p.1)) {} ops).queue, y.1 = id :=
  ⟨[.put (3, 0), .get 0 5, .resume 0, .put (5, 1), .get 1 (-1), .resume 0], 0, 5, Or.inr ⟨1, by decide⟩, (5, 1), by decide, rfl⟩

end Verif.Response
