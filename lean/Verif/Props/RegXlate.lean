import Verif.Spec.RegXlate
/-!
# C236 – C238: translation sequences, read-only and write-only callbacks
-/
namespace Verif.RegXlate
open Verif.RegAccess

/-- One item after another. -/
theorem oneByOne_run (me : Nat) (items : List Nat) : ∀ s : State, s.loc = true →
    (run me s (oneByOne items)).parent = s.parent ∧ (run me s (oneByOne items)).bus = s.bus ++ items.map (fun i => (i, some me)) := by
  induction items with
  | nil => intro s _; simp [oneByOne, run]
  | cons i l ih =>
    intro s hs
    have e : run me s (oneByOne (i :: l)) = run me (finish (begin me s i) i) (oneByOne l) := rfl
    have h1 : (finish (begin me s i) i).loc = true := by simp [finish, begin, hs]
    have h2 : (finish (begin me s i) i).parent = s.parent := by
      simp only [finish, begin, hs, if_true]
      funext x
      by_cases hx : x = i <;> simp [upd, hx]
    have h3 : (finish (begin me s i) i).bus = s.bus ++ [(i, some me)] := by
      simp [finish, begin, hs, upd]
    rw [e, (ih _ h1).1, (ih _ h1).2, h2, h3]
    simp

/-- C236, what holds: items translated one after another are sent as children of the translation sequence, and each has its
own parent again afterwards. -/
theorem C236_parent_partial (me : Nat) (items : List Nat) (s : State) (h : s.loc = true) :
    (run me s (oneByOne items)).parent = s.parent ∧ (run me s (oneByOne items)).bus = s.bus ++ items.map (fun i => (i, some me)) :=
  oneByOne_run me items s h

/-- C236, what holds: with `parent_select` UPSTREAM no call touches the parents, and the items are sent as children of their own
parents. -/
theorem C236_upstream_partial (me : Nat) (ops : List Op) : ∀ (s : State), s.loc = false →
    (run me s ops).parent = s.parent ∧ ∀ e ∈ (run me s ops).bus, e ∈ s.bus ∨ e.2 = s.parent e.1 := by
  induction ops with
  | nil => intro s _; exact ⟨rfl, fun e he => .inl he⟩
  | cons op l ih =>
    intro s hs
    cases op with
    | begin i =>
      have e : run me s (.begin i :: l) = run me (begin me s i) l := rfl
      obtain ⟨h1, h2⟩ := ih (begin me s i) (by simp [begin, hs])
      rw [e]
      refine ⟨by rw [h1]; simp [begin, hs], fun x hx => ?_⟩
      rcases h2 x hx with h | h
      · simp only [begin, hs, Bool.false_eq_true, if_false, List.mem_append, List.mem_singleton] at h
        rcases h with h | rfl
        · exact .inl h
        · exact .inr rfl
      · refine .inr ?_
        rw [h]; simp [begin, hs]
    | finish i =>
      have e : run me s (.finish i :: l) = run me s l := by simp [run, step, finish, hs]
      rw [e]; exact ih s hs

theorem Calls.nodup {l : List Op} {o : List Nat} (h : Calls l o) : o.Nodup := by
  induction h with
  | nil => exact List.nodup_nil
  | begin i _ hi ih => exact List.nodup_cons.2 ⟨hi, ih⟩
  | finish i _ _ ih => exact ih.erase i

theorem calls_run (me : Nat) (s : State) (hs : s.loc = true) (p : Option Nat) {l : List Op} {o : List Nat} (h : Calls l o)
    (hp : ∀ i, .begin i ∈ l → s.parent i = p) :
    (run me s l).loc = true ∧ (∀ x, x ∉ o → (run me s l).parent x = s.parent x) ∧ (o ≠ [] → (run me s l).upstream = p) ∧ (∀ x ∈ o, s.parent x = p) ∧
      ∀ e ∈ (run me s l).bus, e ∈ s.bus ∨ e.2 = some me := by
  induction h with
  | nil => exact ⟨hs, fun _ _ => rfl, fun h => absurd rfl h, by simp, fun e he => .inl he⟩
  | @begin l o i hc hi ih =>
    obtain ⟨h1, h2, h3, h4, h5⟩ := ih (fun i hi => hp i (by simp [hi]))
    have e : run me s (l ++ [.begin i]) = begin me (run me s l) i := by simp [run, step]
    have hpi : s.parent i = p := hp i (by simp)
    rw [e]
    simp only [begin, h1, if_true]
    refine ⟨trivial, fun x hx => ?_, fun _ => by rw [h2 i hi, hpi], fun x hx => ?_, fun y hy => ?_⟩
    · simp only [List.mem_cons, not_or] at hx
      simp only [upd, hx.1, if_false]
      exact h2 x hx.2
    · rcases List.mem_cons.1 hx with rfl | hx
      · exact hpi
      · exact h4 x hx
    · rcases List.mem_append.1 hy with hy | hy
      · exact h5 y hy
      · rw [List.mem_singleton.1 hy]
        exact .inr (by simp [upd])
  | @finish l o i hc hi ih =>
    obtain ⟨h1, h2, h3, h4, h5⟩ := ih (fun i hi => hp i (by simp [hi]))
    have e : run me s (l ++ [.finish i]) = finish (run me s l) i := by simp [run, step]
    rw [e]
    simp only [finish, h1, if_true]
    have hup := h3 (List.ne_nil_of_mem hi)
    refine ⟨trivial, fun x hx => ?_, fun _ => hup, fun x hx => h4 x (List.mem_of_mem_erase hx), h5⟩
    by_cases hxi : x = i
    · subst hxi
      simp only [upd, if_true]
      rw [hup, h4 x hi]
    · simp only [upd, hxi, if_false]
      exact h2 x (fun hm => hx ((List.mem_erase_of_ne hxi).2 hm))

/-- C236, what holds: calls may overlap in any way if the items have the same parent: each is sent as a child of the translation sequence and has its parent again when its call has
ended, whatever other calls are still going on. -/
theorem C236_same_parent_partial (me : Nat) (s : State) (hs : s.loc = true) (p : Option Nat) (l : List Op) (o : List Nat) (h : Calls l o)
    (hp : ∀ i, .begin i ∈ l → s.parent i = p) :
    (∀ x, x ∉ o → (run me s l).parent x = s.parent x) ∧ ∀ e ∈ (run me s l).bus, e ∈ s.bus ∨ e.2 = some me :=
  ⟨(calls_run me s hs p h hp).2.1, (calls_run me s hs p h hp).2.2.2.2⟩

/-- Two items of one parent, overlapping: the call for the first ends while the second goes on. -/
example : Calls [.begin 1, .begin 2, .finish 1] [2] ∧ ∀ i, Op.begin i ∈ [Op.begin 1, .begin 2, .finish 1] → (fun _ => some 7 : Nat → Option Nat) i = some 7 :=
  ⟨.finish 1 (.begin 2 (.begin 1 .nil (by decide)) (by decide)) (by decide), fun _ _ => rfl⟩

/-- C236 fails for two tasks that translate items with different parents at the same time: whenever the first call ends after
the second began, the first item is left with the parent of the second. -/
theorem C236_concurrent_fails (me i j : Nat) (s : State) (h : s.loc = true) (hij : i ≠ j) :
    (run me s [.begin i, .begin j, .finish i]).parent i = s.parent j := by
  simp [run, step, begin, finish, h, upd, Ne.symm hij]

example : ∃ s : State, s.loc = true ∧ s.parent 1 ≠ s.parent 2 := ⟨⟨true, none, fun i => some i, []⟩, rfl, by decide⟩

/-- C237.  The loop of a translation sequence translates the items of the upstream sequencer in order, each once: at any
time the items translated are the first ones that arrived, and it can go on as long as one is left. -/
theorem C237_in_order (ops : List BodyOp) :
    (bodyRun ⟨[], .peeking, []⟩ ops).log <+: arrived ops ∧
    ((bodyRun ⟨[], .peeking, []⟩ ops).log.length < (arrived ops).length →
      ∃ k ≤ 3, (bodyRun ⟨[], .peeking, []⟩ (ops ++ List.replicate k .go)).log.length = (bodyRun ⟨[], .peeking, []⟩ ops).log.length + 1) := by
  -- what is queued follows what was removed
  have inv : ∀ (ops : List BodyOp) (s : Body) (rem : List Nat),
      (match s.pc with
        | .peeking => s.log = rem
        | .doing i => s.log = rem ∧ s.q.head? = some i
        | .getting => ∃ i q, s.q = i :: q ∧ s.log = rem ++ [i]) →
      ∃ rem', rem' ++ (bodyRun s ops).q = rem ++ s.q ++ arrived ops ∧
        (match (bodyRun s ops).pc with
        | .peeking => (bodyRun s ops).log = rem'
        | .doing i => (bodyRun s ops).log = rem' ∧ (bodyRun s ops).q.head? = some i
        | .getting => ∃ i q, (bodyRun s ops).q = i :: q ∧ (bodyRun s ops).log = rem' ++ [i]) := by
    intro ops
    induction ops with
    | nil => intro s rem h; exact ⟨rem, by simp [bodyRun, arrived], h⟩
    | cons op l ih =>
      intro s rem h
      obtain ⟨q, pc, log⟩ := s
      cases op with
      | arrive i =>
        obtain ⟨rem', h1, h2⟩ := ih ⟨q ++ [i], pc, log⟩ rem (by
          cases pc with
          | peeking => exact h
          | doing x =>
            refine ⟨h.1, ?_⟩
            cases q with
            | nil => exact absurd h.2 (by simp)
            | cons a q => simpa using h.2
          | getting =>
            obtain ⟨x, q', h1, h2⟩ := h
            simp only at h1
            exact ⟨x, q' ++ [i], by simp [h1], h2⟩)
        refine ⟨rem', ?_, h2⟩
        show rem' ++ (bodyRun ⟨q ++ [i], pc, log⟩ l).q = _
        rw [h1]; simp [arrived]
      | go =>
        cases pc with
        | peeking =>
          cases q with
          | nil => exact ih ⟨[], .peeking, log⟩ rem h
          | cons x q => exact ih ⟨x :: q, .doing x, log⟩ rem ⟨h, rfl⟩
        | doing x =>
          obtain ⟨h1, h2⟩ := h
          cases q with
          | nil => exact absurd h2 (by simp)
          | cons a q =>
            simp only [List.head?_cons, Option.some.injEq] at h2
            subst h2
            exact ih ⟨a :: q, .getting, log ++ [a]⟩ rem ⟨a, q, rfl, by simp only at h1; simp [h1]⟩
        | getting =>
          obtain ⟨x, q', h1, h2⟩ := h
          simp only at h1 h2
          subst h1
          obtain ⟨rem', h3, h4⟩ := ih ⟨q', .peeking, log⟩ (rem ++ [x]) h2
          refine ⟨rem', ?_, h4⟩
          show rem' ++ (bodyRun ⟨q', .peeking, log⟩ l).q = _
          rw [h3]; simp [arrived]
  obtain ⟨rem, h1, h2⟩ := inv ops ⟨[], .peeking, []⟩ [] rfl
  have app : ∀ k, bodyRun ⟨[], .peeking, []⟩ (ops ++ List.replicate k .go) = bodyRun (bodyRun ⟨[], .peeking, []⟩ ops) (List.replicate k .go) := by
    intro k; simp [bodyRun, List.foldl_append]
  simp only [app]
  generalize bodyRun ⟨[], .peeking, []⟩ ops = s at *
  obtain ⟨q, pc, log⟩ := s
  simp only [List.nil_append] at h1
  cases pc with
  | peeking =>
    simp only at h2; subst h2
    refine ⟨⟨q, h1⟩, fun hl => ?_⟩
    cases q with
    | nil => rw [← h1] at hl; simp at hl
    | cons x q => exact ⟨2, by omega, by simp [bodyRun, bodyStep]⟩
  | doing i =>
    obtain ⟨h2, h3⟩ := h2
    simp only at h2; subst h2
    exact ⟨⟨q, h1⟩, fun hl => ⟨1, by omega, by simp [bodyRun, bodyStep]⟩⟩
  | getting =>
    obtain ⟨i, q', h3, h4⟩ := h2
    simp only at h3 h4
    subst h3
    refine ⟨⟨q', by rw [h4, ← h1]; simp⟩, fun hl => ?_⟩
    cases q' with
    | nil => rw [← h1, h4] at hl; simp at hl
    | cons x q => exact ⟨3, by omega, by simp [bodyRun, bodyStep]⟩

example : (bodyRun ⟨[], .peeking, []⟩ [.go, .arrive 4, .go, .arrive 5, .go, .go, .go, .go]).log = [4, 5] := by decide

/-- No callback and no method changes the status. -/
theorem preWrite_ok (r : Reg.Reg) (v : Nat) : (preWrite (addReadOnly {}) r v).1.ok = true := by
  have call1 : ∀ (w : Nat → Who) (s : Item × List Who), (callAll w [fun x => x] s).1 = s.1 := by
    intro w s; rfl
  have fold : ∀ (l : List (Reg.RF × Nat)) (s : Item × List Who), s.1.ok = true → (l.foldl (preWriteField (addReadOnly {})) s).1.ok = true := by
    intro l
    induction l with
    | nil => intro s h; exact h
    | cons p l ih =>
      intro s h
      refine ih _ ?_
      simp only [preWriteField, addReadOnly, List.nil_append, call1, call]
      exact h
  unfold preWrite
  have : ∀ n, (lastCbs (addReadOnly {}) n).2 = [fun x => x] := by intro n; cases n <;> rfl
  rw [this, call1]
  exact fold _ _ rfl

/-- C238 fails: a register with the read-only callbacks is written like any other.  Through the front door and without
prediction, the device gets the write. -/
theorem C238_read_only_fails {σ} (rt : RegField.Rights) (check : Bool) (dflt : RegField.Rights) (d : Dev σ) (r : Reg.Reg) (s : σ) (v : Nat) :
    ∃ x out, write ⟨.front rt, false, check, fun _ => true⟩ dflt d (addReadOnly {}) (addReadOnly {}) r s v = some out ∧ out.dev = (d.wr s x).1 := by
  refine ⟨(preWrite (addReadOnly {}) (Reg.set r v) v).1.value, ?_⟩
  unfold write doWrite
  simp only [preWrite_ok, Bool.true_eq_false, if_false, Bool.false_eq_true]
  exact ⟨_, rfl, rfl⟩

/-- C238 fails: with prediction, a write of a register that has a field raises (the callbacks have no `post_predict`); by then the
device has been written. -/
theorem C238_predict_fails {σ} (rt : RegField.Rights) (check : Bool) (dflt : RegField.Rights) (d : Dev σ) (r : Reg.Reg) (s : σ) (v : Nat)
    (hf : (Reg.set r v).fields ≠ []) :
    write ⟨.front rt, true, check, fun _ => true⟩ dflt d (addReadOnly {}) (addReadOnly {}) r s v = none := by
  unfold write doWrite
  simp only [preWrite_ok, Bool.true_eq_false, if_false, if_true]
  have : predict ⟨.front rt, true, check, fun _ => true⟩ (Reg.set r v) (preWrite (addReadOnly {}) (Reg.set r v) v).1.value .write .front rt = none := by
    unfold predict
    rw [if_pos]
    cases h : (Reg.set r v).fields with
    | nil => exact absurd h hf
    | cons x l => simp [List.zipIdx, reachesCbs]
  rw [this]; rfl

example : (Reg.set ⟨8, [⟨0, RegField.configure [] 8 .RW false 0 true⟩], 8, false⟩ 3).fields ≠ [] := by simp [Reg.set]

/-- C238 fails: a register with the write-only callbacks is read like any other. -/
theorem C238_write_only_fails {σ} (rt : RegField.Rights) (check : Bool) (d : Dev σ) (r : Reg.Reg) (s : σ) :
    ∃ out, RegAccess.read ⟨.front rt, false, check, fun _ => true⟩ d (addWriteOnly {}) (addWriteOnly {}) r s = some out ∧ out.dev = (d.rd s).1 ∧ out.value = (d.rd s).2.1 := by
  have call1 : ∀ (w : Nat → Who) (s : Item × List Who), (callAll w [fun x => x] s).1 = s.1 := by
    intro w s; rfl
  have fold : ∀ (l : List (Reg.RF × Nat)) (s : Item × List Who), s.1.ok = true →
      (l.foldl (fun s p => callAll (.fieldCb p.2) ((addWriteOnly {}).fieldCbs p.2) (call (.fieldHook p.2) ((addWriteOnly {}).field p.2) s)) s).1.ok = true := by
    intro l
    induction l with
    | nil => intro s h; exact h
    | cons p l ih =>
      intro s h
      refine ih _ ?_
      simp only [addWriteOnly, List.nil_append, call1, call]
      exact h
  have hok : (preRead (addWriteOnly {}) r).1.ok = true := fold _ _ rfl
  unfold RegAccess.read doRead
  simp only [hok, Bool.true_eq_false, if_false, Bool.false_eq_true]
  exact ⟨_, rfl, rfl, rfl⟩

end Verif.RegXlate
