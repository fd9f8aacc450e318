import Verif.Spec.Recording
namespace Verif.Recording

theorem readAll_append (again : Bool) (s : Stage) (l1 l2 : List Line) :
    readAll again s (l1 ++ l2) = (readAll again s l1).bind (readAll again · l2) := by
  induction l1 generalizing s with
  | nil => rfl
  | cons a l ih =>
    simp only [List.cons_append, readAll]
    cases s.read again a with
    | none => rfl
    | some s' => exact ih s'

theorem linesOf_append (r : Nat) (a b : List Line) : linesOf r (a ++ b) = linesOf r a ++ linesOf r b := List.filter_append ..

theorem linesOf_other {r : Nat} {l : Line} (h : l.about ≠ some r) : linesOf r [l] = [] := by
  simp [linesOf, List.filter_cons, h]

theorem linesOf_self {r : Nat} {l : Line} (h : l.about = some r) : linesOf r [l] = [l] := by
  simp [linesOf, List.filter_cons, h]

/-- The stage that corresponds to the state of a recorder. -/
def St.stage : St → Stage
  | .opened => .opened
  | .closed => .closed
  | .freed => .freed

def stageAt (w : World) (r : Nat) : Stage := match w.recs[r]? with
  | none => .unknown
  | some x => x.st.stage

/-- Reading the file is at the stage of each recorder, as long as the database is not closed. -/
def Inv (again : Bool) (w : World) : Prop :=
  ∀ r, (w.db ≠ .closed → readAll again .unknown (linesOf r w.log) = some (stageAt w r)) ∧
    ∃ s, readAll again .unknown (linesOf r w.log) = some s

theorem inv_init (again : Bool) : Inv again {} := by
  intro r
  exact ⟨fun _ => rfl, _, rfl⟩

/-- Writing a line about `r` and moving `r` to state `st`. -/
theorem inv_put {again : Bool} {w : World} (hi : Inv again w) {r : Nat} {x y : Rec} (hx : w.recs[r]? = some x) (l : Line) (ha : l.about = some r)
    (hr : x.st.stage.read again l = some y.st.stage) : Inv again (setRec (put w r l) r y) := by
  have hlt : r < w.recs.length := by
    rcases Nat.lt_or_ge r w.recs.length with h | h
    · exact h
    · rw [List.getElem?_eq_none h] at hx; cases hx
  have open_case : w.db ≠ .closed → ∀ w1 : World, w1.recs = w.recs → w1.db ≠ .closed → w1.log = w.log →
      ∀ reg, Inv again (setRec { w1 with reg := reg, log := w1.log ++ [l] } r y) := by
    intro hdb w1 h1 h2 h3 reg r'
    have hat : stageAt (setRec { w1 with reg := reg, log := w1.log ++ [l] } r y) r' = if r' = r then y.st.stage else stageAt w r' := by
      simp only [stageAt, setRec, h1]
      by_cases h : r' = r
      · subst h; rw [if_pos rfl]; simp [hlt]
      · rw [if_neg h, List.getElem?_set_ne (Ne.symm h)]
    have key : readAll again .unknown (linesOf r' (w1.log ++ [l])) = some (if r' = r then y.st.stage else stageAt w r') := by
      rw [h3, linesOf_append]
      by_cases h : r' = r
      · subst h
        rw [linesOf_self ha, readAll_append, (hi r').1 hdb]
        have : stageAt w r' = x.st.stage := by simp [stageAt, hx]
        simp [this, readAll, hr]
      · rw [linesOf_other (by rw [ha]; simp; exact fun e => h e.symm), List.append_nil, (hi r').1 hdb, if_neg h]
    exact ⟨fun _ => by rw [hat]; exact key, _, key⟩
  cases hdb : w.db with
  | fresh =>
    have : put w r l = { { w with db := .opened } with reg := enter r w.reg, log := w.log ++ [l] } := by simp [put, openDb, hdb]
    rw [this]
    exact open_case (by simp [hdb]) { w with db := .opened } rfl (by simp) rfl _
  | opened =>
    have : put w r l = { w with reg := enter r w.reg, log := w.log ++ [l] } := by simp [put, openDb, hdb]
    rw [this]
    exact open_case (by simp [hdb]) w rfl (by simp [hdb]) rfl _
  | closed =>
    have : put w r l = w := by simp [put, openDb, hdb]
    rw [this]
    intro r'
    exact ⟨fun h => absurd hdb h, (hi r').2⟩

theorem inv_same {again : Bool} {w w' : World} (hi : Inv again w) (h1 : w'.recs = w.recs) (h2 : w'.db = .closed → w.db = .closed ∨ True)
    (h3 : w'.log = w.log) (h4 : w'.db ≠ .closed → w.db ≠ .closed) : Inv again w' := by
  intro r
  rw [h3]
  refine ⟨fun h => ?_, (hi r).2⟩
  rw [(hi r).1 (h4 h)]
  simp [stageAt, h1]

theorem setRec_self {w : World} {r : Nat} {x : Rec} (hx : w.recs[r]? = some x) : setRec w r x = w := by
  have hlt : r < w.recs.length := by
    rcases Nat.lt_or_ge r w.recs.length with h | h
    · exact h
    · rw [List.getElem?_eq_none h] at hx; cases hx
  rw [List.getElem?_eq_getElem hlt, Option.some.injEq] at hx
  subst hx
  simp [setRec]

theorem put_recs (w : World) (r : Nat) (l : Line) : (put w r l).recs = w.recs := by
  unfold put openDb
  cases w.db <;> rfl

theorem inv_record {again : Bool} {w : World} (hi : Inv again w) (r : Nat) (n v : String) : Inv again (recordString w r n v) := by
  unfold recordString
  cases hx : w.recs[r]? with
  | none => exact hi
  | some x =>
    simp only
    split
    · exact hi
    · next h =>
      have := inv_put hi (y := x) hx (.attr r n v) rfl (by cases hs : x.st <;> simp [hs] at h ⊢ <;> rfl)
      rw [setRec_self] at this
      · exact this
      · rw [put_recs]; exact hx

theorem inv_close {again : Bool} {w w' : World} (hi : Inv again w) (r t : Nat) (h : close w r t = some w')
    (hc : again = true ∨ ∀ x, w.recs[r]? = some x → x.st = .opened) : Inv again w' := by
  unfold close at h
  cases hx : w.recs[r]? with
  | none => rw [hx] at h; simp at h; subst h; exact hi
  | some x =>
    rw [hx] at h
    simp only at h
    split at h
    · cases h
    · next hf =>
      simp only [Option.some.injEq] at h
      subst h
      refine inv_put hi hx _ rfl ?_
      cases hs : x.st with
      | opened => rfl
      | closed =>
        rcases hc with hc | hc
        · subst hc; rfl
        · rw [hc x hx] at hs; cases hs
      | freed => exact absurd hs hf

theorem inv_release {again : Bool} {w : World} (hi : Inv again w) (r : Nat) (hc : ∀ x, w.recs[r]? = some x → x.st = .closed) : Inv again (release w r) := by
  unfold release
  cases hx : w.recs[r]? with
  | none => exact hi
  | some x =>
    have := inv_put hi (y := { x with st := .freed }) hx (.free r) rfl (by rw [hc x hx]; rfl)
    exact inv_same this rfl (fun _ => .inr trivial) rfl (fun h => h)

theorem close_st {w w' : World} {r t : Nat} (h : close w r t = some w') : ∀ x, w'.recs[r]? = some x → x.st = .closed := by
  unfold close at h
  cases hx : w.recs[r]? with
  | none => rw [hx] at h; simp at h; subst h; intro x hx'; rw [hx] at hx'; cases hx'
  | some x =>
    rw [hx] at h
    simp only at h
    split at h
    · cases h
    · simp only [Option.some.injEq] at h
      subst h
      have hlt : r < w.recs.length := by
        rcases Nat.lt_or_ge r w.recs.length with h | h
        · exact h
        · rw [List.getElem?_eq_none h] at hx; cases hx
      intro y hy
      simp only [setRec, put_recs] at hy
      rw [List.getElem?_set_self hlt, Option.some.injEq] at hy
      subst hy; rfl

theorem inv_free {again : Bool} {w w' : World} (hi : Inv again w) (r t : Nat) (h : free w r t = some w') : Inv again w' := by
  unfold free at h
  cases hx : w.recs[r]? with
  | none => rw [hx] at h; simp at h; subst h; exact hi
  | some x =>
    rw [hx] at h
    simp only at h
    cases hs : x.st with
    | freed => rw [hs] at h; simp at h; subst h; exact hi
    | opened =>
      rw [hs] at h
      simp only at h
      cases hc : close w r t with
      | none => rw [hc] at h; simp at h
      | some w1 =>
        rw [hc] at h
        simp only [Option.map_some, Option.some.injEq] at h
        subst h
        refine inv_release (inv_close hi r t hc (.inr fun y hy => ?_)) r (close_st hc)
        rw [hx, Option.some.injEq] at hy
        subst hy; exact hs
    | closed =>
      rw [hs] at h
      simp only [Option.some.injEq] at h
      subst h
      refine inv_release hi r fun y hy => ?_
      rw [hx, Option.some.injEq] at hy
      subst hy; exact hs

theorem inv_openDb {again : Bool} {w : World} (hi : Inv again w) : Inv again (openDb w).1 := by
  unfold openDb
  cases h : w.db <;> first | exact hi | exact inv_same hi rfl (fun _ => .inr trivial) rfl (fun _ => by simp [h])

theorem inv_openStream {again : Bool} {w : World} (hi : Inv again w) : Inv again (openStream w).1 := by
  unfold openStream
  have h1 := inv_openDb hi
  generalize openDb w = q at h1
  simp only
  split
  · intro r
    have := h1 r
    simp only [linesOf_append, linesOf_other (r := r) (l := .stream q.1.streams) (by simp [Line.about]), List.append_nil]
    exact this
  · exact h1

theorem openDb_recs (w : World) : (openDb w).1.recs = w.recs := by unfold openDb; cases w.db <;> rfl

theorem inv_openRecorder {again : Bool} {w : World} (hi : Inv again w) (s t : Nat) : Inv again (openRecorder w s t).1 := by
  unfold openRecorder
  have h1 := inv_openDb hi
  have h2 := openDb_recs w
  have h3 : (openDb w).2 = true → (openDb w).1.db ≠ .closed := by unfold openDb; cases h : w.db <;> simp [h]
  generalize openDb w = q at h1 h2 h3
  simp only
  split
  · next hq =>
    have hdb := h3 hq
    intro r
    have hat : stageAt { q.1 with recs := q.1.recs ++ [{ stream := s, openTime := timeOf w t }], reg := enter w.recs.length q.1.reg, log := q.1.log ++ [.opn w.recs.length s (timeOf w t)] } r = if r = w.recs.length then .opened else stageAt q.1 r := by
      simp only [stageAt, h2]
      by_cases h : r = w.recs.length
      · subst h; simp [St.stage]
      · rw [if_neg h]
        rcases Nat.lt_or_ge r w.recs.length with hl | hl
        · rw [List.getElem?_append_left hl]
        · rw [List.getElem?_eq_none (by simp; omega), List.getElem?_eq_none hl]
    have key : readAll again .unknown (linesOf r (q.1.log ++ [.opn w.recs.length s (timeOf w t)])) =
        some (if r = w.recs.length then .opened else stageAt q.1 r) := by
      rw [linesOf_append]
      by_cases h : r = w.recs.length
      · subst h
        rw [linesOf_self rfl, readAll_append, (h1 _).1 hdb]
        have : stageAt q.1 w.recs.length = .unknown := by simp [stageAt, h2]
        simp [this, readAll, Stage.read]
      · rw [linesOf_other (by simp [Line.about]; exact fun e => h e.symm), List.append_nil, (h1 r).1 hdb, if_neg h]
    exact ⟨fun _ => by rw [hat]; exact key, _, key⟩
  · exact h1

theorem inv_step {again : Bool} {w w' : World} (hi : Inv again w) (o : Op) (h : step w o = some w')
    (hc : again = true ∨ ∀ r t x, o = .close r t → w.recs[r]? = some x → x.st = .opened) : Inv again w' := by
  cases o with
  | tick n => simp only [step, Option.some.injEq] at h; subst h; exact inv_same hi rfl (fun _ => .inr trivial) rfl (fun h => h)
  | openStream => simp only [step, Option.some.injEq] at h; subst h; exact inv_openStream hi
  | openRecorder s t =>
    simp only [step, Option.some.injEq] at h; subst h
    split
    · exact inv_openRecorder hi s t
    · exact hi
  | record r n v => simp only [step, Option.some.injEq] at h; subst h; exact inv_record hi r n v
  | close r t =>
    refine inv_close hi r t h ?_
    rcases hc with hc | hc
    · exact .inl hc
    · exact .inr fun x hx => hc r t x rfl hx
  | free r t => exact inv_free hi r t h
  | handle r =>
    simp only [step, Option.some.injEq] at h; subst h
    split
    · exact inv_same hi rfl (fun _ => .inr trivial) rfl (fun h => h)
    · exact hi
  | closeDb =>
    simp only [step, Option.some.injEq] at h; subst h
    unfold closeDb
    cases hdb : w.db <;> first | exact hi | exact inv_same hi rfl (fun _ => .inr trivial) rfl (fun h => absurd rfl h)

theorem inv_run {w w' : World} (hi : Inv true w) (os : List Op) (h : run w os = some w') : Inv true w' := by
  induction os generalizing w with
  | nil => simp only [run, Option.some.injEq] at h; subst h; exact hi
  | cons o os ih =>
    rw [run] at h
    cases hs : step w o with
    | none => rw [hs] at h; simp at h
    | some w1 => rw [hs] at h; exact ih (inv_step hi o hs (.inl rfl)) h

/-- C167. For every history of calls that completes, the lines about each recorder in the file are in order: it is opened first and once, then it
has attributes, it is closed before it is freed, and nothing follows the line that frees it.  (It may be closed again: C168.) -/
theorem C167_file (os : List Op) (w : World) (h : run {} os = some w) (r : Nat) :
    ∃ s, readAll true .unknown (linesOf r w.log) = some s := (inv_run (inv_init true) os h r).2

/-- C167. As long as the database is open the file says what the recorders say: which are open, closed and freed. -/
theorem C167_file_current (os : List Op) (w : World) (h : run {} os = some w) (hdb : w.db ≠ .closed) (r : Nat) :
    readAll true .unknown (linesOf r w.log) = some (match w.recs[r]? with
      | none => .unknown
      | some x => match x.st with | .opened => .opened | .closed => .closed | .freed => .freed) := by
  rw [(inv_run (inv_init true) os h r).1 hdb, stageAt]
  cases w.recs[r]? with
  | none => rfl
  | some x => simp only; cases x.st <;> rfl

def sample : List Op := [.openStream, .openRecorder 0 0, .tick 5, .record 0 "a" "1", .openRecorder 0 3, .close 0 0, .free 0 0, .free 1 9, .closeDb]

example : (run {} sample).map (·.log) = some [.stream 0, .opn 0 0 0, .attr 0 "a" "1", .opn 1 0 3, .close 0 5, .free 0, .close 1 9, .free 1] := by decide +kernel

/-- What `C167_time_order` says of a state. -/
def Timed (w : World) : Prop := (w.log.filterMap Line.time).Pairwise (· ≤ ·) ∧ ∀ t ∈ w.log.filterMap Line.time, t ≤ w.now

theorem Timed.of {w w' : World} (h : Timed w) (hl : w'.log = w.log) (hn : w.now ≤ w'.now) : Timed w' := by
  unfold Timed; rw [hl]; exact ⟨h.1, fun t ht => Nat.le_trans (h.2 t ht) hn⟩

theorem Timed.snoc {w w' : World} (h : Timed w) (l : Line) (hl : w'.log = w.log ++ [l]) (hn : w'.now = w.now) (ht : l.time = none ∨ l.time = some w.now) : Timed w' := by
  unfold Timed
  rw [hl, hn, List.filterMap_append]
  rcases ht with ht | ht
  · simp only [List.filterMap_cons, List.filterMap_nil, ht, List.append_nil]; exact h
  · simp only [List.filterMap_cons, List.filterMap_nil, ht]
    refine ⟨List.pairwise_append.2 ⟨h.1, by simp, fun a ha b hb => by simp only [List.mem_singleton] at hb; subst hb; exact h.2 a ha⟩, ?_⟩
    intro t ht
    rcases List.mem_append.1 ht with ht | ht
    · exact h.2 t ht
    · simp only [List.mem_singleton] at ht; omega

theorem timed_openDb {w : World} : (openDb w).1.log = w.log ∧ (openDb w).1.now = w.now := by unfold openDb; split <;> exact ⟨rfl, rfl⟩

theorem timed_put {w : World} (h : Timed w) (r : Nat) (l : Line) (hl : l.time = none ∨ l.time = some w.now) : Timed (put w r l) ∧ (put w r l).now = w.now := by
  obtain ⟨e1, e2⟩ := timed_openDb (w := w)
  unfold put
  dsimp only
  split
  · exact ⟨h.snoc l (by simp [e1]) e2 hl, e2⟩
  · exact ⟨h.of e1 (Nat.le_of_eq e2.symm), e2⟩

theorem timed_close {w w' : World} {r : Nat} (h : Timed w) (hc : close w r 0 = some w') : Timed w' ∧ w'.now = w.now := by
  unfold close at hc
  split at hc
  · cases hc; exact ⟨h, rfl⟩
  · split at hc
    · cases hc
    · cases hc
      obtain ⟨a, b⟩ := timed_put h r (.close r (timeOf w 0)) (.inr rfl)
      exact ⟨a.of rfl (Nat.le_refl _), b⟩

theorem timed_release {w : World} (h : Timed w) (r : Nat) : Timed (release w r) := by
  unfold release
  split
  · exact h
  · exact (timed_put h r (.free r) (.inl rfl)).1.of rfl (Nat.le_refl _)

theorem timed_step {w w' : World} (o : Op) (ho : o.now) (h : Timed w) (hs : step w o = some w') : Timed w' := by
  obtain ⟨e1, e2⟩ := timed_openDb (w := w)
  cases o with
  | tick n => cases hs; exact h.of rfl (Nat.le_add_right _ _)
  | openStream =>
    cases hs
    unfold openStream
    dsimp only
    split
    · exact h.snoc (.stream (openDb w).1.streams) (by simp [e1]) e2 (.inl rfl)
    · exact h.of e1 (Nat.le_of_eq e2.symm)
  | openRecorder s t =>
    cases hs
    cases ho
    split
    · unfold openRecorder
      dsimp only
      split
      · exact h.snoc (.opn w.recs.length s (timeOf w 0)) (by simp [e1]) e2 (.inr rfl)
      · exact h.of e1 (Nat.le_of_eq e2.symm)
    · exact h
  | record r n v =>
    cases hs
    unfold recordString
    split
    · exact h
    · split
      · exact h
      · exact (timed_put h r _ (.inl rfl)).1
  | close r t => cases ho; exact (timed_close h hs).1
  | free r t =>
    cases ho
    simp only [step, free] at hs
    split at hs
    · cases hs; exact h
    · split at hs
      · cases hs; exact h
      · cases hc : close w r 0 with
        | none => rw [hc] at hs; cases hs
        | some v => rw [hc] at hs; cases hs; exact timed_release (timed_close h hc).1 r
      · cases hs; exact timed_release h r
  | handle r =>
    cases hs
    split
    · exact h.of rfl (Nat.le_refl _)
    · exact h
  | closeDb =>
    cases hs
    unfold closeDb
    split
    · exact h.of rfl (Nat.le_refl _)
    · exact h

/-- C167. If all times are left to the recorder, the times in the file never go back, and none is later than the present. -/
theorem C167_time_order (os : List Op) (ho : ∀ o ∈ os, o.now) (w : World) (h : run {} os = some w) :
    (w.log.filterMap Line.time).Pairwise (· ≤ ·) ∧ ∀ t ∈ w.log.filterMap Line.time, t ≤ w.now := by
  have key : ∀ (os : List Op) (v : World), (∀ o ∈ os, o.now) → Timed v → run v os = some w → Timed w := by
    intro os
    induction os with
    | nil => intro v _ hv h; cases h; exact hv
    | cons o os ih =>
      intro v ho hv h
      simp only [run] at h
      cases hs : step v o with
      | none => rw [hs] at h; cases h
      | some v' =>
        rw [hs] at h
        exact ih v' (fun o hm => ho o (List.mem_cons_of_mem _ hm)) (timed_step o (ho o List.mem_cons_self) hv hs) h
  exact key os {} ho ⟨List.Pairwise.nil, nofun⟩ h

example : (∀ o ∈ [Op.openStream, .tick 3, .openRecorder 0 0, .tick 4, .free 0 0], o.now) ∧
    (run {} [.openStream, .tick 3, .openRecorder 0 0, .tick 4, .free 0 0]).map (·.log.filterMap Line.time) = some [3, 7] :=
  ⟨by simp [Op.now], by decide⟩

/-- C168, part: if the user closes only open recorders, no call raises, and every recorder is closed at most once in the file.  Missing: closing
closed or freed recorders (`C168_close_again_fails`, `C168_close_freed_fails`). -/
theorem C168_careful_partial (os : List Op) (hc : Careful {} os) :
    ∃ w, run {} os = some w ∧ ∀ r, ∃ s, readAll false .unknown (linesOf r w.log) = some s := by
  have main : ∀ (os : List Op) (w : World), Inv false w → Careful w os → ∃ w', run w os = some w' ∧ Inv false w' := by
    intro os
    induction os with
    | nil => intro w hi _; exact ⟨w, rfl, hi⟩
    | cons o os ih =>
      intro w hi hc
      have hsome : ∃ w1, step w o = some w1 := by
        cases o with
        | close r t =>
          simp only [step, close]
          cases hx : w.recs[r]? with
          | none => exact ⟨_, rfl⟩
          | some x =>
            have := hc.1 r t x rfl hx
            simp [this]
        | free r t =>
          simp only [step, free]
          cases hx : w.recs[r]? with
          | none => exact ⟨_, rfl⟩
          | some x =>
            simp only
            cases hs : x.st with
            | opened =>
              simp only [close, hx, hs]
              exact ⟨_, rfl⟩
            | closed => exact ⟨_, rfl⟩
            | freed => exact ⟨_, rfl⟩
        | _ => exact ⟨_, rfl⟩
      obtain ⟨w1, h1⟩ := hsome
      obtain ⟨w', h2, h3⟩ := ih w1 (inv_step hi o h1 (.inr hc.1)) (hc.2 w1 h1)
      exact ⟨w', by rw [run, h1]; exact h2, h3⟩
  obtain ⟨w, h, hi⟩ := main os {} (inv_init false) hc
  exact ⟨w, h, fun r => (hi r).2⟩

/-- C168 fails: closing a closed recorder is not ignored: it writes another line that closes it, and changes its closing time. -/
theorem C168_close_again_fails (w : World) (r t : Nat) (x : Rec) (hx : w.recs[r]? = some x) (hs : x.st = .closed) (hdb : w.db = .opened) (ht : t ≠ 0) :
    ∃ w', close w r t = some w' ∧ w'.log = w.log ++ [.close r t] ∧ w'.recs[r]? = some { x with closeTime := t } := by
  have hlt : r < w.recs.length := by
    rcases Nat.lt_or_ge r w.recs.length with h | h
    · exact h
    · rw [List.getElem?_eq_none h] at hx; cases hx
  refine ⟨_, by simp only [close, hx, hs]; rfl, ?_, ?_⟩
  · simp [setRec, put, openDb, hdb, timeOf, ht]
  · simp only [setRec, put_recs, timeOf, if_neg ht, List.getElem?_set_self hlt]
    cases x; simp_all

/-- The file of a run in which a recorder is closed at 5 and again at 7. -/
theorem C168_file_fails : (run {} [.openStream, .openRecorder 0 1, .close 0 5, .close 0 7]).map (fun w => (w.log, readAll false .unknown (linesOf 0 w.log))) =
    some ([.stream 0, .opn 0 0 1, .close 0 5, .close 0 7], none) := by decide +kernel

/-- C168 fails: closing a freed recorder raises. -/
theorem C168_close_freed_fails (w : World) (r t : Nat) (x : Rec) (hx : w.recs[r]? = some x) (hs : x.st = .freed) : close w r t = none := by
  simp [close, hx, hs]

example : run {} [.openStream, .openRecorder 0 1, .free 0 5, .close 0 7] = none := by decide +kernel

example : Careful {} [.openStream, .openRecorder 0 1, .record 0 "a" "b", .close 0 5, .free 0 0] := by
  refine ⟨by simp, fun w h => ⟨by simp, fun w2 h2 => ⟨by simp, fun w3 h3 => ⟨?_, fun _ _ => ⟨by simp, fun _ _ => trivial⟩⟩⟩⟩⟩
  simp [step, openStream, openDb] at h
  subst h
  simp [step, openRecorder, openDb] at h2
  subst h2
  simp [step, recordString, put, openDb] at h3
  subst h3
  rintro r t x h1 h3
  simp at h1
  obtain ⟨h1, _⟩ := h1
  subst h1
  simp at h3
  subst h3; rfl

/-! ## Handles -/

theorem fromHandle_iff (w : World) (h r : Nat) : fromHandle w h = some r ↔ h = r + 1 ∧ r ∈ w.reg := by
  unfold fromHandle
  cases h with
  | zero => simp
  | succ n =>
    simp only [Nat.succ_ne_zero, if_false, Nat.add_sub_cancel]
    split
    · next h => simp only [Option.some.injEq, Nat.add_right_cancel_iff]; constructor
                · rintro rfl; exact ⟨rfl, h⟩
                · exact fun h => h.1
    · next h => simp only [Nat.add_right_cancel_iff]; constructor
                · intro e; cases e
                · rintro ⟨rfl, h'⟩; exact absurd h' h

theorem mem_enter (r x : Nat) (l : List Nat) : x ∈ enter r l ↔ x = r ∨ x ∈ l := by
  unfold enter
  split
  · next h => exact ⟨.inr, fun h' => h'.elim (fun e => e ▸ h) id⟩
  · simp [or_comm]

theorem put_reg_mono (w : World) (r : Nat) (l : Line) {x : Nat} (h : x ∈ w.reg) : x ∈ (put w r l).reg := by
  unfold put openDb
  cases w.db <;> simp [h, mem_enter]

theorem put_reg_le (w : World) (r : Nat) (l : Line) {x : Nat} (h : x ∈ (put w r l).reg) : x = r ∨ x ∈ w.reg := by
  unfold put openDb at h
  cases hd : w.db <;> simp [hd, mem_enter] at h <;> first | exact h | exact .inr h

/-- The recorders that are not freed are in the table. -/
def Live (w : World) : Prop := ∀ (r : Nat) (x : Rec), w.recs[r]? = some x → x.st ≠ .freed → r ∈ w.reg

theorem live_set {w : World} (hl : Live w) {w' : World} {r : Nat} {x y : Rec} (hx : w.recs[r]? = some x) (hst : x.st ≠ .freed) (h1 : w'.recs = w.recs.set r y)
    (h2 : ∀ z ∈ w.reg, z ∈ w'.reg) : Live w' := by
  intro r' x' hx' hf
  rw [h1] at hx'
  by_cases h : r = r'
  · subst h; exact h2 _ (hl r x hx hst)
  · rw [List.getElem?_set_ne h] at hx'; exact h2 _ (hl r' x' hx' hf)

theorem live_close {w w' : World} (hl : Live w) (r t : Nat) (h : close w r t = some w') : Live w' := by
  unfold close at h
  cases hx : w.recs[r]? with
  | none => rw [hx] at h; simp at h; subst h; exact hl
  | some x =>
    rw [hx] at h
    simp only at h
    split at h
    · cases h
    · next hf =>
      simp only [Option.some.injEq] at h
      subst h
      exact live_set (y := { x with st := .closed, closeTime := timeOf w t }) hl hx hf (by simp only [setRec, put_recs]) fun z hz => put_reg_mono w r _ hz

theorem live_release {w : World} (hl : Live w) (r : Nat) : Live (release w r) := by
  unfold release
  cases hx : w.recs[r]? with
  | none => exact hl
  | some x =>
    intro r' x' hx' hf
    simp only [setRec, put_recs] at hx'
    have hlt : r < w.recs.length := by
      rcases Nat.lt_or_ge r w.recs.length with h | h
      · exact h
      · rw [List.getElem?_eq_none h] at hx; cases hx
    by_cases h : r = r'
    · subst h
      rw [List.getElem?_set_self hlt, Option.some.injEq] at hx'
      subst hx'; exact absurd rfl hf
    · rw [List.getElem?_set_ne h] at hx'
      simp only [List.mem_filter]
      exact ⟨put_reg_mono w r _ (hl r' x' hx' hf), by simp; exact fun e => h e.symm⟩

theorem openDb_reg (w : World) : (openDb w).1.reg = w.reg := by unfold openDb; cases w.db <;> rfl
theorem openDb_log (w : World) : (openDb w).1.log = w.log := by unfold openDb; cases w.db <;> rfl

theorem live_step {w w' : World} (hl : Live w) (o : Op) (h : step w o = some w') : Live w' := by
  cases o with
  | tick n => simp only [step, Option.some.injEq] at h; subst h; exact hl
  | openStream =>
    simp only [step, Option.some.injEq] at h; subst h
    have h1 := openDb_recs w
    have h2 := openDb_reg w
    unfold openStream
    generalize openDb w = q at h1 h2
    simp only
    split <;> (intro r x hx hf; simp only at hx ⊢; rw [h2]; rw [h1] at hx; exact hl r x hx hf)
  | openRecorder s t =>
    simp only [step, Option.some.injEq] at h; subst h
    split
    · have h1 := openDb_recs w
      have h2 := openDb_reg w
      unfold openRecorder
      generalize openDb w = q at h1 h2
      simp only
      split
      · intro r x hx hf
        simp only [h1, h2, mem_enter] at hx ⊢
        rcases Nat.lt_or_ge r w.recs.length with hr | hr
        · rw [List.getElem?_append_left hr] at hx
          exact .inr (hl r x hx hf)
        · rcases Nat.eq_or_lt_of_le hr with e | hr
          · exact .inl e.symm
          · rw [List.getElem?_eq_none (by simp; omega)] at hx; cases hx
      · intro r x hx hf; simp only at hx ⊢; rw [h2]; rw [h1] at hx; exact hl r x hx hf
    · exact hl
  | record r n v =>
    simp only [step, Option.some.injEq] at h; subst h
    unfold recordString
    cases hx : w.recs[r]? with
    | none => exact hl
    | some x =>
      simp only
      split
      · exact hl
      · intro r' x' hx' hf
        rw [put_recs] at hx'
        exact put_reg_mono w r _ (hl r' x' hx' hf)
  | close r t => exact live_close hl r t h
  | free r t =>
    simp only [step, free] at h
    cases hx : w.recs[r]? with
    | none => rw [hx] at h; simp at h; subst h; exact hl
    | some x =>
      rw [hx] at h
      simp only at h
      cases hs : x.st with
      | freed => rw [hs] at h; simp at h; subst h; exact hl
      | opened =>
        rw [hs] at h
        simp only at h
        cases hc : close w r t with
        | none => rw [hc] at h; simp at h
        | some w1 =>
          rw [hc] at h
          simp only [Option.map_some, Option.some.injEq] at h
          subst h
          exact live_release (live_close hl r t hc) r
      | closed =>
        rw [hs] at h
        simp only [Option.some.injEq] at h
        subst h; exact live_release hl r
  | handle r =>
    simp only [step, Option.some.injEq] at h; subst h
    split
    · intro r' x' hx' hf
      simp only [getHandle, mem_enter]
      exact .inr (hl r' x' hx' hf)
    · exact hl
  | closeDb =>
    simp only [step, Option.some.injEq] at h; subst h
    unfold closeDb
    cases w.db <;> exact hl

/-- C169. After every history, the handle of a recorder that is not freed is not zero, and looking it up gives the recorder. -/
theorem C169_handle (os : List Op) (w : World) (h : run {} os = some w) (r : Nat) (x : Rec) (hx : w.recs[r]? = some x) (hf : x.st ≠ .freed) :
    (getHandle w r).2 ≠ 0 ∧ fromHandle w (getHandle w r).2 = some r := by
  have hlive : ∀ (os : List Op) (w w' : World), Live w → run w os = some w' → Live w' := by
    intro os
    induction os with
    | nil => intro w w' hl h; simp only [run, Option.some.injEq] at h; subst h; exact hl
    | cons o os ih =>
      intro w w' hl h
      rw [run] at h
      cases hs : step w o with
      | none => rw [hs] at h; simp at h
      | some w1 => rw [hs] at h; exact ih w1 w' (live_step hl o hs) h
  have := hlive os {} w (fun r x hx => by simp at hx) h
  exact ⟨by simp [getHandle], (fromHandle_iff _ _ _).2 ⟨rfl, this r x hx hf⟩⟩

/-- C169. Different recorders have different handles, at whatever times they are asked for. -/
theorem C169_distinct (w w' : World) (r r' : Nat) (h : (getHandle w r).2 = (getHandle w' r').2) : r = r' := by simpa [getHandle] using h

/-- C169. A handle is found for one recorder only; zero for none. -/
theorem C169_lookup (w : World) (h r : Nat) (hf : fromHandle w h = some r) : (getHandle w r).2 = h ∧ h ≠ 0 := by
  have := (fromHandle_iff _ _ _).1 hf
  simp [getHandle, this.1]

example : (run {} sample).map (fun w => (fromHandle w 1, fromHandle w 2, fromHandle w 3)) = some (none, none, none) ∧
    (run {} (sample.take 5)).map (fun w => (fromHandle w 1, fromHandle w 2, fromHandle w 3)) = some (some 0, some 1, none) := by decide +kernel

theorem step_gone {w w' : World} {r : Nat} {x : Rec} (hx : w.recs[r]? = some x) (hf : x.st = .freed) (hr : r ∉ w.reg) (o : Op) (hne : o ≠ .handle r)
    (h : step w o = some w') : w'.recs[r]? = some x ∧ r ∉ w'.reg := by
  have hlt : r < w.recs.length := by
    rcases Nat.lt_or_ge r w.recs.length with h | h
    · exact h
    · rw [List.getElem?_eq_none h] at hx; cases hx
  have hclose : ∀ (w w' : World) (r' t : Nat), w.recs[r]? = some x → r ∉ w.reg → close w r' t = some w' → w'.recs[r]? = some x ∧ r ∉ w'.reg := by
    intro w w' r' t hx hr h
    unfold close at h
    cases hx' : w.recs[r']? with
    | none => rw [hx'] at h; simp at h; subst h; exact ⟨hx, hr⟩
    | some y =>
      rw [hx'] at h
      simp only at h
      split at h
      · cases h
      · next hf' =>
        simp only [Option.some.injEq] at h
        have hn : r' ≠ r := by
          rintro rfl
          rw [hx, Option.some.injEq] at hx'
          subst hx'; exact hf' hf
        subst h
        refine ⟨?_, fun hm => ?_⟩
        · simp only [setRec, put_recs]; rw [List.getElem?_set_ne hn]; exact hx
        · rcases put_reg_le w r' _ hm with e | hm
          · exact hn e.symm
          · exact hr hm
  have hrelease : ∀ (w : World) (r' : Nat), r' ≠ r → w.recs[r]? = some x → r ∉ w.reg → (release w r').recs[r]? = some x ∧ r ∉ (release w r').reg := by
    intro w r' hn hx hr
    unfold release
    cases hx' : w.recs[r']? with
    | none => exact ⟨hx, hr⟩
    | some y =>
      refine ⟨?_, fun hm => ?_⟩
      · simp only [setRec, put_recs]; rw [List.getElem?_set_ne hn]; exact hx
      · simp only [List.mem_filter] at hm
        rcases put_reg_le w r' _ hm.1 with e | hm
        · exact hn e.symm
        · exact hr hm
  cases o with
  | tick n => simp only [step, Option.some.injEq] at h; subst h; exact ⟨hx, hr⟩
  | openStream =>
    simp only [step, Option.some.injEq] at h; subst h
    have h1 := openDb_recs w
    have h2 := openDb_reg w
    unfold openStream
    generalize openDb w = q at h1 h2
    simp only
    split <;> (simp only; rw [h1, h2]; exact ⟨hx, hr⟩)
  | openRecorder s t =>
    simp only [step, Option.some.injEq] at h; subst h
    split
    · have h1 := openDb_recs w
      have h2 := openDb_reg w
      unfold openRecorder
      generalize openDb w = q at h1 h2
      simp only
      split
      · simp only [h1, h2, mem_enter]
        rw [List.getElem?_append_left hlt]
        exact ⟨hx, fun hm => hm.elim (fun e => by omega) hr⟩
      · simp only; rw [h1, h2]; exact ⟨hx, hr⟩
    · exact ⟨hx, hr⟩
  | record r' n v =>
    simp only [step, Option.some.injEq] at h; subst h
    unfold recordString
    cases hx' : w.recs[r']? with
    | none => exact ⟨hx, hr⟩
    | some y =>
      simp only
      split
      · exact ⟨hx, hr⟩
      · next hf' =>
        rw [put_recs]
        refine ⟨hx, fun hm => ?_⟩
        rcases put_reg_le w r' _ hm with e | hm
        · subst e; rw [hx, Option.some.injEq] at hx'; subst hx'; exact hf' hf
        · exact hr hm
  | close r' t => exact hclose w w' r' t hx hr h
  | free r' t =>
    simp only [step, free] at h
    cases hx' : w.recs[r']? with
    | none => rw [hx'] at h; simp at h; subst h; exact ⟨hx, hr⟩
    | some y =>
      rw [hx'] at h
      simp only at h
      cases hs : y.st with
      | freed => rw [hs] at h; simp at h; subst h; exact ⟨hx, hr⟩
      | opened =>
        have hn : r' ≠ r := by
          rintro rfl
          rw [hx, Option.some.injEq] at hx'
          subst hx'; rw [hf] at hs; cases hs
        rw [hs] at h
        simp only at h
        cases hc : close w r' t with
        | none => rw [hc] at h; simp at h
        | some w1 =>
          rw [hc] at h
          simp only [Option.map_some, Option.some.injEq] at h
          subst h
          have := hclose w w1 r' t hx hr hc
          exact hrelease w1 r' hn this.1 this.2
      | closed =>
        have hn : r' ≠ r := by
          rintro rfl
          rw [hx, Option.some.injEq] at hx'
          subst hx'; rw [hf] at hs; cases hs
        rw [hs] at h
        simp only [Option.some.injEq] at h
        subst h; exact hrelease w r' hn hx hr
  | handle r' =>
    simp only [step, Option.some.injEq] at h; subst h
    have hn : r ≠ r' := fun e => hne (by rw [e])
    split
    · exact ⟨hx, by simp only [getHandle, mem_enter]; exact fun hm => hm.elim hn hr⟩
    · exact ⟨hx, hr⟩
  | closeDb =>
    simp only [step, Option.some.injEq] at h; subst h
    unfold closeDb
    cases w.db <;> exact ⟨hx, hr⟩

/-- C170, part: once a recorder is freed its handle is not found any more, whatever follows, until its handle is asked for again.  Missing: that
asking for the handle of a freed recorder gives zero and finds nothing (`C170_freed_handle_fails`). -/
theorem C170_freed_partial (w w1 w2 : World) (r t : Nat) (x : Rec) (hx : w.recs[r]? = some x) (hs : x.st ≠ .freed) (h1 : free w r t = some w1)
    (os : List Op) (hos : ∀ o ∈ os, o ≠ .handle r) (h2 : run w1 os = some w2) :
    fromHandle w1 (getHandle w r).2 = none ∧ fromHandle w2 (getHandle w r).2 = none := by
  have hrel : ∀ (v : World) (y : Rec), v.recs[r]? = some y → (release v r).recs[r]? = some { y with st := .freed } ∧ r ∉ (release v r).reg := by
    intro v y hy
    have hlt : r < v.recs.length := by
      rcases Nat.lt_or_ge r v.recs.length with h | h
      · exact h
      · rw [List.getElem?_eq_none h] at hy; cases hy
    unfold release
    rw [hy]
    refine ⟨?_, by simp⟩
    simp only [setRec, put_recs]
    rw [List.getElem?_set_self hlt]
  have hfreed : ∃ y : Rec, w1.recs[r]? = some y ∧ y.st = .freed ∧ r ∉ w1.reg := by
    unfold free at h1
    rw [hx] at h1
    simp only at h1
    cases hst : x.st with
    | freed => exact absurd hst hs
    | opened =>
      rw [hst] at h1
      simp only at h1
      have : ∃ v y, close w r t = some v ∧ v.recs[r]? = some y := by
        have hlt : r < w.recs.length := by
          rcases Nat.lt_or_ge r w.recs.length with h | h
          · exact h
          · rw [List.getElem?_eq_none h] at hx; cases hx
        refine ⟨_, { x with st := .closed, closeTime := timeOf w t }, by simp only [close, hx, hst]; rfl, ?_⟩
        simp only [setRec, put_recs]
        rw [List.getElem?_set_self hlt]
      obtain ⟨v, y, hv, hy⟩ := this
      rw [hv] at h1
      simp only [Option.map_some, Option.some.injEq] at h1
      subst h1
      exact ⟨_, (hrel v y hy).1, rfl, (hrel v y hy).2⟩
    | closed =>
      rw [hst] at h1
      simp only [Option.some.injEq] at h1
      subst h1
      exact ⟨_, (hrel w x hx).1, rfl, (hrel w x hx).2⟩
  have hrun : ∀ (os : List Op) (v v' : World), (∀ o ∈ os, o ≠ .handle r) → (∃ y : Rec, v.recs[r]? = some y ∧ y.st = .freed ∧ r ∉ v.reg) → run v os = some v' → r ∉ v'.reg := by
    intro os
    induction os with
    | nil => intro v v' _ hv h; simp only [run, Option.some.injEq] at h; subst h; obtain ⟨_, _, _, h⟩ := hv; exact h
    | cons o os ih =>
      intro v v' ho hv h
      rw [run] at h
      cases hst : step v o with
      | none => rw [hst] at h; simp at h
      | some v1 =>
        rw [hst] at h
        obtain ⟨y, hy, hyf, hyr⟩ := hv
        have := step_gone hy hyf hyr o (ho o (by simp)) hst
        exact ih v1 v' (fun o' ho' => ho o' (by simp [ho'])) ⟨y, this.1, hyf, this.2⟩ h
  have none_of : ∀ v : World, r ∉ v.reg → fromHandle v (getHandle w r).2 = none := by
    intro v hv
    cases hfh : fromHandle v (getHandle w r).2 with
    | none => rfl
    | some z =>
      have := (fromHandle_iff _ _ _).1 hfh
      have e : z = r := by have := this.1; simp [getHandle] at this; exact this.symm
      subst e; exact absurd this.2 hv
  obtain ⟨y, hy, hyf, hyr⟩ := hfreed
  exact ⟨none_of _ hyr, none_of _ (hrun os w1 w2 hos ⟨y, hy, hyf, hyr⟩ h2)⟩

/-- C170 fails: the handle of a freed recorder is not zero, and asking for it makes the freed recorder be found again. -/
theorem C170_freed_handle_fails (w : World) (r : Nat) (x : Rec) (_ : w.recs[r]? = some x) (_ : x.st = .freed) :
    (getHandle w r).2 ≠ 0 ∧ fromHandle (getHandle w r).1 (getHandle w r).2 = some r :=
  ⟨by simp [getHandle], (fromHandle_iff _ _ _).2 ⟨rfl, (mem_enter _ _ _).2 (.inl rfl)⟩⟩

example : (run {} (sample ++ [.handle 0])).map (fun w => (fromHandle w 1, w.recs.map (·.st))) = some (some 0, [.freed, .freed]) := by decide +kernel

/-! ## Closing the database -/

theorem put_closed {w : World} (h : w.db = .closed) (r : Nat) (l : Line) : put w r l = w := by simp [put, openDb, h]

theorem step_closed {w w' : World} (hdb : w.db = .closed) (o : Op) (h : step w o = some w') : w'.db = .closed ∧ w'.log = w.log := by
  have hclose : ∀ (w w' : World) (r t : Nat), w.db = .closed → close w r t = some w' → w'.db = .closed ∧ w'.log = w.log := by
    intro w w' r t hdb h
    unfold close at h
    cases hx : w.recs[r]? with
    | none => rw [hx] at h; simp at h; subst h; exact ⟨hdb, rfl⟩
    | some x =>
      rw [hx] at h
      simp only at h
      split at h
      · cases h
      · simp only [Option.some.injEq] at h
        subst h
        rw [put_closed hdb]
        exact ⟨hdb, rfl⟩
  have hrel : ∀ (w : World) (r : Nat), w.db = .closed → (release w r).db = .closed ∧ (release w r).log = w.log := by
    intro w r hdb
    unfold release
    cases hx : w.recs[r]? with
    | none => exact ⟨hdb, rfl⟩
    | some x => simp only; rw [put_closed hdb]; exact ⟨hdb, rfl⟩
  cases o with
  | tick n => simp only [step, Option.some.injEq] at h; subst h; exact ⟨hdb, rfl⟩
  | openStream => simp only [step, Option.some.injEq] at h; subst h; simp [openStream, openDb, hdb]
  | openRecorder s t =>
    simp only [step, Option.some.injEq] at h; subst h
    split
    · simp [openRecorder, openDb, hdb]
    · exact ⟨hdb, rfl⟩
  | record r n v =>
    simp only [step, Option.some.injEq] at h; subst h
    unfold recordString
    cases hx : w.recs[r]? with
    | none => exact ⟨hdb, rfl⟩
    | some x =>
      simp only
      rw [put_closed hdb]
      split <;> exact ⟨hdb, rfl⟩
  | close r t => exact hclose w w' r t hdb h
  | free r t =>
    simp only [step, free] at h
    cases hx : w.recs[r]? with
    | none => rw [hx] at h; simp at h; subst h; exact ⟨hdb, rfl⟩
    | some x =>
      rw [hx] at h
      simp only at h
      cases hs : x.st with
      | freed => rw [hs] at h; simp at h; subst h; exact ⟨hdb, rfl⟩
      | opened =>
        rw [hs] at h
        simp only at h
        cases hc : close w r t with
        | none => rw [hc] at h; simp at h
        | some w1 =>
          rw [hc] at h
          simp only [Option.map_some, Option.some.injEq] at h
          subst h
          have h1 := hclose w w1 r t hdb hc
          have h2 := hrel w1 r h1.1
          exact ⟨h2.1, h2.2.trans h1.2⟩
      | closed =>
        rw [hs] at h
        simp only [Option.some.injEq] at h
        subst h; exact hrel w r hdb
  | handle r =>
    simp only [step, Option.some.injEq] at h; subst h
    split <;> exact ⟨hdb, rfl⟩
  | closeDb => simp only [step, Option.some.injEq] at h; subst h; simp [closeDb, hdb]

/-- C171 fails: a database that was closed cannot be opened again: whatever is called later, opening it is refused, no stream can be opened and
nothing is recorded. -/
theorem C171_reopen_fails (w w' : World) (hdb : w.db = .opened) (os : List Op) (h : run (closeDb w).1 os = some w') :
    (openDb w').2 = false ∧ (openStream w').2 = none ∧ w'.log = w.log := by
  have hrun : ∀ (os : List Op) (v v' : World), v.db = .closed → run v os = some v' → v'.db = .closed ∧ v'.log = v.log := by
    intro os
    induction os with
    | nil => intro v v' hv h; simp only [run, Option.some.injEq] at h; subst h; exact ⟨hv, rfl⟩
    | cons o os ih =>
      intro v v' hv h
      rw [run] at h
      cases hs : step v o with
      | none => rw [hs] at h; simp at h
      | some v1 =>
        rw [hs] at h
        have h1 := step_closed hv o hs
        have h2 := ih v1 v' h1.1 h
        exact ⟨h2.1, h2.2.trans h1.2⟩
  have := hrun os (closeDb w).1 w' (by simp [closeDb, hdb]) h
  refine ⟨by simp [openDb, this.1], by simp [openStream, openDb, this.1], ?_⟩
  rw [this.2]; simp [closeDb, hdb]

/-- C171 fails: closing the database closes and frees none of its recorders, and writes nothing about them. -/
theorem C171_recorders_fails (w : World) : (closeDb w).1.recs = w.recs ∧ (closeDb w).1.log = w.log := by
  unfold closeDb; cases w.db <;> exact ⟨rfl, rfl⟩

/-- C171, part: a database opens when it was never closed, stays open while it is used, and closing it reports success.  Missing: opening it again,
and closing what is in it (`C171_reopen_fails`, `C171_recorders_fails`). -/
theorem C171_open_close_partial (w : World) (h : w.db ≠ .closed) :
    (openDb w).2 = true ∧ (openDb w).1.db = .opened ∧ (openDb (openDb w).1) = ((openDb w).1, true) ∧ (closeDb w).2 = true := by
  unfold openDb closeDb
  cases hdb : w.db <;> simp_all

example : (run {} [.openStream, .openRecorder 0 1, .closeDb, .record 0 "a" "1", .openStream, .openRecorder 0 0]).map
    (fun w => (w.log, w.recs.map (·.st))) = some ([.stream 0, .opn 0 0 1], [.opened]) := by decide +kernel

/-! ## Components -/

/-- C172 fails: once the main stream of a component is open, a transaction begun on it is not recorded at all: its handle is zero and nothing is
written. -/
theorem C172_main_fails (w : World) (c : Comp) (s k t : Nat) (tr : Tr) (label : String) (parent : Option Nat) (name : String)
    (hn : name = "" ∨ name = "main") (hm : c.mainStream = some s) (h1 : tr.stream = none) (h2 : tr.recorder = none) :
    ∃ tr', compBegin w c k tr name label t parent = some (w, c, tr', 0) := by
  simp only [compBegin, beginTr, h2, startTr, h1, pickStream, hn, hm, openIn, if_true]
  cases c.detail <;> exact ⟨_, rfl⟩

example : ((compBegin {} {} 0 {} "" "" 3 none).bind fun q => (compEnd q.1 q.2.1 0 q.2.2.1 5 true).bind fun e => (compBegin e.1 e.2.1 1 {} "" "" 7 none).map
    fun z => (q.2.2.2, z.2.2.2, z.1.log)) = some (1, 0, [.stream 0, .opn 0 0 3, .close 0 5, .free 0]) := by decide +kernel

theorem recordAll_log {w : World} {r : Nat} {x : Rec} (hx : w.recs[r]? = some x) (hs : x.st ≠ .freed) (hdb : w.db = .opened) (fs : List (String × String)) :
    (recordAll w r fs).log = w.log ++ fs.map (fun f => .attr r f.1 f.2) ∧ (recordAll w r fs).recs = w.recs ∧ (recordAll w r fs).db = .opened ∧
      (recordAll w r fs).now = w.now := by
  unfold recordAll
  induction fs generalizing w with
  | nil => simp [hdb]
  | cons f fs ih =>
    have e : recordString w r f.1 f.2 = { w with reg := enter r w.reg, log := w.log ++ [.attr r f.1 f.2] } := by
      simp [recordString, hx, hs, put, openDb, hdb]
    rw [List.foldl_cons, e]
    have := ih (w := { w with reg := enter r w.reg, log := w.log ++ [.attr r f.1 f.2] }) hx hdb
    simp only at this
    refine ⟨by rw [this.1]; simp, this.2.1, this.2.2.1, this.2.2.2⟩

/-- Closing and freeing an open recorder. -/
theorem close_free_log {w : World} {r t : Nat} {x : Rec} (hx : w.recs[r]? = some x) (hs : x.st ≠ .freed) (hdb : w.db = .opened) :
    ∃ w1, close w r t = some w1 ∧ w1.log = w.log ++ [.close r (timeOf w t)] ∧ w1.db = .opened ∧ w1.recs.length = w.recs.length ∧ w1.now = w.now ∧
      w1.streams = w.streams ∧
      ∃ w2, free w1 r 0 = some w2 ∧ w2.log = w.log ++ [.close r (timeOf w t), .free r] ∧ w2.db = .opened ∧ w2.recs.length = w.recs.length ∧ w2.now = w.now ∧
        w2.streams = w.streams := by
  have hlt : r < w.recs.length := by
    rcases Nat.lt_or_ge r w.recs.length with h | h
    · exact h
    · rw [List.getElem?_eq_none h] at hx; cases hx
  refine ⟨_, by simp only [close, hx, hs]; rfl, ?_, ?_, ?_, ?_, ?_, ?_⟩
  · simp [setRec, put, openDb, hdb]
  · simp [setRec, put, openDb, hdb]
  · simp [setRec, put_recs]
  · simp [setRec, put, openDb, hdb]
  · simp [setRec, put, openDb, hdb]
  · have e : (setRec (put w r (.close r (timeOf w t))) r { x with st := .closed, closeTime := timeOf w t }).recs[r]? =
        some { x with st := .closed, closeTime := timeOf w t } := by
      simp only [setRec, put_recs]; rw [List.getElem?_set_self hlt]
    refine ⟨_, by simp only [free, e]; rfl, ?_⟩
    unfold release
    rw [e]
    simp [setRec, put, openDb, hdb]

/-- What a transaction begun and ended on a stream that exists adds to the file. -/
def recordOf (r s t t2 : Nat) (label : String) (fs : List (String × String)) : List Line :=
  .opn r s t :: (if label = "" then [] else [.attr r "label" label]) ++ fs.map (fun f => .attr r f.1 f.2) ++ [.close r t2, .free r]

/-- C172, part: a transaction begun on a named stream of a component (and not recording itself), and ended a time `n` later, is recorded completely:
a new recorder is opened on that stream at the time given, with the label, the fields of the transaction, the end time, and then it is freed.
Missing: the main stream (`C172_main_fails`). -/
theorem C172_named_partial (w : World) (c : Comp) (k t t2 n s : Nat) (tr : Tr) (name label : String)
    (hn : name ≠ "" ∧ name ≠ "main") (hk : c.streams.find? (fun p => p.1 == name) = some (name, s)) (hd : c.detail = true) (hdb : w.db = .opened)
    (h1 : tr.stream = none) (h2 : tr.recorder = none) :
    ∃ w1 c1 tr1 h w2 c2 tr2, compBegin w c k tr name label t none = some (w1, c1, tr1, h) ∧ h ≠ 0 ∧
      compEnd { w1 with now := w1.now + n } c1 k tr1 t2 true = some (w2, c2, tr2) ∧
      w2.log = w.log ++ recordOf w.recs.length s (if t = 0 then w.now else t) (if t2 = 0 then w.now + n else t2) label tr.fields ∧
      (∀ j, c2.trH.find? (fun p => p.1 == j) = if j = k then none else c.trH.find? (fun p => p.1 == j)) := by
  have hn' : ¬ (name = "" ∨ name = "main") := fun h => h.elim hn.1 hn.2
  -- the recorder
  let v : World := { w with recs := w.recs ++ [{ stream := s, openTime := timeOf w t }], reg := enter w.recs.length w.reg, log := w.log ++ [.opn w.recs.length s (timeOf w t)] }
  have hv : openRecorder w s t = (v, some w.recs.length) := by simp [openRecorder, openDb, hdb, v]
  have hvx : v.recs[w.recs.length]? = some { stream := s, openTime := timeOf w t } := by simp [v]
  let v1 : World := if label = "" then v else recordString v w.recs.length "label" label
  have hv1 : v1.log = w.log ++ (.opn w.recs.length s (timeOf w t) :: (if label = "" then [] else [.attr w.recs.length "label" label])) ∧ v1.recs = v.recs ∧ v1.db = .opened ∧
      v1.now = w.now := by
    simp only [v1]
    by_cases hl : label = ""
    · simp [hl, v, hdb]
    · have := recordAll_log hvx (by simp) (show v.db = .opened from hdb) [("label", label)]
      simp only [recordAll, List.foldl_cons, List.foldl_nil, List.map_cons, List.map_nil] at this
      simp only [hl, if_false]
      refine ⟨by rw [this.1]; simp [v], this.2.1, this.2.2.1, this.2.2.2⟩
  let tr1 : Tr := (startTr w tr (timeOf w t)).2.1
  have htr1 : tr1.stream = none ∧ tr1.recorder = none ∧ tr1.fields = tr.fields := by simp [tr1, startTr, h1]
  have hb : compBegin w c k tr name label t none =
      some ({ v1 with reg := enter w.recs.length v1.reg }, { c with trH := (k, w.recs.length) :: c.trH.filter (fun p => p.1 != k) }, tr1, w.recs.length + 1) := by
    have e : beginTr w tr t = some (w, tr1, 0) := by simp [beginTr, h2, startTr, h1, tr1]
    simp only [compBegin, e, Option.bind_eq_bind, Option.bind_some, hd, if_true, pickStream, hn', if_false, getTrStream, hk, openIn, hv, linkUp, fromHandle,
      getHandle]
    rfl
  let u : World := { v1 with reg := enter w.recs.length v1.reg, now := v1.now + n }
  have hux : (getHandle u w.recs.length).1.recs[w.recs.length]? = some { stream := s, openTime := timeOf w t } := by
    simp only [getHandle, u]; rw [hv1.2.1]; exact hvx
  have hr := recordAll_log hux (by simp) (show (getHandle u w.recs.length).1.db = .opened from hv1.2.2.1) tr.fields
  have hrx : (recordAll (getHandle u w.recs.length).1 w.recs.length tr.fields).recs[w.recs.length]? = some { stream := s, openTime := timeOf w t } := by
    rw [hr.2.1]; exact hux
  obtain ⟨w1, hc, _, _, _, _, _, w2, hf, hlog, _⟩ := close_free_log (t := t2) hrx (by simp) hr.2.2.1
  obtain ⟨tr2, htr2⟩ : ∃ tr2, endTr u tr1 t2 true = some (u, tr2) := by simp [endTr, htr1.1]
  have he : compEnd u { c with trH := (k, w.recs.length) :: c.trH.filter (fun p => p.1 != k) } k tr1 t2 true =
      some (w2, { c with trH := ((k, w.recs.length) :: c.trH.filter (fun p => p.1 != k)).filter (fun x => x.1 != k) }, tr2) := by
    rw [compEnd, htr2]
    simp only [Option.bind_eq_bind, Option.bind_some, hd, if_true, List.find?_cons, beq_self_eq_true, htr1.2.2, hc, hf]
    rfl
  refine ⟨_, _, _, _, _, _, _, hb, by simp, he, ?_, ?_⟩
  · rw [hlog, hr.1]
    have et : timeOf (recordAll (getHandle u w.recs.length).1 w.recs.length tr.fields) t2 = if t2 = 0 then w.now + n else t2 := by
      rw [timeOf, hr.2.2.2]; simp only [getHandle, u, hv1.2.2.2]
    rw [et]
    have el : (getHandle u w.recs.length).1.log = v1.log := rfl
    rw [el, hv1.1]
    simp [recordOf, timeOf]
  · intro j
    simp only [List.filter_cons, bne_self_eq_false, Bool.false_eq_true, if_false, List.filter_filter, Bool.and_self]
    rw [List.find?_filter]
    by_cases hj : j = k
    · subst hj
      simp only [if_true]
      rw [List.find?_eq_none]
      intro p _
      by_cases hp : p.1 = j <;> simp [hp]
    · simp only [hj, if_false]
      congr 1
      funext p
      by_cases hp : p.1 = j
      · simp [hp, hj]
      · simp [hp]

example : (recordOf 4 2 3 9 "x" [("a", "1")]) = [.opn 4 2 3, .attr 4 "label" "x", .attr 4 "a" "1", .close 4 9, .free 4] := by decide +kernel

/-- C172, part: ending a transaction ends its own record, whichever others were begun later: its fields, the end time, and it is freed if asked. -/
theorem C172_end_partial (w : World) (c : Comp) (k t r : Nat) (x : Rec) (tr : Tr) (f : Bool) (hk : c.trH.find? (fun p => p.1 == k) = some (k, r))
    (hx : w.recs[r]? = some x) (hs : x.st ≠ .freed) (hd : c.detail = true) (hdb : w.db = .opened) (h1 : tr.recorder = none) :
    ∃ w2 c2 tr2, compEnd w c k tr t f = some (w2, c2, tr2) ∧
      w2.log = w.log ++ tr.fields.map (fun f => .attr r f.1 f.2) ++ .close r (if t = 0 then w.now else t) :: (if f then [.free r] else []) ∧
      (∀ j, c2.trH.find? (fun p => p.1 == j) = if j = k then none else c.trH.find? (fun p => p.1 == j)) := by
  obtain ⟨tr2, htr2⟩ : ∃ tr2, endTr w tr t f = some (w, tr2) := by
    simp only [endTr, h1]
    cases tr.stream <;> exact ⟨_, rfl⟩
  have hux : (getHandle w r).1.recs[r]? = some x := hx
  have hr := recordAll_log hux hs (show (getHandle w r).1.db = .opened from hdb) tr.fields
  have hrx : (recordAll (getHandle w r).1 r tr.fields).recs[r]? = some x := by rw [hr.2.1]; exact hux
  obtain ⟨w1, hc, hlog1, _, _, _, _, w2, hf, hlog, _⟩ := close_free_log (t := t) hrx hs hr.2.2.1
  have et : timeOf (recordAll (getHandle w r).1 r tr.fields) t = if t = 0 then w.now else t := by
    rw [timeOf, hr.2.2.2]; rfl
  have hfind : ∀ j, (c.trH.filter (fun p => p.1 != k)).find? (fun p => p.1 == j) = if j = k then none else c.trH.find? (fun p => p.1 == j) := by
    intro j
    rw [List.find?_filter]
    by_cases hj : j = k
    · subst hj
      simp only [if_true]
      rw [List.find?_eq_none]
      intro p _
      by_cases hp : p.1 = j <;> simp [hp]
    · simp only [hj, if_false]
      congr 1
      funext p
      by_cases hp : p.1 = j
      · simp [hp, hj]
      · simp [hp]
  cases f with
  | true =>
    refine ⟨w2, _, tr2, by simp only [compEnd, htr2, Option.bind_eq_bind, Option.bind_some, hd, if_true, hk, hc, hf]; rfl, ?_, hfind⟩
    rw [hlog, hr.1, et]; simp [getHandle]
  | false =>
    refine ⟨w1, _, tr2, by simp only [compEnd, htr2, Option.bind_eq_bind, Option.bind_some, hd, if_true, hk, hc]; rfl, ?_, hfind⟩
    rw [hlog1, hr.1, et]; simp [getHandle]

example : ((compBegin { db := .opened, streams := 1 } { streams := [("s", 0)] } 0 {} "s" "" 3 none).bind fun q => (compBegin q.1 q.2.1 1 {} "s" "" 4 none).bind fun z =>
    (compEnd z.1 z.2.1 0 {} 9 true).map fun e => (e.1.log, e.2.1.trH)) = some ([.opn 0 0 3, .opn 1 0 4, .close 0 9, .free 0], [(1, 1)]) := by decide +kernel

/-- C172, part: a stream name that is new to the component gets its own stream, and the component keeps it for that name. -/
theorem C172_new_stream_partial (w : World) (c : Comp) (name : String) (hn : c.streams.find? (fun p => p.1 == name) = none) (hdb : w.db = .opened) :
    ∃ w' c', getTrStream w c name = (w', c', some w.streams) ∧ w'.log = w.log ++ [.stream w.streams] ∧
      ∀ w'', getTrStream w'' c' name = (w'', c', some w.streams) := by
  refine ⟨_, _, by simp only [getTrStream, hn, openStream, openDb, hdb, if_true]; rfl, rfl, fun w'' => ?_⟩
  simp only [getTrStream, List.find?_append, hn, Option.none_or, List.find?_cons, beq_self_eq_true]

/-! ## Relations -/

/-- C173 fails: no link between streams or recorders is ever recorded: establishing it warns, or raises if the left side is missing. -/
theorem C173_link_fails (l r : End) : establishLink l r = none ∨ ∃ n, establishLink l r = some n ∧ 0 < n := by
  cases l <;> cases r <;> simp [establishLink]

def Line.isLink : Line → Bool
  | .link _ _ => true
  | _ => false

theorem put_log (w : World) (r : Nat) (l : Line) : (put w r l).log = w.log ∨ (put w r l).log = w.log ++ [l] := by
  unfold put openDb; cases w.db <;> simp

theorem nolink_put {w : World} (h : w.log.any Line.isLink = false) (r : Nat) (l : Line) (hl : l.isLink = false) : (put w r l).log.any Line.isLink = false := by
  rcases put_log w r l with e | e <;> rw [e]
  · exact h
  · simp [List.any_append, h, hl]

theorem nolink_record {w : World} (h : w.log.any Line.isLink = false) (r : Nat) (n v : String) : (recordString w r n v).log.any Line.isLink = false := by
  unfold recordString
  cases w.recs[r]? with
  | none => exact h
  | some x =>
    simp only
    split
    · exact h
    · exact nolink_put h r _ rfl

theorem nolink_openRecorder {w : World} (h : w.log.any Line.isLink = false) (s t : Nat) : (openRecorder w s t).1.log.any Line.isLink = false := by
  have h1 := openDb_log w
  unfold openRecorder
  generalize openDb w = q at h1
  simp only
  split
  · simp [List.any_append, h1, h, Line.isLink]
  · simp [h1, h]

theorem nolink_openStream {w : World} (h : w.log.any Line.isLink = false) : (openStream w).1.log.any Line.isLink = false := by
  have h1 := openDb_log w
  unfold openStream
  generalize openDb w = q at h1
  simp only
  split
  · simp [List.any_append, h1, h, Line.isLink]
  · simp [h1, h]

/-- C173 fails: a transaction begun as a child of another one (and not recording itself) is recorded, but not its relation to the parent: there is no
link in the file. -/
theorem C173_child_fails (w : World) (c : Comp) (k t p : Nat) (tr : Tr) (name label : String) (h1 : tr.stream = none) (h2 : tr.recorder = none)
    (hw : w.log.any Line.isLink = false) :
    ∃ q, compBegin w c k tr name label t (some p) = some q ∧ q.1.log.any Line.isLink = false := by
  have e : beginTr w tr t = some (w, (startTr w tr (timeOf w t)).2.1, 0) := by simp [beginTr, h2, startTr, h1]
  simp only [compBegin, e, Option.bind_eq_bind, Option.bind_some]
  have hp : (pickStream w c name).1.log.any Line.isLink = false := by
    unfold pickStream getTrStream
    have := nolink_openStream hw
    generalize openStream w = q at this
    obtain ⟨v, s⟩ := q
    split
    · cases c.mainStream with
      | none => cases s <;> exact this
      | some _ => exact hw
    · cases c.streams.find? (fun p => p.1 == name) with
      | some _ => exact hw
      | none => cases s <;> exact this
  generalize pickStream w c name = q at hp
  obtain ⟨v, c1, s⟩ := q
  cases c.detail with
  | false => exact ⟨_, rfl, hw⟩
  | true =>
    simp only [if_true, openIn]
    cases s with
    | none => exact ⟨_, rfl, hp⟩
    | some s =>
      have ho := nolink_openRecorder hp s t
      simp only
      generalize openRecorder v s t = q at ho
      obtain ⟨v2, r⟩ := q
      cases r with
      | none => exact ⟨_, rfl, ho⟩
      | some r =>
        simp only [linkUp, establishLink, fromHandle, Option.bind_eq_bind, Option.bind_some]
        refine ⟨_, rfl, ?_⟩
        simp only [getHandle]
        by_cases hl : label = ""
        · simp only [hl, if_true]; exact ho
        · simp only [hl, if_false]; exact nolink_record ho r _ _

/-- C173 fails: beginning a transaction that records itself on a named stream of a component that records raises. -/
theorem C173_related_fails (w : World) (c : Comp) (k t s s0 : Nat) (tr : Tr) (name label : String) (parent : Option Nat) (hn : name ≠ "" ∧ name ≠ "main")
    (hk : c.streams.find? (fun p => p.1 == name) = some (name, s)) (hd : c.detail = true) (hdb : w.db = .opened) (h1 : tr.stream = some s0) (h2 : tr.recorder = none) :
    compBegin w c k tr name label t parent = none := by
  have hn' : ¬ (name = "" ∨ name = "main") := fun h => h.elim hn.1 hn.2
  let v : World := (openRecorder w s0 (timeOf w t)).1
  have hv : openRecorder w s0 (timeOf w t) = (v, some w.recs.length) := by simp [v, openRecorder, openDb, hdb]
  have hvd : v.db = .opened := by simp [v, openRecorder, openDb, hdb]
  have e : ∃ tr1, beginTr w tr t = some ((getHandle v w.recs.length).1, tr1, w.recs.length + 1) := by
    simp only [beginTr, h2, startTr, h1, hv]
    exact ⟨_, rfl⟩
  obtain ⟨tr1, e⟩ := e
  have hf : fromHandle (getHandle v w.recs.length).1 (w.recs.length + 1) = some w.recs.length :=
    (fromHandle_iff _ _ _).2 ⟨rfl, (mem_enter _ _ _).2 (.inl rfl)⟩
  have ho : openRecorder (getHandle v w.recs.length).1 s t = ((openRecorder (getHandle v w.recs.length).1 s t).1, some v.recs.length) := by
    simp [openRecorder, openDb, getHandle, hvd]
  simp only [compBegin, e, Option.bind_eq_bind, Option.bind_some, hf, hd, if_true, pickStream, hn', if_false, getTrStream, hk, openIn]
  rw [ho]
  simp only [linkUp]
  cases parent <;> rfl

example : ((compBegin { db := .opened, streams := 2 } { streams := [("s", 1)] } 0 { stream := some 0 } "s" "" 3 none).isNone) = true := by decide +kernel

/-! ## Transactions -/

/-- C174. The times of a transaction are those given, or the current time for 0; its hooks run before the event of the same name is triggered, in the
order of the calls. -/
theorem C174_times (w : World) (tr : Tr) (t : Nat) :
    (accept w tr t).acceptTime = (if t = 0 then w.now else t : Nat) ∧ (accept w tr t).calls = tr.calls ++ [.doAccept, .accepted] ∧
      (accept w tr t).beginTime = tr.beginTime ∧ (accept w tr t).endTime = tr.endTime := ⟨rfl, rfl, rfl, rfl⟩

theorem startTr_tr (w : World) (tr : Tr) (t : Nat) :
    (startTr w tr t).2.1.beginTime = t ∧ (startTr w tr t).2.1.calls = tr.calls ++ [.doBegin, .begun] ∧ (startTr w tr t).2.1.endTime = -1 ∧
      (startTr w tr t).2.1.acceptTime = tr.acceptTime ∧ (startTr w tr t).2.1.fields = tr.fields := by
  unfold startTr
  simp only
  split
  · simp
  · split <;> simp

theorem endTr_tr {w w' : World} {tr tr' : Tr} {t : Nat} {f : Bool} (h : endTr w tr t f = some (w', tr')) :
    tr'.endTime = (timeOf w t : Nat) ∧ tr'.recorder = none ∧ tr'.calls = tr.calls ++ [.doEnd, .ended] ∧ tr'.beginTime = tr.beginTime ∧ tr'.acceptTime = tr.acceptTime := by
  unfold endTr at h
  simp only at h
  split at h
  · simp only [Option.bind_eq_bind, Option.bind_eq_some_iff] at h
    obtain ⟨w1, _, h⟩ := h
    cases f with
    | true =>
      simp only [if_true, Option.bind_eq_some_iff] at h
      obtain ⟨w2, _, h⟩ := h
      simp only [pure, Option.some.injEq, Prod.mk.injEq] at h
      rw [← h.2]; exact ⟨rfl, rfl, rfl, rfl, rfl⟩
    | false =>
      simp [pure] at h
      rw [← h.2]; exact ⟨rfl, rfl, rfl, rfl, rfl⟩
  · simp only [Option.some.injEq, Prod.mk.injEq] at h
    rw [← h.2]; exact ⟨rfl, rfl, rfl, rfl, rfl⟩

/-- C174. Beginning a transaction sets its begin time and makes it active; if it was being recorded, it is ended first (its end hook and event come
before the begin hook and event). -/
theorem C174_begin (w w' : World) (tr tr' : Tr) (t h : Nat) (hb : beginTr w tr t = some (w', tr', h)) :
    tr'.beginTime = (if t = 0 then w.now else t : Nat) ∧ isActive tr' = true ∧ tr'.acceptTime = tr.acceptTime ∧
      tr'.calls = tr.calls ++ (if tr.recorder.isSome then [.doEnd, .ended] else []) ++ [.doBegin, .begun] := by
  unfold beginTr at hb
  simp only at hb
  cases hr : tr.recorder with
  | none =>
    rw [hr] at hb
    simp only [Option.some.injEq] at hb
    have := startTr_tr w tr (timeOf w t)
    rw [hb] at this
    simp only at this
    simp [isActive, this.1, this.2.1, this.2.2.1, this.2.2.2.1, timeOf]
  | some r =>
    rw [hr] at hb
    simp only [Option.map_eq_some_iff] at hb
    obtain ⟨⟨w1, tr1⟩, h1, h2⟩ := hb
    have e := endTr_tr h1
    have := startTr_tr w1 tr1 (timeOf w t)
    simp only at h2
    rw [h2] at this
    simp only at this
    simp [isActive, this.1, this.2.1, this.2.2.1, this.2.2.2.1, e.2.2.1, e.2.2.2.2, timeOf]

/-- C174. Ending a transaction sets its end time; if simulation time is not before zero it is not active afterwards. -/
theorem C174_end (w w' : World) (tr tr' : Tr) (t : Nat) (f : Bool) (he : endTr w tr t f = some (w', tr')) :
    tr'.endTime = (if t = 0 then w.now else t : Nat) ∧ isActive tr' = false ∧ tr'.recorder = none ∧ tr'.beginTime = tr.beginTime ∧
      tr'.calls = tr.calls ++ [.doEnd, .ended] := by
  have h := endTr_tr he
  refine ⟨h.1, ?_, h.2.1, h.2.2.2.1, h.2.2.1⟩
  unfold isActive
  rw [h.1]
  simp only [beq_eq_false_iff_ne, ne_eq]
  omega

/-- C174. A transaction that records itself and is begun while it is being recorded: the old record gets the fields, is closed at the new begin time
and freed, and a new one is opened; the handle of the new one is returned and finds it. -/
theorem C174_rebegin (w : World) (tr : Tr) (t s r : Nat) (x : Rec) (hdb : w.db = .opened) (h1 : tr.stream = some s) (h2 : tr.recorder = some r)
    (hx : w.recs[r]? = some x) (hs : x.st ≠ .freed) (ht : t ≠ 0) :
    ∃ w' tr', beginTr w tr t = some (w', tr', w.recs.length + 1) ∧
      w'.log = w.log ++ tr.fields.map (fun f => .attr r f.1 f.2) ++ [.close r t, .free r, .opn w.recs.length s t] ∧
      tr'.recorder = some w.recs.length ∧ fromHandle w' (w.recs.length + 1) = some w.recs.length := by
  have hr := recordAll_log hx hs hdb tr.fields
  have hrx : (recordAll w r tr.fields).recs[r]? = some x := by rw [hr.2.1]; exact hx
  obtain ⟨w1, hc, _, _, _, _, _, w2, hf, hlog, hd2, hlen, _, _⟩ := close_free_log (t := t) hrx hs hr.2.2.1
  have et : timeOf w t = t := by simp [timeOf, ht]
  have ht1 : ∀ v : World, timeOf v t = t := by intro v; simp [timeOf, ht]
  have he : ∃ tr1 : Tr, endTr w tr t true = some (w2, tr1) ∧ tr1.stream = some s := by
    simp only [endTr, h1, h2, et, Option.bind_eq_bind, hc, Option.bind_some, if_true, hf]
    exact ⟨_, rfl, rfl⟩
  obtain ⟨tr1, he, hs1⟩ := he
  have ho : openRecorder w2 s t = ((openRecorder w2 s t).1, some w.recs.length) := by
    simp [openRecorder, openDb, hd2, hlen, hr.2.1]
  simp only [beginTr, h2, et, he, Option.map_some, startTr, hs1]
  rw [ho]
  refine ⟨_, _, rfl, ?_, rfl, (fromHandle_iff _ _ _).2 ⟨rfl, (mem_enter _ _ _).2 (.inl rfl)⟩⟩
  simp only [getHandle, openRecorder, openDb, hd2, if_true, hlog, hr.1, ht1, hlen, hr.2.1]
  simp

example : (do
    let q ← beginTr { db := .opened, streams := 1 } { stream := some 0, fields := [("a", "1")] } 2
    let p ← beginTr q.1 q.2.1 5
    return (p.1.log, p.2.2, p.2.1.calls)) =
    some ([.opn 0 0 2, .attr 0 "a" "1", .close 0 5, .free 0, .opn 1 0 5], 2, [.doBegin, .begun, .doEnd, .ended, .doBegin, .begun]) := by decide +kernel

/-- C175 fails: a transaction that was never begun is reported as active. -/
theorem C175_never_begun_fails (fs : List (String × String)) : isActive { fields := fs } = true := rfl

/-- C175, part: between being begun and being ended, and not afterwards, a transaction is active.  Missing: before it is begun
(`C175_never_begun_fails`). -/
theorem C175_active_partial (w w1 w2 w3 : World) (tr tr1 tr2 : Tr) (t t2 h : Nat) (f : Bool) (hb : beginTr w tr t = some (w1, tr1, h))
    (he : endTr w2 tr1 t2 f = some (w3, tr2)) : isActive tr1 = true ∧ isActive tr2 = false :=
  ⟨(C174_begin _ _ _ _ _ _ hb).2.1, (C174_end _ _ _ _ _ _ he).2.1⟩

end Verif.Recording
