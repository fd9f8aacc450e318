import Verif.Model.EventRec
import Verif.Props.Recording
/-! # Properties C303 (errors and events are recorded), C304 (the streams they are recorded on) -/
namespace Verif.Recording

/-- What the file says about one event: recorder `r` is opened and closed at the same time, with a label, a description and the data. -/
def eventLines (r s t : Nat) (label desc : String) (info : List (String × String)) (keep : Bool) : List Line :=
  [.opn r s t] ++ (if label = "" then [] else [.attr r "label" label]) ++ (if desc = "" then [] else [.attr r "desc" desc]) ++
    info.map (fun f => .attr r f.1 f.2) ++ [.close r t] ++ (if keep then [] else [.free r])

theorem recordAll_reg {w : World} {r : Nat} (fs : List (String × String)) (h : r ∈ w.reg) : r ∈ (recordAll w r fs).reg := by
  unfold recordAll
  induction fs generalizing w with
  | nil => exact h
  | cons f fs ih =>
    rw [List.foldl_cons]
    apply ih
    unfold recordString
    split
    · exact h
    · split
      · exact h
      · exact put_reg_mono _ _ _ h

theorem recordText_eq (w : World) (r : Nat) (name text : String) :
    recordText w r name text = recordAll w r (if text = "" then [] else [(name, text)]) := by
  unfold recordText
  split <;> simp [recordAll]

theorem recordAll_append (w : World) (r : Nat) (a b : List (String × String)) : recordAll (recordAll w r a) r b = recordAll w r (a ++ b) := by
  simp [recordAll]

theorem writeEvent_spec {w : World} (hdb : w.db ≠ .closed) (s t : Nat) (label desc : String) (info : List (String × String)) (keep : Bool) :
    ∃ w', writeEvent w s label desc t info keep = some (w', if keep then w.recs.length + 1 else 0) ∧
      w'.log = w.log ++ eventLines w.recs.length s (timeOf w t) label desc info keep ∧
      (keep = true → fromHandle w' (w.recs.length + 1) = some w.recs.length) ∧
      (keep = false → fromHandle w' (w.recs.length + 1) = none) ∧ w'.db = .opened ∧ w'.recs.length = w.recs.length + 1 := by
  let v : World := { w with db := .opened, recs := w.recs ++ [{ stream := s, openTime := timeOf w t }], reg := enter w.recs.length w.reg, log := w.log ++ [.opn w.recs.length s (timeOf w t)] }
  have hv : openRecorder w s t = (v, some w.recs.length) := by
    cases hd : w.db with
    | closed => exact absurd hd hdb
    | fresh => simp [openRecorder, openDb, hd, v]
    | opened => simp [openRecorder, openDb, hd, v]
  have hvx : v.recs[w.recs.length]? = some { stream := s, openTime := timeOf w t } := by simp [v]
  let fs := (if label = "" then [] else [("label", label)]) ++ (if desc = "" then [] else [("desc", desc)]) ++ info
  have hr := recordAll_log hvx (by simp) (show v.db = .opened from rfl) fs
  have hrx : (recordAll v w.recs.length fs).recs[w.recs.length]? = some { stream := s, openTime := timeOf w t } := by rw [hr.2.1]; exact hvx
  have hreg : w.recs.length ∈ (recordAll v w.recs.length fs).reg := recordAll_reg fs (by simp [v, mem_enter])
  have ht : timeOf (recordAll v w.recs.length fs) t = timeOf w t := by rw [timeOf, hr.2.2.2]; rfl
  obtain ⟨w1, hc, hlog1, hdb1, hl1, _, _, w2, hf, hlog2, hdb2, hl2, _⟩ := close_free_log (t := t) hrx (by simp) hr.2.2.1
  have hvl : v.recs.length = w.recs.length + 1 := by simp [v]
  have hlines : (recordAll v w.recs.length fs).log = w.log ++ ([.opn w.recs.length s (timeOf w t)] ++ (if label = "" then [] else [.attr w.recs.length "label" label]) ++
      (if desc = "" then [] else [.attr w.recs.length "desc" desc]) ++ info.map (fun f => .attr w.recs.length f.1 f.2)) := by
    rw [hr.1]
    simp only [fs, v, List.map_append]
    by_cases h1 : label = "" <;> by_cases h2 : desc = "" <;> simp [h1, h2]
  have hw : writeEvent w s label desc t info keep = (do
      let w ← close (recordAll v w.recs.length fs) w.recs.length t
      if keep then return ((getHandle w v.recs.length.pred).1, (getHandle w v.recs.length.pred).2)
      else
        let w ← free w v.recs.length.pred 0
        return (w, 0)) := by
    simp only [writeEvent, hv, recordText_eq, recordAll_append, fs, hvl, Nat.pred_succ]
  rw [hw, hc]
  simp only [Option.bind_eq_bind, Option.bind_some, hvl, Nat.pred_succ]
  cases keep with
  | true =>
    refine ⟨{ w1 with reg := enter w.recs.length w1.reg }, rfl, ?_, fun _ => ?_, by simp, hdb1, ?_⟩
    · show w1.log = _
      rw [hlog1, hlines, ht]; simp [eventLines]
    · rw [fromHandle_iff]
      exact ⟨rfl, by simp [mem_enter]⟩
    · show w1.recs.length = _
      rw [hl1, hr.2.1, hvl]
  | false =>
    refine ⟨w2, by rw [hf]; rfl, ?_, by simp, fun _ => ?_, hdb2, by rw [hl2, hr.2.1, hvl]⟩
    · rw [hlog2, hlines, ht]; simp [eventLines]
    · -- freeing removes the handle
      have hcl := close_st hc
      have hlt : w.recs.length < w1.recs.length := by rw [hl1, hr.2.1, hvl]; omega
      have hx : w1.recs[w.recs.length]? = some w1.recs[w.recs.length] := List.getElem?_eq_getElem hlt
      have hst := hcl _ hx
      simp only [free, hx, hst, Option.some.injEq] at hf
      rw [← hf]
      simp only [release, hx, fromHandle, Nat.add_one_ne_zero, if_false, Nat.add_sub_cancel]
      simp [setRec]

theorem openStream_ok {w : World} (h : w.db ≠ .closed) :
    openStream w = ({ w with db := .opened, streams := w.streams + 1, log := w.log ++ [.stream w.streams] }, some w.streams) := by
  cases hd : w.db with
  | closed => exact absurd hd h
  | fresh => simp [openStream, openDb, hd]
  | opened => simp [openStream, openDb, hd]

/-- C303: while the database can be written, an error or event is recorded completely: a new recorder is opened and closed at the time given (now, for 0), with
the label, the description and the data of the object, in this order; it is freed unless it is to be kept. -/
theorem C303_recorded (w : World) (c : Comp) (s : Nat) (name label desc : String) (t : Nat) (info : List (String × String)) (keep : Bool)
    (hdb : w.db ≠ .closed)
    (hs : (name ≠ "" ∧ name ≠ "main" ∧ c.streams.find? (fun p => p.1 == name) = some (name, s)) ∨ ((name = "" ∨ name = "main") ∧ c.mainStream = some s)) :
    ∃ w' h, recordEvent w c name label desc t info keep = some (w', c, h) ∧
      w'.log = w.log ++ eventLines w.recs.length s (if t = 0 then w.now else t) label desc info keep := by
  have he : eventStream w c name = (w, c, some s) := by
    rcases hs with ⟨h1, h2, h3⟩ | ⟨h1, h2⟩
    · simp [eventStream, h1, h2, getTrStream, h3]
    · simp [eventStream, h1, h2]
  obtain ⟨w', hw, hl, _⟩ := writeEvent_spec hdb s (timeOf w t) label desc info keep
  refine ⟨w', _, by simp only [recordEvent, he, hw]; rfl, ?_⟩
  rw [hl]
  have : timeOf w (timeOf w t) = if t = 0 then w.now else t := by
    unfold timeOf
    by_cases h : t = 0
    · simp [h]
    · simp [h]
  rw [this]

/-- C303: the handle returned finds the recorder of the event if it is kept; otherwise 0 is returned and the recorder is not found any more. -/
theorem C303_handle (w w' : World) (c c' : Comp) (name label desc : String) (t h : Nat) (info : List (String × String)) (keep : Bool)
    (hdb : w.db ≠ .closed) (hr : recordEvent w c name label desc t info keep = some (w', c', h)) :
    (keep = true → h ≠ 0 ∧ fromHandle w' h = some w.recs.length) ∧ (keep = false → h = 0 ∧ fromHandle w' (w.recs.length + 1) = none) := by
  have key : ∃ w1 s, w1.db ≠ .closed ∧ w1.recs = w.recs ∧ ∃ c1, eventStream w c name = (w1, c1, some s) := by
    have ho : ∃ w1 s, openStream w = (w1, some s) ∧ w1.db ≠ .closed ∧ w1.recs = w.recs :=
      ⟨_, _, openStream_ok hdb, by simp, rfl⟩
    obtain ⟨w1, s, ho1, ho2, ho3⟩ := ho
    unfold eventStream
    split
    · cases c.mainStream with
      | some s' => exact ⟨w, s', hdb, rfl, c, rfl⟩
      | none => exact ⟨w1, s, ho2, ho3, _, by rw [ho1]⟩
    · unfold getTrStream
      cases c.streams.find? (fun p => p.1 == name) with
      | some p => exact ⟨w, p.2, hdb, rfl, c, rfl⟩
      | none => exact ⟨w1, s, ho2, ho3, _, by rw [ho1]⟩
  obtain ⟨w1, s, h1, h2, c1, he⟩ := key
  obtain ⟨w2, hw, _, hk1, hk2, _⟩ := writeEvent_spec h1 s (timeOf w t) label desc info keep
  simp only [recordEvent, he, hw, Option.map_some, Option.some.injEq, Prod.mk.injEq] at hr
  obtain ⟨rfl, _, rfl⟩ := hr
  rw [← h2]
  constructor
  · intro hk; simp only [hk, if_true]; exact ⟨by omega, hk1 hk⟩
  · intro hk; simp only [hk]; exact ⟨by simp, hk2 hk⟩

example : ((recordEvent { now := 5 } {} "main" "boom" "" 0 [("addr", "12")] false).bind fun q => (recordEvent q.1 q.2.1 "" "again" "d" 7 [] true).map
    fun z => (q.2.2, z.2.2, z.1.log)) =
    some (0, 2, [.stream 0, .opn 0 0 5, .attr 0 "label" "boom", .attr 0 "addr" "12", .close 0 5, .free 0,
      .opn 1 0 7, .attr 1 "label" "again", .attr 1 "desc" "d", .close 1 7]) := by decide +kernel

/-- C303: recording an event does not touch what the file says about earlier recorders: nothing is removed and no line about them is added. -/
theorem C303_others (w w' : World) (c c' : Comp) (name label desc : String) (t h : Nat) (info : List (String × String)) (keep : Bool)
    (hdb : w.db ≠ .closed) (hr : recordEvent w c name label desc t info keep = some (w', c', h)) (r : Nat) (hlt : r < w.recs.length) :
    linesOf r w'.log = linesOf r w.log := by
  have key : ∃ w1 s, w1.db ≠ .closed ∧ w1.recs = w.recs ∧ (w1.log = w.log ∨ ∃ k, w1.log = w.log ++ [.stream k]) ∧ ∃ c1, eventStream w c name = (w1, c1, some s) := by
    have ho : ∃ w1 s, openStream w = (w1, some s) ∧ w1.db ≠ .closed ∧ w1.recs = w.recs ∧ w1.log = w.log ++ [.stream w.streams] :=
      ⟨_, _, openStream_ok hdb, by simp, rfl, rfl⟩
    obtain ⟨w1, s, ho1, ho2, ho3, ho4⟩ := ho
    unfold eventStream
    split
    · cases c.mainStream with
      | some s' => exact ⟨w, s', hdb, rfl, Or.inl rfl, c, rfl⟩
      | none => exact ⟨w1, s, ho2, ho3, Or.inr ⟨_, ho4⟩, _, by rw [ho1]⟩
    · unfold getTrStream
      cases c.streams.find? (fun p => p.1 == name) with
      | some p => exact ⟨w, p.2, hdb, rfl, Or.inl rfl, c, rfl⟩
      | none => exact ⟨w1, s, ho2, ho3, Or.inr ⟨_, ho4⟩, _, by rw [ho1]⟩
  obtain ⟨w1, s, h1, h2, h3, c1, he⟩ := key
  obtain ⟨w2, hw, hl, _⟩ := writeEvent_spec h1 s (timeOf w t) label desc info keep
  simp only [recordEvent, he, hw, Option.map_some, Option.some.injEq, Prod.mk.injEq] at hr
  obtain ⟨rfl, _, rfl⟩ := hr
  have hne : w1.recs.length ≠ r := by rw [h2]; omega
  have hev : ∀ l ∈ eventLines w1.recs.length s (timeOf w1 (timeOf w t)) label desc info keep, l.about = some w1.recs.length := by
    intro l hl
    simp only [eventLines, List.mem_append, List.mem_map] at hl
    rcases hl with ((((hl | hl) | hl) | ⟨f, _, rfl⟩) | hl) | hl
    · simp only [List.mem_singleton] at hl; subst hl; rfl
    · split at hl
      · simp at hl
      · simp only [List.mem_singleton] at hl; subst hl; rfl
    · split at hl
      · simp at hl
      · simp only [List.mem_singleton] at hl; subst hl; rfl
    · rfl
    · simp only [List.mem_singleton] at hl; subst hl; rfl
    · split at hl
      · simp at hl
      · simp only [List.mem_singleton] at hl; subst hl; rfl
  have hnil : linesOf r (eventLines w1.recs.length s (timeOf w1 (timeOf w t)) label desc info keep) = [] := by
    unfold linesOf
    rw [List.filter_eq_nil_iff]
    intro l hl
    rw [hev l hl]
    simpa using hne
  rw [hl, linesOf_append, hnil, List.append_nil]
  rcases h3 with h3 | ⟨k, h3⟩
  · rw [h3]
  · rw [h3, linesOf_append, linesOf_other (by simp [Line.about]), List.append_nil]

/-! ## C304 -/

/-- C304: however many events are recorded, and whatever names are given, each name always leads to the same stream, and "" is the main stream. -/
theorem C304_same_stream (w w' : World) (c c' : Comp) (name : String) (s : Nat) (h : eventStream w c name = (w', c', some s)) (w2 : World) :
    eventStream w2 c' name = (w2, c', some s) ∧ ((name = "" ∨ name = "main") → ∀ n, n = "" ∨ n = "main" → eventStream w2 c' n = (w2, c', some s)) := by
  unfold eventStream at h
  split at h
  · rename_i hn
    have hm : c'.mainStream = some s := by
      cases hc : c.mainStream with
      | some s' =>
        rw [hc] at h
        simp only [Prod.mk.injEq, Option.some.injEq] at h
        obtain ⟨_, rfl, rfl⟩ := h
        exact hc
      | none =>
        rw [hc] at h
        simp only at h
        split at h
        · simp only [Prod.mk.injEq, Option.some.injEq] at h
          obtain ⟨_, rfl, rfl⟩ := h
          rfl
        · simp at h
    have hall : ∀ n, n = "" ∨ n = "main" → eventStream w2 c' n = (w2, c', some s) := by
      intro n hn'
      simp [eventStream, hn', hm]
    exact ⟨hall name hn, fun _ => hall⟩
  · rename_i hn
    refine ⟨?_, fun hn' => absurd hn' hn⟩
    have hf : c'.streams.find? (fun p => p.1 == name) = some (name, s) := by
      unfold getTrStream at h
      cases hc : c.streams.find? (fun p => p.1 == name) with
      | some p =>
        rw [hc] at h
        simp only [Prod.mk.injEq, Option.some.injEq] at h
        obtain ⟨_, rfl, rfl⟩ := h
        rw [hc]
        have := List.find?_some hc
        simp only [beq_iff_eq] at this
        rw [← this]
      | none =>
        rw [hc] at h
        simp only at h
        split at h
        · simp only [Prod.mk.injEq, Option.some.injEq] at h
          obtain ⟨_, rfl, rfl⟩ := h
          simp [List.find?_append, hc]
        · simp at h
    simp [eventStream, hn, getTrStream, hf]

example : (eventStream {} {} "x").2.2 = some 0 ∧ (eventStream {} {} "x").2.1.streams = [("x", 0)] := by decide +kernel

/-- C304 fails: recording an event on the main stream first keeps every later transaction on the main stream from being recorded (and after the first
transaction on the main stream events are still recorded, but no other transaction). -/
theorem C304_silences_transactions_fails (w w' w2 : World) (c c' : Comp) (name label desc : String) (t h k t2 : Nat) (info : List (String × String)) (keep : Bool)
    (hn : name = "" ∨ name = "main") (hdb : w.db ≠ .closed) (hr : recordEvent w c name label desc t info keep = some (w', c', h)) (tr : Tr) (lab : String)
    (parent : Option Nat) (h1 : tr.stream = none) (h2 : tr.recorder = none) :
    ∃ tr', compBegin w2 c' k tr name lab t2 parent = some (w2, c', tr', 0) := by
  have hm : ∃ s, c'.mainStream = some s := by
    unfold recordEvent eventStream at hr
    simp only [hn, if_true] at hr
    cases hc : c.mainStream with
    | some s =>
      rw [hc] at hr
      simp only [Option.map_eq_some_iff, Prod.mk.injEq] at hr
      obtain ⟨_, _, _, rfl, _⟩ := hr
      exact ⟨s, hc⟩
    | none =>
      rw [hc] at hr
      have : ∃ w1 s, openStream w = (w1, some s) := ⟨_, _, openStream_ok hdb⟩
      obtain ⟨w1, s, ho⟩ := this
      rw [ho] at hr
      simp only [Option.map_eq_some_iff, Prod.mk.injEq] at hr
      obtain ⟨_, _, _, rfl, _⟩ := hr
      exact ⟨s, rfl⟩
  obtain ⟨s, hs⟩ := hm
  exact C172_main_fails w2 c' s k t2 tr lab parent name hn hs h1 h2

/-- C304 (partial): after the database was closed nothing is recorded: an event on a stream that was open before returns 0 and writes nothing.
(`uvm_tr_database.open_db` cannot open it again, see C171.) -/
theorem C304_closed_partial (w : World) (c : Comp) (name label desc : String) (t : Nat) (info : List (String × String)) (keep : Bool) (hdb : w.db = .closed) :
    recordEvent w c name label desc t info keep = some (w, c, 0) := by
  have ho : openStream w = (w, none) := by simp [openStream, openDb, hdb]
  have hr : ∀ s t, openRecorder w s t = (w, none) := by intro s t; simp [openRecorder, openDb, hdb]
  have he : ∃ o, eventStream w c name = (w, c, o) := by
    unfold eventStream getTrStream
    rw [ho]
    split
    · cases c.mainStream with
      | none => exact ⟨_, rfl⟩
      | some s => exact ⟨_, rfl⟩
    · cases c.streams.find? (fun p => p.1 == name) with
      | none => exact ⟨_, rfl⟩
      | some s => exact ⟨_, rfl⟩
  obtain ⟨o, he⟩ := he
  cases o with
  | none => simp [recordEvent, he]
  | some s => simp [recordEvent, he, writeEvent, hr]

end Verif.Recording
