import Verif.Lemmas.Report
/-! # C37-C40: report settings, overrides, counts and catchers -/
namespace Verif.Report

/-! ## C37 -/

/-- C37. After every history of settings the action for a severity and an id is the last one set for the pair, else the
last one set for the id, else the last one set for the severity, else the default of the severity. -/
theorem C37_action (ops : List HOp) (s : Sev) (i : String) : getAction (settings ops) s i = specAction ops s i :=
  getAction_eq ops s i

/-- C37. The same for verbosities, with the handler's overall level last. -/
theorem C37_verbosity (ops : List HOp) (s : Sev) (i : String) : getVerbosity (settings ops) s i = specVerb ops s i :=
  getVerbosity_eq ops s i

/-- C102. The file is the first of pair, id and severity setting that is not 0, else the default file. -/
theorem C102_file_first_nonzero (ops : List HOp) (s : Sev) (i : String) :
    getFile (settings ops) s i = firstNonZero ops s i := getFile_eq ops s i

/-- C102 fails for files: file 0 set for a pair does not win over a file set for the id. -/
theorem C102_file_fails : ∃ ops s i, getFile (settings ops) s i ≠ specFile ops s i :=
  ⟨[.setIdFile "A" 5, .setSevIdFile .info "A" 0], .info, "A", by decide⟩

/-- C102 for files, as long as file 0 is never set for an id or a pair: pair, else id, else severity, else default. -/
theorem C102_file_partial (ops : List HOp) (s : Sev) (i : String)
    (h1 : ∀ s' i', HOp.setSevIdFile s' i' 0 ∉ ops) (h2 : ∀ i', HOp.setIdFile i' 0 ∉ ops) :
    getFile (settings ops) s i = specFile ops s i := by
  rw [getFile_eq]
  have e1 : (lastOf (pairFile s i) ops).filter (· ≠ 0) = lastOf (pairFile s i) ops := by
    cases h : lastOf (pairFile s i) ops with
    | none => rfl
    | some f =>
      have hm := List.mem_of_getLast? h
      rw [List.mem_filterMap] at hm
      obtain ⟨o, ho, hf⟩ := hm
      cases o <;> simp [pairFile] at hf
      rename_i s' i' f'
      have : f ≠ 0 := by rintro rfl; rw [hf.2] at ho; exact h1 _ _ ho
      simp [Option.filter, this]
  have e2 : (lastOf (idFile i) ops).filter (· ≠ 0) = lastOf (idFile i) ops := by
    cases h : lastOf (idFile i) ops with
    | none => rfl
    | some f =>
      have hm := List.mem_of_getLast? h
      rw [List.mem_filterMap] at hm
      obtain ⟨o, ho, hf⟩ := hm
      cases o <;> simp [idFile] at hf
      rename_i i' f'
      have : f ≠ 0 := by rintro rfl; rw [hf.2] at ho; exact h2 _ ho
      simp [Option.filter, this]
  unfold firstNonZero specFile
  rw [e1, e2]

example : getFile (settings [.setDefaultFile 9, .setSevFile .error 4, .setIdFile "A" 5, .setSevIdFile .info "A" 6]) .info
    "A" = 6 ∧
    getFile (settings [.setDefaultFile 9, .setSevFile .error 4, .setIdFile "A" 5]) .error "B" = 4 ∧
    getFile (settings [.setDefaultFile 9, .setSevFile .error 4, .setIdFile "A" 5]) .info "B" = 9 := by decide

example : specAction [.setSevAction .info 2, .setIdAction "A" 4, .setSevIdAction .info "A" 3, .setIdAction "A" 6] .info "A" = 3
    ∧ specAction [.setSevAction .info 2, .setIdAction "A" 4, .setIdAction "A" 6] .info "A" = 6
    ∧ specAction [.setSevAction .info 2, .reset] .info "A" = 1 := by decide

/-- C37. A report whose verbosity is above the level for its severity and id has no effect at all; any other report is
processed. -/
theorem C37_filter (w : World) (ops : List HOp) (q : List Entry) (s : Sev) (i t : String) (v : Int) :
    (specVerb ops s i < v → report w (settings ops) q s i t v = ⟨w, [], none⟩) ∧
    (v ≤ specVerb ops s i → report w (settings ops) q s i t v =
      process w (settings ops) q (handlerProcess (settings ops) ⟨s, i, t, v, 0, 0⟩)) := by
  unfold report
  rw [getVerbosity_eq]
  refine ⟨fun h => ?_, fun h => ?_⟩
  · rw [if_neg (by omega)]
  · rw [if_pos h]

example : specVerb [.setVerbosityLevel 100, .setIdVerbosity "A" 300] .info "A" = 300 ∧
    specVerb [.setVerbosityLevel 100, .setIdVerbosity "A" 300] .info "B" = 100 := by decide

/-- C37. End to end: a report that passes the verbosity check, with no catchers, nothing overriding its severity and no
recording, does exactly what its action says: with action 0 nothing; otherwise it is executed once, displayed once if the
action has DISPLAY (bit 0), and written once to the file of its severity and id if the action has LOG (bit 1; the handle
0x80000001 of the standard output is skipped). -/
theorem C37_report_effects (w : World) (ops : List HOp) (s : Sev) (i t : String) (v : Int)
    (hv : v ≤ specVerb ops s i) (ho : specOverride ops s i = s) (hc : w.srv.recordAll = false) (hs : w.srv.showVerb = false)
    (hrec : (specAction ops s i).testBit 6 = false) :
    ∃ m : Msg, m = ⟨s, i, t, v, specAction ops s i, firstNonZero ops s i⟩ ∧
    (report w (settings ops) [] s i t v).fx =
      if specAction ops s i = 0 then []
      else [.exec m] ++ (if (specAction ops s i).testBit 0 then [.display m] else []) ++
        (if (specAction ops s i).testBit 1 ∧ firstNonZero ops s i ≠ 0x80000001 then [.log (firstNonZero ops s i) m] else []) := by
  refine ⟨_, rfl, ?_⟩
  rw [(C37_filter w ops [] s i t v).2 hv]
  have hm : handlerProcess (settings ops) ⟨s, i, t, v, 0, 0⟩ = ⟨s, i, t, v, specAction ops s i, firstNonZero ops s i⟩ := by
    unfold handlerProcess
    rw [override_eq, getAction_eq, getFile_eq]
    simp [ho]
  rw [hm]
  have hp : (process w (settings ops) [] ⟨s, i, t, v, specAction ops s i, firstNonZero ops s i⟩).fx =
      (emit w.srv ⟨s, i, t, v, specAction ops s i, firstNonZero ops s i⟩).fx := by
    unfold process
    split
    · rfl
    · simp [fromFirst, chain]
  rw [hp]
  unfold emit
  by_cases h0 : specAction ops s i = 0
  · simp [h0, NO_ACTION]
  · rw [if_neg (show ¬ _ = NO_ACTION from h0), if_neg h0]
    have he : (execute w.srv ⟨s, i, t, v, specAction ops s i, firstNonZero ops s i⟩).fx =
        .exec ⟨s, i, t, v, specAction ops s i, firstNonZero ops s i⟩ ::
          printed (specAction ops s i) ⟨s, i, t, v, specAction ops s i, firstNonZero ops s i⟩ :=
      execute_printed _ _ hc hrec
    simp only [compose, hs, Bool.and_false, Bool.false_eq_true, if_false, he, printed]
    rw [show has (specAction ops s i) DISPLAY = (specAction ops s i).testBit 0 from has_pow _ 0,
      show has (specAction ops s i) LOG = (specAction ops s i).testBit 1 from has_pow _ 1]
    simp

example : (report newWorld (settings [.setIdAction "A" 3, .setIdFile "A" 7]) [] .info "A" "x" 100).fx =
    [.exec ⟨.info, "A", "x", 100, 3, 7⟩, .display ⟨.info, "A", "x", 100, 3, 7⟩, .log 7 ⟨.info, "A", "x", 100, 3, 7⟩] := by decide

/-! ## C38 -/

/-- C38. What the server gets: the severity is replaced once, by the last severity-id override for that severity and id,
or, if the id has no severity-id override, by the last override for the severity; action and file are those of the new
severity; the rest of the message is unchanged. -/
theorem C38_override (ops : List HOp) (m : Msg) :
    handlerProcess (settings ops) m =
      { m with
        sev := specOverride ops m.sev m.id
        action := specAction ops (specOverride ops m.sev m.id) m.id
        file := firstNonZero ops (specOverride ops m.sev m.id) m.id } := by
  unfold handlerProcess
  rw [override_eq, getAction_eq, getFile_eq]

/-- C38. An override is not chained: with error to warning and warning to info, an error becomes a warning. -/
theorem C38_not_chained (a b c : Sev) (hab : a ≠ b) (hbc : b ≠ c) (i t : String) (v : Int) :
    (handlerProcess (settings [.setSevOverride a b, .setSevOverride b c]) ⟨a, i, t, v, 0, 0⟩).sev = b := by
  rw [C38_override]
  simp [specOverride, isIdOvr, lastOf, sevOvr, hab.symm]

/-- C38. A severity-id override leaves messages with other ids alone. -/
theorem C38_other_ids (ops : List HOp) (s t : Sev) (i j : String) (h : i ≠ j) (m : Msg) (hm : m.id = j) :
    handlerProcess (settings (ops ++ [.setSevIdOverride s i t])) m = handlerProcess (settings ops) m := by
  rw [C38_override, C38_override]
  have e1 : ∀ v, specOverride (ops ++ [.setSevIdOverride s i t]) v m.id = specOverride ops v m.id := by
    intro v
    unfold specOverride
    rw [List.any_append, lastOf_snoc, lastOf_snoc]
    simp [isIdOvr, pairOvr, sevOvr, hm, h]
  have e2 : ∀ v, specAction (ops ++ [.setSevIdOverride s i t]) v m.id = specAction ops v m.id := by
    intro v; simp [specAction, lastOf_snoc, pairAction, idAction, sevAction]
  have e3 : ∀ v, firstNonZero (ops ++ [.setSevIdOverride s i t]) v m.id = firstNonZero ops v m.id := by
    intro v; simp [firstNonZero, lastOf_snoc, pairFile, idFile, sevFile, dflFile]
  rw [e1, e2, e3]

example : specOverride [.setSevOverride .error .warning, .setSevIdOverride .error "A" .info] .error "A" = .info ∧
    specOverride [.setSevOverride .error .warning, .setSevIdOverride .error "A" .info] .error "B" = .warning ∧
    specOverride [.setSevOverride .error .warning, .setSevIdOverride .fatal "A" .info] .error "A" = .error := by decide

/-! ## C39 -/

/-- The calls of a history with their effects. -/
def log (w : World) (ops : List Op) : List (Op × (List Fx × Option Exc)) := ops.zip (run step w ops).2

theorem log_cons (w : World) (o : Op) (ops : List Op) : log w (o :: ops) = (o, (step w o).2) :: log (step w o).1 ops := rfl

/-- C39. After every history of server calls and reports (any handlers, any catchers) the count of a severity is what the
calls and the executed messages add up to. -/
theorem C39_severity_counts (w : World) (ops : List Op) (s : Sev) :
    (runS step w ops).srv.sevCount s = (log w ops).foldl (sevTally s) (w.srv.sevCount s) := by
  induction ops generalizing w with
  | nil => rfl
  | cons o ops ih =>
    rw [runS_cons, ih, log_cons, List.foldl_cons]
    congr 1
    cases o with
    | report h q v i t k => exact (report_tally w h q v i t k).sev s
    | setSevCount v k =>
      simp only [step, serverOp, sevTally, upd]
      by_cases h : s = v
      · simp [h]
      · simp [h, Ne.symm h]
    | setMaxQuit n b =>
      simp only [step, serverOp, sevTally]
      split <;> simp [executed]
    | _ => simp [step, serverOp, sevTally, executed]

/-- C39. The same for ids. -/
theorem C39_id_counts (w : World) (ops : List Op) (i : String) :
    (runS step w ops).srv.idCount i = (log w ops).foldl (idTally i) (w.srv.idCount i) := by
  induction ops generalizing w with
  | nil => rfl
  | cons o ops ih =>
    rw [runS_cons, ih, log_cons, List.foldl_cons]
    congr 1
    cases o with
    | report h q v j t k => exact (report_tally w h q v j t k).id i
    | setIdCount v k =>
      simp only [step, serverOp, idTally, upd]
      by_cases h : i = v
      · simp [h]
      · simp [h, Ne.symm h]
    | setMaxQuit n b =>
      simp only [step, serverOp, idTally]
      split <;> simp [executed]
    | _ => simp [step, serverOp, idTally, executed]

/-- C39. In particular, after reports only, a fresh server's count for a severity (an id) is the number of messages
executed with it. -/
theorem C39_counts_of_reports (ops : List Op) (s : Sev) (i : String)
    (hr : ∀ o ∈ ops, ∃ h q v j t k, o = .report h q v j t k) :
    (runS step newWorld ops).srv.sevCount s =
      (executed ((run step newWorld ops).2.flatMap (·.1))).countP (·.sev = s) ∧
    (runS step newWorld ops).srv.idCount i =
      (executed ((run step newWorld ops).2.flatMap (·.1))).countP (·.id = i) := by
  suffices H : ∀ (w : World),
      (runS step w ops).srv.sevCount s = w.srv.sevCount s + (executed ((run step w ops).2.flatMap (·.1))).countP (·.sev = s) ∧
      (runS step w ops).srv.idCount i = w.srv.idCount i + (executed ((run step w ops).2.flatMap (·.1))).countP (·.id = i) by
    have := H newWorld
    simpa [newWorld, newServer] using this
  induction ops with
  | nil => intro w; exact ⟨rfl, rfl⟩
  | cons o ops ih =>
    intro w
    obtain ⟨h, q, v, j, t, k, rfl⟩ := hr _ (List.mem_cons_self ..)
    have ih' := ih (fun o ho => hr o (by simp [ho])) (step w (.report h q v j t k)).1
    have ht := report_tally w h q v j t k
    rw [runS_cons]
    show _ = _ + List.countP _ (executed ((report w h q v j t k).fx ++ _)) ∧
      _ = _ + List.countP _ (executed ((report w h q v j t k).fx ++ _))
    rw [ih'.1, ih'.2, executed_append, List.countP_append, List.countP_append]
    show (report w h q v j t k).world.srv.sevCount s + _ = _ ∧ (report w h q v j t k).world.srv.idCount i + _ = _
    rw [ht.sev, ht.id]
    exact ⟨Nat.add_assoc .., Nat.add_assoc ..⟩

/-- Executing messages one after the other. -/
def executeAll (s : Server) (ms : List Msg) : Server := ms.foldl (fun s m => (execute s m).srv) s

theorem executeAll_tally (s : Server) (ms : List Msg) : Tally s (executeAll s ms) ms := by
  induction ms generalizing s with
  | nil => exact Tally.refl s
  | cons m ms ih =>
    have := (execute_tally s m).trans (ih (execute s m).srv)
    rw [execute_fx] at this
    exact this

/-- When executing a message ends the simulation. -/
theorem execute_finish (s : Server) (m : Msg) (hr : s.recordAll = false) (hm : records m = false) :
    (execute s m).exc = some .finish ↔
      exits m = true ∨ (counted m = true ∧ s.maxQuit ≠ 0 ∧ s.maxQuit ≤ s.quit + 1) := by
  have e : execAction s m = m.action := by simp [execAction, hr]
  have h1 : has m.action RM_RECORD = false := by rw [has_record]; exact hm
  have hq : quitReached s m.action = true ↔ (counted m = true ∧ s.maxQuit ≠ 0 ∧ s.maxQuit ≤ s.quit + 1) := by
    unfold quitReached countQuit counted
    rw [has_count]
    cases hc : m.action.testBit 2
    · simp
    · by_cases h0 : s.maxQuit = 0 <;> simp [h0]
  unfold execute
  rw [e, h1, if_neg (by simp)]
  cases hx : has m.action EXIT with
  | true =>
    rw [has_exit] at hx
    simp [exits, hx]
  | false =>
    rw [has_exit] at hx
    cases hqq : quitReached s m.action with
    | true => rw [hqq] at hq; simpa [exits, hx] using hq
    | false =>
      rw [hqq] at hq
      have : ¬ (counted m = true ∧ s.maxQuit ≠ 0 ∧ s.maxQuit ≤ s.quit + 1) := fun h => by simpa using hq.2 h
      simp only [exits, hx, Bool.or_false, Bool.false_eq_true, if_false, false_or, iff_false, this]
      split <;> simp [this]

/-- C39. With a positive maximum quit count, executing a message after any messages ends the simulation exactly when its
action says so or it is a counted message and the counted messages, including it, are at least the maximum. -/
theorem C39_quit_count (n : Nat) (hn : 0 < n) (o : Bool) (ms : List Msg) (m : Msg)
    (hr : ∀ x ∈ ms ++ [m], records x = false) :
    (execute (executeAll (serverOp newServer (.setMaxQuit n o)) ms) m).exc = some .finish ↔
      exits m = true ∨ (counted m = true ∧ n ≤ (ms ++ [m]).countP counted) := by
  have ht := executeAll_tally (serverOp newServer (.setMaxQuit n o)) ms
  have h1 : (serverOp newServer (.setMaxQuit n o)).maxQuit = n := by simp [serverOp, newServer]
  have h2 : (serverOp newServer (.setMaxQuit n o)).recordAll = false := by simp [serverOp, newServer]
  have h3 : (serverOp newServer (.setMaxQuit n o)).quit = 0 := by simp [serverOp, newServer]
  rw [execute_finish _ _ (ht.rec_.trans h2) (hr m (by simp)), ht.maxQuit, h1,
    ht.quit (by omega) h2 (fun x hx => hr x (by simp [hx])), h3, List.countP_append, List.countP_singleton]
  constructor
  · rintro (h | ⟨h, _, h'⟩)
    · exact .inl h
    · exact .inr ⟨h, by simp [h]; omega⟩
  · rintro (h | ⟨h, h'⟩)
    · exact .inl h
    · simp [h] at h'; exact .inr ⟨h, by omega, by omega⟩

example : (execute (executeAll (serverOp newServer (.setMaxQuit 2 true)) [⟨.error, "A", "x", 0, 5, 0⟩]) ⟨.error, "B", "x", 0, 5, 0⟩).exc
    = some .finish ∧
    (execute (executeAll (serverOp newServer (.setMaxQuit 2 true)) [⟨.error, "A", "x", 0, 1, 0⟩]) ⟨.error, "B", "x", 0, 5, 0⟩).exc
    = none := by decide

/-- C39. With maximum 0 the quit count never ends the simulation, whatever has been executed. -/
theorem C39_quit_count_zero (s : Server) (h0 : s.maxQuit = 0) (hr0 : s.recordAll = false) (ms : List Msg) (m : Msg)
    (hr : records m = false) : (execute (executeAll s ms) m).exc = some .finish ↔ exits m = true := by
  have ht := executeAll_tally s ms
  rw [execute_finish _ _ (ht.rec_.trans hr0) hr, ht.maxQuit]
  simp [h0]

/-- C39. During every history of reports (any handlers and catchers, no recording) the quit count of a server with a
positive maximum grows by one for every executed message with the COUNT flag, and by nothing else. -/
theorem C39_quit_count_reports (w : World) (ops : List Op) (h0 : w.srv.maxQuit ≠ 0) (hr0 : w.srv.recordAll = false)
    (hr : ∀ o ∈ ops, ∃ h q v j t k, o = .report h q v j t k)
    (hm : ∀ m ∈ executed ((run step w ops).2.flatMap (·.1)), records m = false) :
    (runS step w ops).srv.quit = w.srv.quit + (executed ((run step w ops).2.flatMap (·.1))).countP counted := by
  induction ops generalizing w with
  | nil => rfl
  | cons o ops ih =>
    obtain ⟨h, q, v, j, t, k, rfl⟩ := hr _ (List.mem_cons_self ..)
    have ht := report_tally w h q v j t k
    have hm' : ∀ m ∈ executed ((report w h q v j t k).fx ++
        (run step (step w (.report h q v j t k)).1 ops).2.flatMap (·.1)), records m = false := hm
    rw [executed_append] at hm'
    have ih' := ih (step w (.report h q v j t k)).1 (by show (report w h q v j t k).world.srv.maxQuit ≠ 0; rw [ht.maxQuit]; exact h0)
      (ht.rec_.trans hr0) (fun o ho => hr o (by simp [ho])) (fun m hx => hm' m (by simp [hx]))
    rw [runS_cons, ih']
    show (report w h q v j t k).world.srv.quit + _ = _ + List.countP _ (executed ((report w h q v j t k).fx ++ _))
    rw [executed_append, List.countP_append, ht.quit h0 hr0 (fun m hx => hm' m (by simp [hx]))]
    exact Nat.add_assoc ..

/-- C39. A maximum set as not overridable is never changed again, by any history. -/
theorem C39_max_quit_sticks (w : World) (h : w.srv.overridable = false) (ops : List Op) :
    (runS step w ops).srv.maxQuit = w.srv.maxQuit := by
  have := runS_inv (step := step) (I := fun w' => w'.srv.overridable = false ∧ w'.srv.maxQuit = w.srv.maxQuit)
    (fun w' o ⟨h1, h2⟩ => by
      cases o with
      | report h q v j t k =>
        have ht := report_tally w' h q v j t k
        exact ⟨ht.ovr.trans h1, ht.maxQuit.trans h2⟩
      | setMaxQuit n b => simp [step, serverOp, h1, h2]
      | _ => exact ⟨h1, h2⟩) ⟨h, rfl⟩ ops
  exact this.2

example : (runS step newWorld [.setMaxQuit 3 false, .setMaxQuit 7 true]).srv.maxQuit = 3 := by decide

/-- C103 fails when message recording is on: the message is counted, then a KeyError is raised and nothing is printed. -/
theorem C103_record_fails : ∃ w m, (step w (.report newHandler [] .info "A" m 0)).2.2 = some .key ∧
    ¬ ∃ x, .display x ∈ (step w (.report newHandler [] .info "A" m 0)).2.1 :=
  ⟨{ newWorld with srv := { newServer with recordAll := true } }, "x", by decide, by
    rintro ⟨x, hx⟩; revert hx; simp [step, report, process, newWorld, newServer, fromFirst, chain, emit, compose, execute,
      getVerbosity, newHandler, initHandler, handlerProcess, override, getAction, getFile, getSevIdFile, initAction,
      NO_ACTION, DISPLAY, LOG, RM_RECORD, has, execAction]⟩

/-- C103 fails when verbosities are shown: the TypeError keeps the message from being printed or counted. -/
theorem C103_show_verbosity_fails : ∃ w m, (step w (.report newHandler [] .error "A" m 0)).2 = ([], some .type) ∧
    (step w (.report newHandler [] .error "A" m 0)).1.srv.sevCount .error = 0 :=
  ⟨{ newWorld with srv := { newServer with showVerb := true } }, "x", by decide, by decide⟩

/-- C103 fails in general: every report that gets through and whose action asks for recording ends with a KeyError after it was counted;
nothing is printed whatever else the action asks for. -/
theorem C103_record_always_fails (w : World) (ops : List HOp) (s : Sev) (i t : String) (v : Int)
    (hv : v ≤ specVerb ops s i) (ho : specOverride ops s i = s) (hs : w.srv.showVerb = false) (hrec : (specAction ops s i).testBit 6 = true) :
    (report w (settings ops) [] s i t v).exc = some .key ∧
    (report w (settings ops) [] s i t v).fx = [.exec ⟨s, i, t, v, specAction ops s i, firstNonZero ops s i⟩] := by
  rw [(C37_filter w ops [] s i t v).2 hv]
  have hm : handlerProcess (settings ops) ⟨s, i, t, v, 0, 0⟩ = ⟨s, i, t, v, specAction ops s i, firstNonZero ops s i⟩ := by
    unfold handlerProcess
    rw [override_eq, getAction_eq, getFile_eq]
    simp [ho]
  rw [hm]
  have h0 : specAction ops s i ≠ NO_ACTION := by
    intro h; rw [h] at hrec; revert hrec; decide
  have hr : has (execAction w.srv ⟨s, i, t, v, specAction ops s i, firstNonZero ops s i⟩) RM_RECORD = true := by
    rw [show RM_RECORD = 2 ^ 6 from rfl, has_pow]
    unfold execAction
    split
    · rw [Nat.testBit_or, hrec]; rfl
    · exact hrec
  have he : emit w.srv ⟨s, i, t, v, specAction ops s i, firstNonZero ops s i⟩ =
      ⟨bumpCounts w.srv ⟨s, i, t, v, specAction ops s i, firstNonZero ops s i⟩, [.exec ⟨s, i, t, v, specAction ops s i, firstNonZero ops s i⟩], some .key⟩ := by
    simp only [emit, if_neg h0, compose, hs, Bool.and_false, Bool.false_eq_true, if_false, execute, hr, if_true]
  have hp : (process w (settings ops) [] ⟨s, i, t, v, specAction ops s i, firstNonZero ops s i⟩).fx =
      (emit w.srv ⟨s, i, t, v, specAction ops s i, firstNonZero ops s i⟩).fx ∧
      (process w (settings ops) [] ⟨s, i, t, v, specAction ops s i, firstNonZero ops s i⟩).exc =
      (emit w.srv ⟨s, i, t, v, specAction ops s i, firstNonZero ops s i⟩).exc := by
    unfold process
    split
    · exact ⟨rfl, rfl⟩
    · simp [fromFirst, chain]
  rw [hp.1, hp.2, he]
  exact ⟨rfl, rfl⟩

example : specOverride [.setIdAction "A" 65] .info "A" = .info ∧ (specAction [.setIdAction "A" 65] .info "A").testBit 6 = true ∧
    100 ≤ specVerb [.setIdAction "A" 65] .info "A" := by decide

/-! ## C40 -/

/-- C40. For every queue of catchers that only modify the message, and in which a catcher that chooses an action does not
also change the severity: the message is caught, with no effect at all on the server, exactly when the first enabled
catcher that returns CAUGHT exists, and is otherwise executed as modified by the enabled catchers in order; the caught and
demoted counters of the original severity are increased exactly when the message was caught, or left with a lower
severity.  What is missing: catchers that call `set_action` and change the severity (`C40_set_action_fails`), and
catchers that report messages or raise. -/
theorem C40_chain_partial (w : World) (h : Handler) (q : List Entry) (m : Msg)
    (hq : ∀ e ∈ q, e.enabled = true → Quiet e ∧ Plain e) (hc : w.inCatcher = false) (hn : w.noCatch = false) :
    process w h q m =
      (match specChain h q m with
      | .isCaught m' =>
        ⟨{ w with
            caught := if m.sev ≠ .info then upd w.caught m.sev (w.caught m.sev + 1) else w.caught
            demoted := if m'.sev ≺ m.sev then upd w.demoted m.sev (w.demoted m.sev + 1) else w.demoted }, [], none⟩
      | .passes m' =>
        ⟨{ w with
            srv := (emit w.srv m').srv
            demoted := if m'.sev ≺ m.sev then upd w.demoted m.sev (w.demoted m.sev + 1) else w.demoted },
          (emit w.srv m').fx, (emit w.srv m').exc⟩) := by
  have hd : ∀ s : Sev, countDemoted m.sev s w.demoted =
      if s ≺ m.sev then upd w.demoted m.sev (w.demoted m.sev + 1) else w.demoted := by
    intro s
    unfold countDemoted
    cases hm : m.sev <;> cases s <;> simp [Sev.rank, Lower]
  unfold process
  rw [hc, hn, chain_fromFirst h q w.srv m hq, chain_spec h q w.srv m hq]
  cases hs : specChain h q m with
  | passes m' => simp [Fate.verdict, Fate.msg, hd, countCaught]
  | isCaught m' => simp [Fate.verdict, Fate.msg, hd, countCaught]

/-- The message is caught. -/
def Fate.isCaughtB : Fate → Bool
  | .isCaught _ => true
  | .passes _ => false

/-- C40. After any history of messages, `get_caught_…_count` tells how many messages of that severity were caught, and `get_demoted_…_count` how many left the
catchers with a lower severity; information is not counted. -/
theorem C40_counts_partial (ms : List (Handler × List Entry × Msg)) (hq : ∀ x ∈ ms, ∀ e ∈ x.2.1, e.enabled = true → Quiet e ∧ Plain e) (s : Sev) :
    (ms.foldl (fun w x => (process w x.1 x.2.1 x.2.2).world) newWorld).caught s =
      ms.countP (fun x => decide (x.2.2.sev = s ∧ s ≠ .info) && (specChain x.1 x.2.1 x.2.2).isCaughtB) ∧
    (ms.foldl (fun w x => (process w x.1 x.2.1 x.2.2).world) newWorld).demoted s =
      ms.countP (fun x => decide (x.2.2.sev = s ∧ (specChain x.1 x.2.1 x.2.2).msg.sev ≺ s)) := by
  have key : ∀ (ms : List (Handler × List Entry × Msg)) (w : World), (∀ x ∈ ms, ∀ e ∈ x.2.1, e.enabled = true → Quiet e ∧ Plain e) →
      w.inCatcher = false → w.noCatch = false →
      (ms.foldl (fun w x => (process w x.1 x.2.1 x.2.2).world) w).caught s = w.caught s +
        ms.countP (fun x => decide (x.2.2.sev = s ∧ s ≠ .info) && (specChain x.1 x.2.1 x.2.2).isCaughtB) ∧
      (ms.foldl (fun w x => (process w x.1 x.2.1 x.2.2).world) w).demoted s = w.demoted s +
        ms.countP (fun x => decide (x.2.2.sev = s ∧ (specChain x.1 x.2.1 x.2.2).msg.sev ≺ s)) := by
    intro ms
    induction ms with
    | nil => intro w _ _ _; simp
    | cons x ms ih =>
      intro w hq hc hn
      obtain ⟨h, q, m⟩ := x
      have hp := C40_chain_partial w h q m (hq _ List.mem_cons_self) hc hn
      have hw : (process w h q m).world.inCatcher = false ∧ (process w h q m).world.noCatch = false ∧
          (process w h q m).world.caught s = w.caught s + (if (decide (m.sev = s ∧ s ≠ .info) && (specChain h q m).isCaughtB) = true then 1 else 0) ∧
          (process w h q m).world.demoted s = w.demoted s + (if decide (m.sev = s ∧ (specChain h q m).msg.sev ≺ s) = true then 1 else 0) := by
        rw [hp]
        cases hs : specChain h q m with
        | passes m' =>
          refine ⟨hc, hn, by simp [Fate.isCaughtB], ?_⟩
          by_cases h1 : m.sev = s
          · subst h1; by_cases h2 : m'.sev ≺ m.sev <;> simp [Fate.msg, h2, upd]
          · by_cases h2 : m'.sev ≺ m.sev <;> simp [h1, h2, upd, Ne.symm h1]
        | isCaught m' =>
          refine ⟨hc, hn, ?_, ?_⟩
          · by_cases h1 : m.sev = s
            · subst h1; by_cases h2 : m.sev = .info <;> simp [Fate.isCaughtB, h2, upd]
            · have h3 : s ≠ m.sev := Ne.symm h1
              by_cases h2 : m.sev ≠ .info
              · simp only [if_pos h2, upd, h1, if_neg h3, false_and, decide_false, Bool.false_and, Bool.false_eq_true, if_false, Nat.add_zero]
              · simp only [if_neg h2, h1, false_and, decide_false, Bool.false_and, Bool.false_eq_true, if_false, Nat.add_zero]
          · by_cases h1 : m.sev = s
            · subst h1; by_cases h2 : m'.sev ≺ m.sev <;> simp [Fate.msg, h2, upd]
            · by_cases h2 : m'.sev ≺ m.sev <;> simp [h1, h2, upd, Ne.symm h1]
      obtain ⟨a, b⟩ := ih (process w h q m).world (fun x hx => hq x (List.mem_cons_of_mem _ hx)) hw.1 hw.2.1
      simp only [List.foldl_cons, List.countP_cons]
      rw [a, b, hw.2.2.1, hw.2.2.2]
      omega
  have := key ms newWorld hq rfl rfl
  simpa [newWorld] using this

/-- C40. Catchers after one that catches do not matter. -/
theorem C40_later_catchers (h : Handler) (q q' : List Entry) (m : Msg) (w : World) (m' : Msg)
    (hcatch : specChain h q m = .isCaught m') (hc : w.inCatcher = false) (hn : w.noCatch = false)
    (hq : ∀ e ∈ q, e.enabled = true → Quiet e ∧ Plain e) :
    process w h (q ++ q') m = process w h q m := by
  have key : ∀ (q : List Entry) (m : Msg), (∀ e ∈ q, e.enabled = true → Quiet e ∧ Plain e) →
      specChain h q m = .isCaught m' → chain h false (fromFirst (q ++ q')) w.srv m = chain h false (fromFirst q) w.srv m := by
    intro q
    induction q with
    | nil => intro m _ hs; simp [specChain] at hs
    | cons e q ih =>
      intro m hq hs
      have hq' : ∀ x ∈ q, x.enabled = true → Quiet x ∧ Plain x := fun x hx => hq x (by simp [hx])
      cases he : e.enabled with
      | false =>
        have : ∀ l, fromFirst (e :: l) = fromFirst l := by intro l; simp [fromFirst, List.dropWhile_cons, he]
        rw [List.cons_append, this, this]
        apply ih _ hq'
        simpa [specChain, he] using hs
      | true =>
        obtain ⟨h1, h2⟩ := hq e (by simp) he
        have hf : ∀ l, fromFirst (e :: l) = e :: l := by intro l; simp [fromFirst, List.dropWhile_cons, he, h1.1]
        rw [List.cons_append, hf, hf]
        clear ih
        suffices H : ∀ (q : List Entry) (m : Msg), (∀ e ∈ q, e.enabled = true → Quiet e ∧ Plain e) →
            specChain h q m = .isCaught m' → chain h false (q ++ q') w.srv m = chain h false q w.srv m by
          exact H (e :: q) m hq hs
        intro q
        induction q with
        | nil => intro m _ hs; simp [specChain] at hs
        | cons e q ih =>
          intro m hq hs
          have hq' : ∀ x ∈ q, x.enabled = true → Quiet x ∧ Plain x := fun x hx => hq x (by simp [hx])
          rw [List.cons_append]
          unfold chain
          cases he : e.enabled with
          | false => simp; apply ih _ hq'; simpa [specChain, he] using hs
          | true =>
            obtain ⟨h1, h2⟩ := hq e (by simp) he
            by_cases hcc : (e.catch_ m).2 = .caught
            · simp [h1.1, oneCatcher_quiet h e w.srv m h1, hcc]
            · simp only [h1.1, oneCatcher_quiet h e w.srv m h1, hcc]
              have := ih (leaves h e m) hq' (by simpa [specChain, he, hcc] using hs)
              rw [leaves_plain h e m h2] at this
              simp [this]
  unfold process
  rw [hc, hn, key q m hq hcatch]

/-- C40. Disabled catchers have no effect, whatever they would do: removing them from the queue changes nothing. -/
theorem C40_disabled (w : World) (h : Handler) (q : List Entry) (m : Msg) :
    process w h q m = process w h (q.filter (·.enabled)) m := by
  have h1 : ∀ (q : List Entry) (s : Server) (m : Msg), chain h w.noCatch q s m = chain h w.noCatch (q.filter (·.enabled)) s m := by
    intro q
    induction q with
    | nil => intro s m; rfl
    | cons e q ih =>
      intro s m
      cases he : e.enabled with
      | false => rw [List.filter_cons_of_neg (by simp [he])]; rw [← ih]; simp [chain, he]
      | true =>
        rw [List.filter_cons_of_pos (by simp [he])]
        unfold chain
        simp only [he, ih]
  have h2 : ∀ q : List Entry, (fromFirst q).filter (·.enabled) = fromFirst (q.filter (·.enabled)) := by
    intro q
    induction q with
    | nil => rfl
    | cons e q ih =>
      unfold fromFirst at ih ⊢
      cases he : e.enabled with
      | false => rw [List.filter_cons_of_neg (by simp [he]), List.dropWhile_cons]; simp [he]; simpa using ih
      | true =>
        rw [List.filter_cons_of_pos (by simp [he]), List.dropWhile_cons, List.dropWhile_cons]
        cases hi : e.isCatcher
        · simp; simpa using ih
        · simp [he]
  unfold process
  rw [h1 (fromFirst q), h2]

/-- A catcher that turns errors into information messages but wants them displayed and counted. -/
def demoter : Entry := ⟨true, true, fun m => (if m.sev = .error then [.setSeverity .info, .setAction 5] else [], .throw)⟩

def catchAll : Entry := ⟨true, true, fun _ => ([], .caught)⟩
def raiser : Entry := ⟨true, true, fun _ => ([], .raises)⟩
/-- A callback of another class, registered type-wide. -/
def foreign : Entry := ⟨false, true, fun _ => ([], .throw)⟩
def thrower : Entry := ⟨true, true, fun m => ([.setMessage (m.text ++ "!")], .throw)⟩

example : (∀ e ∈ [catchAll], e.enabled = true → Quiet e ∧ Plain e) ∧
    (process newWorld newHandler [catchAll] ⟨.error, "A", "x", 0, 0, 0⟩).world.caught .error = 1 := by
  refine ⟨?_, by decide⟩
  intro e he _
  simp only [List.mem_singleton] at he
  subst he
  simp [Quiet, Plain, catchAll]

/-- C40 fails for a catcher that calls `set_action` after changing the severity: its action is replaced. -/
theorem C40_set_action_fails : ∃ (h : Handler) (e : Entry) (m : Msg), Quiet e ∧
    specChain h [e] m = .passes ⟨.info, "A", "x", 0, 5, 0⟩ ∧
    (process newWorld h [e] m).fx.head? = some (.exec ⟨.info, "A", "x", 0, 1, 0⟩) := by
  refine ⟨newHandler, demoter, ⟨.error, "A", "x", 0, 5, 0⟩, ⟨rfl, fun m => ⟨?_, Or.inl rfl⟩⟩, by decide, by decide⟩
  intro a ha
  simp only [demoter] at ha
  split at ha
  · simp at ha; rcases ha with rfl | rfl <;> rfl
  · simp at ha

/-- C40 fails after a catcher raised: from then on no catcher sees any message, so one that would be caught is executed. -/
theorem C40_raise_disables_fails : ∃ m, (process newWorld newHandler [raiser] m).exc = some .user ∧
    (process (process newWorld newHandler [raiser] m).world newHandler [catchAll] m).fx = [.exec m, .display m] :=
  ⟨⟨.error, "A", "x", 0, 5, 0⟩, by decide, by decide⟩

/-- C40 fails when another kind of callback follows the catcher in the queue: an AttributeError, and the message is lost. -/
theorem C40_foreign_callback_fails : ∃ m, (process newWorld newHandler [thrower, foreign] m).exc = some .attr ∧
    (process newWorld newHandler [thrower, foreign] m).fx = [] ∧
    (process newWorld newHandler [thrower, foreign] m).world.inCatcher = true :=
  ⟨⟨.error, "A", "x", 0, 5, 0⟩, by decide, by decide, by decide⟩

/-- C40. A catcher whose `catch` returns neither THROW nor CAUGHT: an error is reported and the message is not caught. -/
theorem C40_unknown (ms : List CatAct) (hq : ∀ a ∈ ms, quiet a = true) (m : Msg) :
    ∃ e, executed (process newWorld newHandler [⟨true, true, fun _ => (ms, .unknown)⟩] m).fx = e :: executed (emit
      (emit newServer e).srv (adjust newHandler m.sev (ms.foldl modify m))).fx ∧ e.sev = .error ∧ e.id = "RPTCTHR" := by
  refine ⟨catcherMsg newHandler .error "RPTCTHR" "must return THROW or CAUGHT" 0, ?_, rfl, rfl⟩
  have hx : (emit newServer (catcherMsg newHandler .error "RPTCTHR" "must return THROW or CAUGHT" 0)).exc = none := by decide
  have hf : executed (emit newServer (catcherMsg newHandler .error "RPTCTHR" "must return THROW or CAUGHT" 0)).fx =
      [catcherMsg newHandler .error "RPTCTHR" "must return THROW or CAUGHT" 0] := by decide
  simp [process, newWorld, fromFirst, chain, oneCatcher, acts_quiet newHandler newServer m ms hq, afterCatch, hx,
    executed_append, hf]

/-- C40. A fatal message reported by a catcher ends the simulation at once: the catcher's remaining statements, the later
catchers and the message being processed have no effect. -/
theorem C40_fatal_in_catcher (as : List CatAct) (hq : ∀ a ∈ as, quiet a = true) (bs : List CatAct) (r : Ret)
    (q : List Entry) (i t : String) (v : Int) (m : Msg) :
    (process newWorld newHandler (⟨true, true, fun _ => (as ++ .report .fatal i t v :: bs, r)⟩ :: q) m).exc = some .finish ∧
    executed (process newWorld newHandler (⟨true, true, fun _ => (as ++ .report .fatal i t v :: bs, r)⟩ :: q) m).fx =
      [⟨.fatal, i, t, v, 9, 0⟩] := by
  have hx : (emit newServer (catcherMsg newHandler .fatal i t v)).exc = some .finish := by
    have e : catcherMsg newHandler .fatal i t v = ⟨.fatal, i, t, v, 9, 0⟩ := rfl
    simp [e, emit, compose, execute, has, newServer, execAction, NO_ACTION, RM_RECORD, LOG, DISPLAY, EXIT]
  have hf : executed (emit newServer (catcherMsg newHandler .fatal i t v)).fx = [⟨.fatal, i, t, v, 9, 0⟩] := by
    have e : catcherMsg newHandler .fatal i t v = ⟨.fatal, i, t, v, 9, 0⟩ := rfl
    rw [e, emit, if_neg (by simp [NO_ACTION]), compose, if_neg (by simp [newServer]), execute_fx]
  have ha : ∀ (as : List CatAct) (m : Msg), (∀ a ∈ as, quiet a = true) →
      (acts newHandler newServer m (as ++ .report .fatal i t v :: bs)).exc = some .finish ∧
      executed (acts newHandler newServer m (as ++ .report .fatal i t v :: bs)).fx = [⟨.fatal, i, t, v, 9, 0⟩] := by
    intro as
    induction as with
    | nil => intro m _; simp [acts, act, actResult, hx, hf]
    | cons a as ih =>
      intro m hq
      have hqa := hq a (by simp)
      have ih' := fun m => ih m (fun b hb => hq b (by simp [hb]))
      cases a <;> first | (simp [quiet] at hqa; done) | (simp [acts, act, ih'])
  have := ha as m hq
  simp [process, newWorld, fromFirst, chain, oneCatcher, this.1, this.2]

/-- Non-vacuity of the chain theorems: a disabled catcher, one that edits the text, one that catches. -/
example : ∃ q : List Entry, (∀ e ∈ q, e.enabled = true → Quiet e ∧ Plain e) ∧ q.length = 3 ∧
    specChain newHandler q ⟨.error, "A", "x", 0, 5, 0⟩ = .isCaught ⟨.error, "A", "x!", 0, 5, 0⟩ := by
  refine ⟨[{ raiser with enabled := false }, thrower, catchAll], ?_, rfl, by decide⟩
  intro e he hen
  simp at he
  rcases he with rfl | rfl | rfl
  · simp at hen
  · refine ⟨⟨rfl, fun m => ⟨?_, Or.inl rfl⟩⟩, fun m hm => ?_⟩
    · intro a ha; simp [thrower] at ha; subst ha; rfl
    · simp [thrower, isSetAction] at hm
  · exact ⟨⟨rfl, fun m => ⟨by simp [catchAll], Or.inr rfl⟩⟩, fun m hm => by simp [catchAll] at hm⟩

end Verif.Report
