import Verif.Util.Machine
import Verif.Spec.Report
/-! # Lemmas about the report machinery -/
namespace Verif.Report

/-! ## Settings -/

theorem lastOf_snoc {α : Type} (f : HOp → Option α) (ops : List HOp) (o : HOp) :
    lastOf f (ops ++ [o]) = (f o).or (lastOf f ops) := by
  unfold lastOf
  rw [List.filterMap_append]
  cases h : f o <;> simp [h]

theorem settings_snoc (ops : List HOp) (o : HOp) : settings (ops ++ [o]) = hstep (settings ops) o := by
  simp [settings]

/-- Induction over histories from the end. -/
theorem snoc_induction {P : List HOp → Prop} (h0 : P []) (h1 : ∀ ops o, P ops → P (ops ++ [o])) : ∀ ops, P ops := by
  intro ops
  rw [← List.reverse_reverse ops]
  induction ops.reverse with
  | nil => exact h0
  | cons o l ih => rw [List.reverse_cons]; exact h1 _ _ ih

/-- A component set by the calls selected by `f` is the argument of the last one. -/
theorem view_last {α : Type} (view : Handler → Option α) (f : HOp → Option α)
    (h : ∀ s o, view (hstep s o) = (f o).or (view s)) (ops : List HOp) :
    view (settings ops) = (lastOf f ops).or (view newHandler) := by
  induction ops using snoc_induction with
  | h0 => simp [settings, lastOf]
  | h1 ops o ih => rw [settings_snoc, h, ih, lastOf_snoc, Option.or_assoc]

theorem sevIdAct_eq (ops : List HOp) (s : Sev) (i : String) :
    (settings ops).sevIdAct s i = lastOf (pairAction s i) ops := by
  rw [view_last (fun h => h.sevIdAct s i) (pairAction s i)]
  · cases lastOf (pairAction s i) ops <;> rfl
  · intro h o
    cases o <;> simp [hstep, pairAction, upd, initHandler]
    rename_i s' i' a
    by_cases h1 : s = s'
    · subst h1
      by_cases h2 : i = i'
      · simp [h2, upd]
      · simp [h2, Ne.symm h2, eq_comm, upd]
    · simp [h1, Ne.symm h1, eq_comm]

theorem idAct_eq (ops : List HOp) (i : String) : (settings ops).idAct i = lastOf (idAction i) ops := by
  rw [view_last (fun h => h.idAct i) (idAction i)]
  · cases lastOf (idAction i) ops <;> rfl
  · intro h o
    cases o <;> simp [hstep, idAction, upd, initHandler]
    rename_i i' a
    by_cases h2 : i = i'
    · simp [h2]
    · simp [h2, Ne.symm h2, eq_comm]

theorem initAction_eq (s : Sev) : initAction s = defaultAction s := by cases s <;> rfl

theorem sevAct_eq (ops : List HOp) (s : Sev) :
    (settings ops).sevAct s = (lastOf (sevAction s) ops).getD (defaultAction s) := by
  have := view_last (fun h => some (h.sevAct s)) (sevAction s) (by
    intro h o
    cases o <;> simp [hstep, sevAction, upd, initHandler, initAction_eq]
    rename_i s' a
    by_cases h2 : s = s'
    · simp [h2]
    · simp [h2, Ne.symm h2, eq_comm]) ops
  cases h : lastOf (sevAction s) ops <;> simp [h] at this ⊢
  · rw [this]; exact initAction_eq s
  · exact this

theorem sevIdVerb_eq (ops : List HOp) (s : Sev) (i : String) :
    (settings ops).sevIdVerb s i = lastOf (pairVerb s i) ops := by
  rw [view_last (fun h => h.sevIdVerb s i) (pairVerb s i)]
  · cases lastOf (pairVerb s i) ops <;> rfl
  · intro h o
    cases o <;> simp [hstep, pairVerb, upd, initHandler]
    rename_i s' i' a
    by_cases h1 : s = s'
    · subst h1
      by_cases h2 : i = i'
      · simp [h2, upd]
      · simp [h2, Ne.symm h2, eq_comm, upd]
    · simp [h1, Ne.symm h1, eq_comm]

theorem idVerb_eq (ops : List HOp) (i : String) : (settings ops).idVerb i = lastOf (idVerb i) ops := by
  rw [view_last (fun h => h.idVerb i) (idVerb i)]
  · cases lastOf (idVerb i) ops <;> rfl
  · intro h o
    cases o <;> simp [hstep, idVerb, upd, initHandler]
    rename_i i' a
    by_cases h2 : i = i'
    · simp [h2]
    · simp [h2, Ne.symm h2, eq_comm]

theorem maxVerb_eq (ops : List HOp) : (settings ops).maxVerb = (lastOf levelVerb ops).getD 200 := by
  have := view_last (fun h => some h.maxVerb) levelVerb (by
    intro h o
    cases o <;> simp [hstep, levelVerb, initHandler]) ops
  cases h : lastOf levelVerb ops <;> simp [h] at this ⊢ <;> rw [this]
  rfl

theorem sevIdFile_eq (ops : List HOp) (s : Sev) (i : String) :
    (settings ops).sevIdFile s i = lastOf (pairFile s i) ops := by
  rw [view_last (fun h => h.sevIdFile s i) (pairFile s i)]
  · cases lastOf (pairFile s i) ops <;> rfl
  · intro h o
    cases o <;> simp [hstep, pairFile, upd, initHandler]
    rename_i s' i' a
    by_cases h1 : s = s'
    · subst h1
      by_cases h2 : i = i'
      · simp [h2, upd]
      · simp [h2, Ne.symm h2, eq_comm, upd]
    · simp [h1, Ne.symm h1, eq_comm]

theorem idFile_eq (ops : List HOp) (i : String) : (settings ops).idFile i = lastOf (idFile i) ops := by
  rw [view_last (fun h => h.idFile i) (idFile i)]
  · cases lastOf (idFile i) ops <;> rfl
  · intro h o
    cases o <;> simp [hstep, idFile, upd, initHandler]
    rename_i i' a
    by_cases h2 : i = i'
    · simp [h2]
    · simp [h2, Ne.symm h2, eq_comm]

theorem sevFile_eq (ops : List HOp) (s : Sev) : (settings ops).sevFile s = (lastOf (sevFile s) ops).getD 0 := by
  have := view_last (fun h => some (h.sevFile s)) (sevFile s) (by
    intro h o
    cases o <;> simp [hstep, sevFile, upd, initHandler]
    rename_i s' a
    by_cases h2 : s = s'
    · simp [h2]
    · simp [h2, Ne.symm h2, eq_comm]) ops
  cases h : lastOf (sevFile s) ops <;> simp [h] at this ⊢ <;> rw [this]
  rfl

theorem dflFile_eq (ops : List HOp) : (settings ops).dflFile = (lastOf dflFile ops).getD 0 := by
  have := view_last (fun h => some h.dflFile) dflFile (by
    intro h o
    cases o <;> simp [hstep, dflFile, initHandler]) ops
  cases h : lastOf dflFile ops <;> simp [h] at this ⊢ <;> rw [this]
  rfl

theorem sevOvr_eq (ops : List HOp) (s : Sev) : (settings ops).sevOvr s = lastOf (sevOvr s) ops := by
  rw [view_last (fun h => h.sevOvr s) (sevOvr s)]
  · cases lastOf (sevOvr s) ops <;> rfl
  · intro h o
    cases o <;> simp [hstep, sevOvr, upd, initHandler]
    rename_i i' a
    by_cases h2 : s = i'
    · simp [h2]
    · simp [h2, Ne.symm h2, eq_comm]

theorem idOvr_some (ops : List HOp) (i : String) : ((settings ops).idOvr i).isSome = ops.any (isIdOvr i) := by
  induction ops using snoc_induction with
  | h0 => rfl
  | h1 ops o ih =>
    rw [settings_snoc, List.any_append, ← ih]
    cases o <;> simp [hstep, isIdOvr, upd, initHandler]
    rename_i s' i' t
    by_cases h2 : i = i'
    · simp [h2]
    · simp [h2, Ne.symm h2]

theorem idOvr_eq (ops : List HOp) (s : Sev) (i : String) :
    ((settings ops).idOvr i).bind (· s) = lastOf (pairOvr s i) ops := by
  rw [view_last (fun h => (h.idOvr i).bind (· s)) (pairOvr s i)]
  · cases lastOf (pairOvr s i) ops <;> rfl
  · intro h o
    cases o <;> simp [hstep, pairOvr, upd, initHandler]
    rename_i s' i' a
    by_cases h1 : i = i'
    · subst h1
      by_cases h2 : s = s'
      · simp [h2, upd]
      · simp [h2, Ne.symm h2, eq_comm, upd]
        cases h.idOvr i <;> rfl
    · simp [h1, Ne.symm h1, eq_comm]

theorem getAction_eq (ops : List HOp) (s : Sev) (i : String) : getAction (settings ops) s i = specAction ops s i := by
  unfold getAction specAction
  rw [sevIdAct_eq, idAct_eq, sevAct_eq]
  cases lastOf (pairAction s i) ops <;> cases lastOf (idAction i) ops <;> rfl

theorem getVerbosity_eq (ops : List HOp) (s : Sev) (i : String) :
    getVerbosity (settings ops) s i = specVerb ops s i := by
  unfold getVerbosity specVerb
  rw [sevIdVerb_eq, idVerb_eq, maxVerb_eq]
  cases lastOf (pairVerb s i) ops <;> cases lastOf (idVerb i) ops <;> rfl

theorem getFile_eq (ops : List HOp) (s : Sev) (i : String) : getFile (settings ops) s i = firstNonZero ops s i := by
  unfold getFile getSevIdFile firstNonZero
  rw [sevIdFile_eq, idFile_eq, sevFile_eq, dflFile_eq]
  cases lastOf (pairFile s i) ops with
  | none =>
    cases lastOf (idFile i) ops with
    | none =>
      cases lastOf (sevFile s) ops with
      | none => simp
      | some c => by_cases hc : c = 0 <;> simp [hc, Option.filter]
    | some b =>
      by_cases hb : b = 0
      · subst hb
        cases lastOf (sevFile s) ops with
        | none => simp [Option.filter]
        | some c => by_cases hc : c = 0 <;> simp [hc, Option.filter]
      · simp [hb, Option.filter]
  | some a =>
    by_cases ha : a = 0
    · subst ha
      cases lastOf (idFile i) ops with
      | none =>
        cases lastOf (sevFile s) ops with
        | none => simp [Option.filter]
        | some c => by_cases hc : c = 0 <;> simp [hc, Option.filter]
      | some b =>
        by_cases hb : b = 0
        · subst hb
          cases lastOf (sevFile s) ops with
          | none => simp [Option.filter]
          | some c => by_cases hc : c = 0 <;> simp [hc, Option.filter]
        · simp [hb, Option.filter]
    · simp [ha, Option.filter]

theorem override_eq (ops : List HOp) (s : Sev) (i : String) : override (settings ops) s i = specOverride ops s i := by
  unfold override specOverride
  have h1 := idOvr_some ops i
  have h2 := idOvr_eq ops s i
  cases h : (settings ops).idOvr i with
  | none => rw [h] at h1; rw [← h1]; simp [sevOvr_eq]
  | some f => rw [h] at h1 h2; rw [← h1, ← h2]; simp

/-! ## Execution -/

theorem has_pow (a k : Nat) : has a (2 ^ k) = a.testBit k := by
  unfold has
  cases h : a.testBit k with
  | false =>
    have : a &&& 2 ^ k = 0 := by
      apply Nat.eq_of_testBit_eq
      intro j
      rw [Nat.testBit_and, Nat.testBit_two_pow, Nat.zero_testBit]
      by_cases hj : k = j
      · subst hj; simp [h]
      · simp [hj]
    simp [this]
  | true =>
    have : a &&& 2 ^ k ≠ 0 := by
      intro h0
      have := congrArg (fun n => n.testBit k) h0
      simp [Nat.testBit_and, Nat.testBit_two_pow, h] at this
    simp [this]

theorem has_count (a : Nat) : has a COUNT = a.testBit 2 := has_pow a 2
theorem has_exit (a : Nat) : has a EXIT = a.testBit 3 := has_pow a 3
theorem has_stop (a : Nat) : has a STOP = a.testBit 5 := has_pow a 5
theorem has_record (a : Nat) : has a RM_RECORD = a.testBit 6 := has_pow a 6

/-- The counters a server call touches, other than the quit count. -/
structure Tally (s s' : Server) (ms : List Msg) : Prop where
  sev : ∀ v, s'.sevCount v = s.sevCount v + ms.countP (·.sev = v)
  id : ∀ i, s'.idCount i = s.idCount i + ms.countP (·.id = i)
  maxQuit : s'.maxQuit = s.maxQuit
  ovr : s'.overridable = s.overridable
  rec_ : s'.recordAll = s.recordAll
  shv : s'.showVerb = s.showVerb
  quit0 : s.maxQuit = 0 → s'.quit = s.quit
  quit : s.maxQuit ≠ 0 → s.recordAll = false → (∀ m ∈ ms, records m = false) → s'.quit = s.quit + ms.countP counted

theorem Tally.refl (s : Server) : Tally s s [] := ⟨by simp, by simp, rfl, rfl, rfl, rfl, fun _ => rfl, by simp⟩

theorem Tally.trans {s s' s'' : Server} {a b : List Msg} (h1 : Tally s s' a) (h2 : Tally s' s'' b) :
    Tally s s'' (a ++ b) := by
  refine ⟨?_, ?_, h2.maxQuit.trans h1.maxQuit, h2.ovr.trans h1.ovr, h2.rec_.trans h1.rec_, h2.shv.trans h1.shv, ?_, ?_⟩
  · intro v; rw [h2.sev, h1.sev, List.countP_append]; omega
  · intro v; rw [h2.id, h1.id, List.countP_append]; omega
  · intro h; rw [h2.quit0 (h1.maxQuit.trans h), h1.quit0 h]
  · intro h hr hm
    rw [h2.quit (by rw [h1.maxQuit]; exact h) (h1.rec_.trans hr) (fun m hm' => hm m (by simp [hm'])),
      h1.quit h hr (fun m hm' => hm m (by simp [hm'])), List.countP_append]
    omega

theorem executed_append (a b : List Fx) : executed (a ++ b) = executed a ++ executed b := by
  simp [executed]

theorem executed_printed (a : Nat) (m : Msg) : executed (printed a m) = [] := by
  unfold printed executed
  cases has a DISPLAY <;> cases (has a LOG && m.file != 0x80000001) <;> rfl

theorem executed_exec (m : Msg) (l : List Fx) : executed (.exec m :: l) = m :: executed l := rfl

theorem bump_tally (s : Server) (m : Msg) (h : s.maxQuit ≠ 0 → s.recordAll = false → records m = false → counted m = false) :
    Tally s (bumpCounts s m) [m] := by
  refine ⟨?_, ?_, rfl, rfl, rfl, rfl, fun _ => rfl, ?_⟩
  · intro v
    simp only [bumpCounts, upd, List.countP_singleton]
    by_cases hv : v = m.sev
    · simp [hv]
    · simp [hv, Ne.symm hv]
  · intro v
    simp only [bumpCounts, upd, List.countP_singleton]
    by_cases hv : v = m.id
    · simp [hv]
    · simp [hv, Ne.symm hv]
  · intro h1 h2 h3
    have := h h1 h2 (h3 m (by simp))
    simp [bumpCounts, this]

theorem countQuit_tally (s : Server) (m : Msg) :
    Tally s (countQuit (bumpCounts s m) (execAction s m)) [m] := by
  refine ⟨?_, ?_, ?_, ?_, ?_, ?_, ?_, ?_⟩
  · intro v
    have : (countQuit (bumpCounts s m) (execAction s m)).sevCount = (bumpCounts s m).sevCount := by
      unfold countQuit; split <;> rfl
    rw [this]
    simp only [bumpCounts, upd, List.countP_singleton]
    by_cases hv : v = m.sev
    · simp [hv]
    · simp [hv, Ne.symm hv]
  · intro v
    have : (countQuit (bumpCounts s m) (execAction s m)).idCount = (bumpCounts s m).idCount := by
      unfold countQuit; split <;> rfl
    rw [this]
    simp only [bumpCounts, upd, List.countP_singleton]
    by_cases hv : v = m.id
    · simp [hv]
    · simp [hv, Ne.symm hv]
  · unfold countQuit; split <;> rfl
  · unfold countQuit; split <;> rfl
  · unfold countQuit; split <;> rfl
  · unfold countQuit; split <;> rfl
  · intro h; simp [countQuit, bumpCounts, h]
  · intro h1 h2 h3
    simp only [countQuit, execAction, h2, has_count, counted, List.countP_singleton]
    by_cases hc : m.action.testBit 2 = true <;> simp [hc, h1, bumpCounts]

theorem execute_fx (s : Server) (m : Msg) : executed (execute s m).fx = [m] := by
  unfold execute
  split
  · rfl
  · split
    · simp [executed_exec, executed_printed]
    · split <;> simp [executed_exec, executed_printed]

theorem execute_printed (s : Server) (m : Msg) (hr : s.recordAll = false) (hm : records m = false) :
    (execute s m).fx = .exec m :: printed m.action m := by
  have e : execAction s m = m.action := by simp [execAction, hr]
  have h1 : has m.action RM_RECORD = false := by rw [has_record]; exact hm
  unfold execute
  rw [e, h1, if_neg (by simp)]
  split
  · rfl
  · split <;> rfl

theorem execute_tally (s : Server) (m : Msg) : Tally s (execute s m).srv (executed (execute s m).fx) := by
  rw [execute_fx]
  unfold execute
  split
  · rename_i hr
    apply bump_tally
    intro _ h2 h3
    simp [execAction, h2, has_record] at hr
    simp [records, hr] at h3
  · split
    · exact countQuit_tally s m
    · split
      · exact countQuit_tally s m
      · exact countQuit_tally s m

theorem compose_tally (s : Server) (m : Msg) : Tally s (compose s m).srv (executed (compose s m).fx) := by
  unfold compose
  split
  · exact Tally.refl s
  · exact execute_tally s m

theorem emit_tally (s : Server) (m : Msg) : Tally s (emit s m).srv (executed (emit s m).fx) := by
  unfold emit
  split
  · exact Tally.refl s
  · exact compose_tally s m

theorem act_tally (h : Handler) (s : Server) (m : Msg) (a : CatAct) :
    Tally s (act h s m a).srv (executed (act h s m a).fx) := by
  cases a <;> first | exact Tally.refl s | exact emit_tally _ _

theorem acts_tally (h : Handler) (s : Server) (m : Msg) (as : List CatAct) :
    Tally s (acts h s m as).srv (executed (acts h s m as).fx) := by
  induction as generalizing s m with
  | nil => exact Tally.refl s
  | cons a as ih =>
    unfold acts
    split
    · exact act_tally h s m a
    · simp only [executed_append]
      exact (act_tally h s m a).trans (ih _ _)

theorem afterCatch_tally (h : Handler) (n : Bool) (p : Sev) (s : Server) (r : Acts) (x : Ret)
    (hr : Tally s r.srv (executed r.fx)) :
    Tally s (afterCatch h n p r x).srv (executed (afterCatch h n p r x).fx) := by
  cases x with
  | throw => exact hr
  | caught => exact hr
  | raises => exact hr
  | unknown =>
    have := hr.trans (emit_tally r.srv (catcherMsg h .error "RPTCTHR" "must return THROW or CAUGHT" 0))
    simp only [afterCatch]
    split <;> (simp only [executed_append]; exact this)

theorem oneCatcher_tally (h : Handler) (n : Bool) (e : Entry) (s : Server) (m : Msg) :
    Tally s (oneCatcher h n e s m).srv (executed (oneCatcher h n e s m).fx) := by
  unfold oneCatcher
  split
  · exact acts_tally _ _ _ _
  · exact afterCatch_tally _ _ _ _ _ _ (acts_tally _ _ _ _)

theorem chain_tally (h : Handler) (n : Bool) (q : List Entry) (s : Server) (m : Msg) :
    Tally s (chain h n q s m).srv (executed (chain h n q s m).fx) := by
  induction q generalizing s m with
  | nil => exact Tally.refl s
  | cons e q ih =>
    unfold chain
    split
    · exact ih s m
    · split
      · exact Tally.refl s
      · split
        · simp only [executed_append]
          exact (oneCatcher_tally _ _ _ _ _).trans (ih _ _)
        · exact oneCatcher_tally _ _ _ _ _
        · exact oneCatcher_tally _ _ _ _ _

theorem process_tally (w : World) (h : Handler) (q : List Entry) (m : Msg) :
    Tally w.srv (process w h q m).world.srv (executed (process w h q m).fx) := by
  unfold process
  split
  · exact emit_tally _ _
  · split
    · exact chain_tally _ _ _ _ _
    · exact chain_tally _ _ _ _ _
    · simp only [executed_append]
      exact (chain_tally _ _ _ _ _).trans (emit_tally _ _)

theorem report_tally (w : World) (h : Handler) (q : List Entry) (s : Sev) (i t : String) (v : Int) :
    Tally w.srv (report w h q s i t v).world.srv (executed (report w h q s i t v).fx) := by
  unfold report
  split
  · exact process_tally _ _ _ _
  · exact Tally.refl _

/-! ## Catchers -/

theorem acts_quiet (h : Handler) (s : Server) (m : Msg) (as : List CatAct) (hq : ∀ a ∈ as, quiet a = true) :
    acts h s m as = ⟨s, as.foldl modify m, [], none⟩ := by
  induction as generalizing m with
  | nil => rfl
  | cons a as ih =>
    have ha := hq a (by simp)
    have ih' := fun m => ih m (fun b hb => hq b (by simp [hb]))
    cases a <;> first | (simp [quiet] at ha; done) | (simp [acts, act, ih', modify])

theorem oneCatcher_quiet (h : Handler) (e : Entry) (s : Server) (m : Msg) (hq : Quiet e) :
    oneCatcher h false e s m =
      ⟨s, adjust h m.sev ((e.catch_ m).1.foldl modify m), [], if (e.catch_ m).2 = .caught then .caught else .thrown⟩ := by
  unfold oneCatcher
  rw [acts_quiet h s m _ (hq.2 m).1]
  rcases (hq.2 m).2 with hr | hr <;> simp [hr, afterCatch]

/-- A catcher that chooses an action does not change the severity. -/
def Plain (e : Entry) : Prop :=
  ∀ m, (e.catch_ m).1.any isSetAction = true → ((e.catch_ m).1.foldl modify m).sev = m.sev

theorem leaves_plain (h : Handler) (e : Entry) (m : Msg) (hp : Plain e) :
    leaves h e m = adjust h m.sev ((e.catch_ m).1.foldl modify m) := by
  unfold leaves adjust
  by_cases ha : (e.catch_ m).1.any isSetAction = true
  · simp [ha, hp m ha]
  · simp only [Bool.not_eq_true] at ha
    simp [ha]

def Fate.verdict : Fate → Verdict
  | .passes _ => .thrown
  | .isCaught _ => .caught

theorem chain_spec (h : Handler) (q : List Entry) (s : Server) (m : Msg)
    (hq : ∀ e ∈ q, e.enabled = true → Quiet e ∧ Plain e) :
    chain h false q s m = ⟨s, (specChain h q m).msg, [], (specChain h q m).verdict⟩ := by
  induction q generalizing m with
  | nil => rfl
  | cons e q ih =>
    have ih' := fun m => ih m (fun x hx => hq x (by simp [hx]))
    unfold chain specChain
    cases he : e.enabled with
    | false => simp [ih']
    | true =>
      obtain ⟨h1, h2⟩ := hq e (by simp) he
      simp only [h1.1, oneCatcher_quiet h e s m h1, leaves_plain h e m h2]
      by_cases hc : (e.catch_ m).2 = .caught
      · simp [hc, Fate.msg, Fate.verdict]
      · simp [hc, ih']

theorem chain_fromFirst (h : Handler) (q : List Entry) (s : Server) (m : Msg)
    (hq : ∀ e ∈ q, e.enabled = true → Quiet e ∧ Plain e) :
    chain h false (fromFirst q) s m = chain h false q s m := by
  induction q with
  | nil => rfl
  | cons e q ih =>
    have ih' := ih (fun x hx => hq x (by simp [hx]))
    unfold fromFirst
    rw [List.dropWhile_cons]
    split
    · rename_i hd
      have hen : e.enabled = false := by
        cases he : e.enabled with
        | false => rfl
        | true => have := (hq e (by simp) he).1.1; simp [this, he] at hd
      rw [show chain h false (e :: q) s m = chain h false q s m by simp [chain, hen]]
      exact ih'
    · rfl

end Verif.Report
