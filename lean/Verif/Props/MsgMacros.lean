import Verif.Props.Report
import Verif.Props.RootSettings
import Verif.Lemmas.Callback
import Verif.Spec.MsgMacros
/-! # C385-C388: message macros -/
namespace Verif.MsgMacros
open Verif.Report

theorem enabled_after (ops : List HOp) (q : List Entry) (v : Int) (s : Sev) (i : String) : enabled (after ops q) v s i = decide (v ≤ specVerb ops s i) := by
  simp only [enabled, after, ge_iff_le, getVerbosity_eq]

theorem effective_of {v : Int} (h : v ≠ -1) (s : Sev) : effective v s = v := by simp [effective, h]

theorem checked_after (w : World) (ops : List HOp) (q : List Entry) (s : Sev) (i t : String) {v : Int} (h : v ≠ -1) :
    uvmReport w (after ops q) s i t v true = passedOn w ops q s i t v := by
  simp only [uvmReport, Bool.true_eq_false, false_and, if_false, effective_of h, passedOn, after]

/-- C385. The report methods of an object and the macros with an explicit report object pass a message on exactly if the settings of that object admit its
verbosity. -/
theorem C385_methods (w : World) (ops : List HOp) (q : List Entry) (s : Sev) (i t : String) (v : Int) (h : v ≠ -1) :
    uvmReport w (after ops q) s i t v false = filtered w ops q s i t v ∧
    uvmInfoContext w (after ops q) i t v = filtered w ops q .info i t v ∧
    uvmErrorContext w (after ops q) i t = filtered w ops q .error i t 0 := by
  refine ⟨?_, ?_, ?_⟩
  · simp only [uvmReport, true_and, effective_of h, enabled_after, decide_eq_false_iff_not, filtered, dropped, passedOn]
    by_cases hv : v ≤ specVerb ops s i
    · rw [if_neg (by simp [hv]), if_pos hv]; rfl
    · rw [if_pos hv, if_neg hv]
  · simp only [uvmInfoContext, enabled_after, decide_eq_true_eq, filtered, dropped, checked_after w ops q .info i t h]
  · simp only [uvmErrorContext, enabled_after, decide_eq_true_eq, filtered, dropped, checked_after w ops q .error i t (v := 0) (by decide)]

/-- C385. A report with verbosity -1 has the verbosity that belongs to its severity: 200 for information and warnings, 100 for errors, 0 for fatal errors. -/
theorem C385_default (w : World) (ops : List HOp) (q : List Entry) (i t : String) :
    uvmReport w (after ops q) .info i t (-1) false = filtered w ops q .info i t 200 ∧ uvmReport w (after ops q) .warning i t (-1) false = filtered w ops q .warning i t 200 ∧
    uvmReport w (after ops q) .error i t (-1) false = filtered w ops q .error i t 100 ∧ uvmReport w (after ops q) .fatal i t (-1) false = filtered w ops q .fatal i t 0 := by
  have e : ∀ s, uvmReport w (after ops q) s i t (-1) false = uvmReport w (after ops q) s i t (severityVerbosity s) false := by
    intro s; cases s <;> rfl
  refine ⟨?_, ?_, ?_, ?_⟩ <;> rw [e] <;> exact (C385_methods w ops q _ i t _ (by decide)).1

example : ((uvmInfoContext newWorld (after [.setVerbosityLevel 300] []) "ID" "text" 300).fx).length = 2 ∧
    ((uvmInfoContext newWorld (after [.setVerbosityLevel 300] []) "ID" "text" 301).fx).length = 0 := by decide +kernel

/-- C386, what holds: a macro used in a method of a report object passes the message on, with severity, action, file and catchers of that object, exactly if the
settings of the root component admit its verbosity. -/
theorem C386_root_decides_partial (w : World) (rops : List HOp) (rq : List Entry) (ops : List HOp) (q : List Entry) (s : Sev) (i t : String) (v : Int) (h : v ≠ -1) :
    macroReport w (after rops rq) (.reporter (after ops q)) s i t v = if v ≤ specVerb rops s i then passedOn w ops q s i t v else dropped w := by
  simp only [macroReport, enabled_after, decide_eq_true_eq, checked_after w ops q s i t h, dropped]

/-- C386, what holds: where the limits of the object and of the root are the same, the macro obeys the settings of the object. -/
theorem C386_same_limit_partial (w : World) (rops : List HOp) (rq : List Entry) (ops : List HOp) (q : List Entry) (s : Sev) (i t : String) (v : Int) (h : v ≠ -1)
    (hs : specVerb rops s i = specVerb ops s i) : macroReport w (after rops rq) (.reporter (after ops q)) s i t v = filtered w ops q s i t v := by
  rw [C386_root_decides_partial w rops rq ops q s i t v h, hs]; rfl

/-- C386 fails. Whenever the limits of an object and of the root differ there are verbosities the macro treats differently from what the object was set to: messages
the object should drop are passed on, or messages it should pass on are dropped. -/
theorem C386_own_limit_fails (w : World) (rops : List HOp) (rq : List Entry) (ops : List HOp) (q : List Entry) (s : Sev) (i t : String) (v : Int) (h : v ≠ -1) :
    (specVerb ops s i < v → v ≤ specVerb rops s i → macroReport w (after rops rq) (.reporter (after ops q)) s i t v = passedOn w ops q s i t v ∧ filtered w ops q s i t v = dropped w) ∧
    (specVerb rops s i < v → v ≤ specVerb ops s i → macroReport w (after rops rq) (.reporter (after ops q)) s i t v = dropped w ∧ filtered w ops q s i t v = passedOn w ops q s i t v) := by
  rw [C386_root_decides_partial w rops rq ops q s i t v h]
  refine ⟨fun h1 h2 => ⟨if_pos h2, if_neg (by omega)⟩, fun h1 h2 => ⟨if_neg (by omega), if_pos h2⟩⟩

/-- C386 fails: a component set to UVM_HIGH (300) loses its messages of that verbosity, and one set to UVM_NONE still shows those of UVM_MEDIUM. -/
theorem C386_levels_fails :
    (uvmInfo newWorld (after [] []) (.reporter (after [.setVerbosityLevel 300] [])) "ID" "text" 300).fx = [] ∧
    ((uvmInfo newWorld (after [] []) (.reporter (after [.setVerbosityLevel 0] [])) "ID" "text" 200).fx).length = 2 := by decide +kernel

example : specVerb [.setIdVerbosity "ID" 300] .info "ID" = 300 ∧ specVerb [] .info "ID" = 200 := by decide +kernel

/-! ## The macros in a hierarchy of components -/

/-- Every component is below the root, has the level of the root and no verbosities for ids. -/
structure Level (s : RootSettings.Comps) : Prop where
  pos : 0 < s.next
  below : ∀ d, d < s.next → RootSettings.Desc s.kids 0 d
  same : ∀ d, d < s.next → (s.h d).maxVerb = (s.h 0).maxVerb ∧ (s.h d).idVerb = (fun _ => none) ∧ (s.h d).sevIdVerb = (fun _ _ => none)

theorem quiet_same (h : Handler) {op : HOp} (hq : quiet op = true) :
    (hstep h op).maxVerb = h.maxVerb ∧ (hstep h op).idVerb = h.idVerb ∧ (hstep h op).sevIdVerb = h.sevIdVerb := by
  cases op <;> first | exact ⟨rfl, rfl, rfl⟩ | simp [quiet] at hq

theorem level_reach (v : Int) (ops : List RootSettings.Op) (h : ∀ o ∈ ops, levelOnly o = true) : Level (ops.foldl RootSettings.step (RootSettings.root v)) := by
  induction ops using Callback.snoc_ind with
  | h0 =>
    refine ⟨Nat.one_pos, fun d hd => ?_, fun d hd => ⟨rfl, rfl, rfl⟩⟩
    have : d = 0 := by simp [RootSettings.root] at hd; omega
    subst this; exact .refl
  | h1 ops o ih =>
    have ih := ih fun o' ho' => h o' (by simp [ho'])
    have ho := h o (by simp)
    have hH := fun c op hc d => RootSettings.C211_hier v ops c op hc d
    rw [List.foldl_append]
    show Level (RootSettings.step (ops.foldl RootSettings.step (RootSettings.root v)) o)
    generalize ops.foldl RootSettings.step (RootSettings.root v) = s at ih hH
    obtain ⟨h1, h2, h3⟩ := ih
    cases o with
    | new p =>
      simp only [RootSettings.step]
      split
      · next hp =>
        have mono : ∀ d, RootSettings.Desc s.kids 0 d → RootSettings.Desc (fun d => if d = p then s.kids d ++ [s.next] else s.kids d) 0 d := by
          intro d hd
          induction hd with
          | refl => exact .refl
          | step _ hx ih2 =>
            refine .step ih2 ?_
            split
            · exact List.mem_append_left _ hx
            · exact hx
        have h0 : (0 : Nat) ≠ s.next := by omega
        refine ⟨Nat.succ_pos _, fun d hd => ?_, fun d hd => ?_⟩
        · by_cases e : d = s.next
          · subst e
            exact .step (mono p (h2 p hp)) (by simp)
          · exact mono d (h2 d (by simp at hd; omega))
        · simp only [RootSettings.setH, h0, if_false]
          by_cases e : d = s.next
          · simp only [e, if_true]
            exact ⟨(h3 p hp).1, rfl, rfl⟩
          · simp only [e, if_false]
            exact h3 d (by simp at hd; omega)
      · exact ⟨h1, h2, h3⟩
    | hier c op =>
      by_cases hc : c < s.next
      · have hn : (RootSettings.step s (.hier c op)).next = s.next := by simp [RootSettings.step, hc]
        have hH' := hH c op hc
        refine ⟨by rw [hn]; exact h1, fun d hd => ?_, fun d hd => ?_⟩
        · rw [(hH' d).2.2]; exact h2 d (by omega)
        · rw [hn] at hd
          by_cases hq : quiet op = true
          · have key : ∀ e, ((RootSettings.step s (.hier c op)).h e).maxVerb = (s.h e).maxVerb ∧ ((RootSettings.step s (.hier c op)).h e).idVerb = (s.h e).idVerb ∧
                ((RootSettings.step s (.hier c op)).h e).sevIdVerb = (s.h e).sevIdVerb := by
              intro e
              by_cases he : RootSettings.Desc s.kids c e
              · rw [(hH' e).1 he]; exact quiet_same _ hq
              · rw [(hH' e).2.1 he]; exact ⟨rfl, rfl, rfl⟩
            rw [(key d).1, (key 0).1, (key d).2.1, (key d).2.2]
            exact h3 d hd
          · have : c = 0 ∧ ∃ l, op = .setVerbosityLevel l := by
              cases op <;> simp [levelOnly, quiet] at ho hq ⊢
              exact ho
            obtain ⟨rfl, l, rfl⟩ := this
            rw [(hH' d).1 (h2 d hd), (hH' 0).1 (h2 0 h1)]
            exact ⟨rfl, (h3 d hd).2⟩
      · have : RootSettings.step s (.hier c op) = s := by simp [RootSettings.step, hc]
        rw [this]; exact ⟨h1, h2, h3⟩
    | one c op =>
      have hq : quiet op = true := ho
      simp only [RootSettings.step]
      split
      · refine ⟨h1, h2, fun d hd => ?_⟩
        have key : ∀ e, (RootSettings.setH s.h c (hstep (s.h c) op) e).maxVerb = (s.h e).maxVerb ∧ (RootSettings.setH s.h c (hstep (s.h c) op) e).idVerb = (s.h e).idVerb ∧
            (RootSettings.setH s.h c (hstep (s.h c) op) e).sevIdVerb = (s.h e).sevIdVerb := by
          intro e
          unfold RootSettings.setH
          split
          · next he => rw [he]; exact quiet_same _ hq
          · exact ⟨rfl, rfl, rfl⟩
        dsimp only
        rw [(key d).1, (key 0).1, (key d).2.1, (key d).2.2]
        exact h3 d hd
      · exact ⟨h1, h2, h3⟩

/-- C386, what holds: in a hierarchy whose verbosities were only ever set by the command line and by `set_report_verbosity_level_hier` at the root, the macros used
in any component obey the settings of that component: they do what its report methods do. -/
theorem C386_hierarchy_partial (lv : Int) (ops : List RootSettings.Op) (h : ∀ o ∈ ops, levelOnly o = true) (c : Nat) (hc : c < (ops.foldl RootSettings.step (RootSettings.root lv)).next)
    (w : World) (rq q : List Entry) (s : Sev) (i t : String) (v : Int) (hv : v ≠ -1) :
    macroReport w ⟨(ops.foldl RootSettings.step (RootSettings.root lv)).h 0, rq⟩ (.reporter ⟨(ops.foldl RootSettings.step (RootSettings.root lv)).h c, q⟩) s i t v =
      uvmReport w ⟨(ops.foldl RootSettings.step (RootSettings.root lv)).h c, q⟩ s i t v false := by
  have hL := level_reach lv ops h
  generalize ops.foldl RootSettings.step (RootSettings.root lv) = cs at hL hc ⊢
  have e : ∀ d, d < cs.next → getVerbosity (cs.h d) s i = (cs.h 0).maxVerb := by
    intro d hd
    obtain ⟨h1, h2, h3⟩ := hL.same d hd
    simp only [getVerbosity, h2, h3, h1]
  simp only [macroReport, uvmReport, enabled, e c hc, e 0 hL.pos, effective_of hv, Bool.true_eq_false, false_and, if_false, true_and, decide_eq_true_eq, decide_eq_false_iff_not]
  by_cases hx : (cs.h 0).maxVerb ≥ v
  · rw [if_pos hx, if_neg (by simpa using hx)]
  · rw [if_neg hx, if_pos hx]

example : let cs := [RootSettings.Op.new 0, .hier 0 (.setVerbosityLevel 300), .new 1, .one 2 (.setSevAction .info 3)].foldl RootSettings.step (RootSettings.root 200)
    (∀ o ∈ [RootSettings.Op.new 0, .hier 0 (.setVerbosityLevel 300), .new 1, .one 2 (.setSevAction .info 3)], levelOnly o = true) ∧ 2 < cs.next ∧
    ((uvmInfo newWorld ⟨cs.h 0, []⟩ (.reporter ⟨cs.h 2, []⟩) "ID" "text" 300).fx).length = 3 := by decide +kernel

/-- C387. Used outside report objects, in a sequence, another object or a function, a macro reports through the root, by the settings of the root. -/
theorem C387_elsewhere (w : World) (rops : List HOp) (rq : List Entry) (s : Sev) (i t : String) (v : Int) (h : v ≠ -1) :
    macroReport w (after rops rq) .object s i t v = filtered w rops rq s i t v ∧ macroReport w (after rops rq) .none s i t v = filtered w rops rq s i t v ∧
    (∀ b, globalReport w (after rops rq) s i t v b = filtered w rops rq s i t v) := by
  have hg : ∀ b, globalReport w (after rops rq) s i t v b = filtered w rops rq s i t v := by
    intro b
    simp only [globalReport, enabled_after, decide_eq_true_eq, filtered, dropped]
    by_cases hv : v ≤ specVerb rops s i
    · rw [if_pos hv, if_pos hv]
      cases b with
      | true => exact checked_after w rops rq s i t h
      | false => rw [(C385_methods w rops rq s i t v h).1, filtered, if_pos hv]
    · rw [if_neg hv, if_neg hv]
  refine ⟨?_, ?_, hg⟩ <;>
  · simp only [macroReport, hg, enabled_after, decide_eq_true_eq]
    by_cases hv : v ≤ specVerb rops s i
    · rw [if_pos hv]
    · rw [if_neg hv, filtered, if_neg hv]; rfl

example : ((uvmInfo newWorld (after [.setVerbosityLevel 300] []) .object "ID" "text" 300).fx).length = 2 := by decide +kernel

/-- C387. With verbosity -1 the root checks that number, not the verbosity that belongs to the severity: unless the limit of the root is below -1 the message is
passed on, with the verbosity of its severity, also where a report method would drop it (`C385_default`). -/
theorem C387_minus_one (w : World) (rops : List HOp) (rq : List Entry) (s : Sev) (i t : String) (hv : -1 ≤ specVerb rops s i) :
    macroReport w (after rops rq) .object s i t (-1) = passedOn w rops rq s i t (severityVerbosity s) ∧
    macroReport w (after rops rq) .none s i t (-1) = passedOn w rops rq s i t (severityVerbosity s) := by
  have he : enabled (after rops rq) (-1) s i = true := by rw [enabled_after]; exact decide_eq_true hv
  have hu : uvmReport w (after rops rq) s i t (-1) true = passedOn w rops rq s i t (severityVerbosity s) := by
    simp only [uvmReport, Bool.true_eq_false, false_and, if_false, effective, if_true, passedOn, after]
  have hg : globalReport w (after rops rq) s i t (-1) true = passedOn w rops rq s i t (severityVerbosity s) := by
    rw [globalReport, if_pos he, hu]
  exact ⟨by rw [macroReport, if_pos he]; exact hg, by rw [macroReport, if_pos he]; exact hg⟩

example : ((macroReport newWorld (after [.setVerbosityLevel 0] []) .object .info "ID" "text" (-1)).fx).length = 2 ∧
    ((uvmReport newWorld (after [.setVerbosityLevel 0] []) .info "ID" "text" (-1) false).fx).length = 0 := by decide +kernel

/-- C388. Warnings, errors and fatal errors made with the macros are passed on whatever limits the object has, as long as the limits of the root are not negative:
lowering verbosities does not hide them. -/
theorem C388_never_hidden (w : World) (rops : List HOp) (rq : List Entry) (ops : List HOp) (q : List Entry) (i t : String) (h : ∀ s, 0 ≤ specVerb rops s i) :
    uvmWarning w (after rops rq) (.reporter (after ops q)) i t = passedOn w ops q .warning i t 0 ∧
    uvmError w (after rops rq) (.reporter (after ops q)) i t = passedOn w ops q .error i t 0 ∧
    uvmFatal w (after rops rq) (.reporter (after ops q)) i t = passedOn w ops q .fatal i t 0 ∧
    uvmError w (after rops rq) .object i t = passedOn w rops rq .error i t 0 := by
  refine ⟨?_, ?_, ?_, ?_⟩
  · rw [uvmWarning, C386_root_decides_partial w rops rq ops q .warning i t 0 (by decide), if_pos (h _)]
  · rw [uvmError, C386_root_decides_partial w rops rq ops q .error i t 0 (by decide), if_pos (h _)]
  · rw [uvmFatal, C386_root_decides_partial w rops rq ops q .fatal i t 0 (by decide), if_pos (h _)]
  · rw [uvmError, (C387_elsewhere w rops rq .error i t 0 (by decide)).1, filtered, if_pos (h _)]

example : ∀ s, 0 ≤ specVerb [.setVerbosityLevel 0, .setIdVerbosity "X" 100] s "ID" := by intro s; cases s <;> decide +kernel
example : ((uvmError newWorld (after [.setVerbosityLevel 0] []) (.reporter (after [.setVerbosityLevel (-5)] [])) "ID" "text").fx).length = 2 := by decide +kernel

end Verif.MsgMacros
