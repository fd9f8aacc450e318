import Verif.Lemmas.TlmTime
/-!
# Properties of canonical times
-/
namespace Verif.TlmTime
open Spec

private theorem born (i : Nat) (as : List Act) (hs : Sane as) : ∀ s : Sys, 0 < s.dflt → (∀ o ∈ s.objs, 0 < o.res) → about i s.log = [] →
    s.objs.length ≤ i → i < s.objs.length + count as →
    ∃ o', (as.foldl step s).objs[i]? = some o' ∧ 0 < o'.res ∧ o'.time * o'.res = (callsOf i s.objs.length as).foldl after 0 ∧
      about i (as.foldl step s).log = allReports 0 (callsOf i s.objs.length as) := by
  induction as with
  | nil => intro s _ _ _ h3 h4; simp [count] at h4; omega
  | cons a as ih =>
    intro s h1 h2 hl h3 h4
    have h2' : (∀ o ∈ (step s a).objs, 0 < o.res) ∧ 0 < (step s a).dflt := by
      refine foldl_step_dflt [a] ?_ s h1 h2
      cases a with
      | resolution r => exact ⟨hs.1, trivial⟩
      | new r => exact ⟨hs.1, trivial⟩
      | on i c => exact trivial
    rw [List.foldl_cons]
    cases a with
    | resolution r => exact ih hs.2 (step s (.resolution r)) h2'.2 h2'.1 hl h3 h4
    | new r =>
      have hlen : (step s (.new r)).objs.length = s.objs.length + 1 := by simp [step]
      by_cases he : i = s.objs.length
      · have ho : (step s (.new r)).objs[i]? = some (mkTime s.dflt r) := by simp [step, he]
        obtain ⟨o', x, y, z, w⟩ := foldl_step_obj i as hs.2 (step s (.new r)) h2'.2 h2'.1 _ ho
        have hr : 0 < (mkTime s.dflt r).res := h2'.1 _ (List.mem_of_getElem? ho)
        rw [hlen] at z w
        have h0 : (mkTime s.dflt r).time = 0 := rfl
        rw [h0, Rat.zero_mul] at z w
        have hl2 : about i (step s (.new r)).log = [] := hl
        rw [hl2] at w
        exact ⟨o', x, by rw [y]; exact hr, by rw [y]; exact z, by simpa [callsOf] using w⟩
      · have := ih hs.2 (step s (.new r)) h2'.2 h2'.1 hl (by omega) (by rw [hlen]; simp only [count] at h4; omega)
        rw [hlen] at this
        exact this
    | on j c =>
      have hno : (s.objs[i]? : Option Time) = none := by simp; omega
      have hlen : (step s (.on j c)).objs.length = s.objs.length := by simp only [step]; split <;> simp
      have hlog : about i (step s (.on j c)).log = [] := by
        simp only [step]; split
        · exact hl
        · next o ho =>
          have hj : j ≠ i := by intro e; rw [e, hno] at ho; cases ho
          simp only [about_append, about_other i j hj, hl, List.append_nil]
      have := ih hs (step s (.on j c)) h2'.2 h2'.1 hlog (by omega) (by rw [hlen]; exact h4)
      rw [hlen] at this
      have hne : ¬ (j = i ∧ i < s.objs.length) := by omega
      simp only [callsOf, hne, if_false]
      exact this

/-- C216. In any history of a simulation, in which resolutions are changed and times are made and used in any order, each time reads, in every
unit and through either reading function, as the sum of what was done to it in seconds: its resolution, the default resolution, later changes
of the default and the calls of other times do not show; and exactly the calls that cannot be carried out are reported. -/
theorem C216_resolution_invisible (as : List Act) (hs : Sane as) (i : Nat) (hi : i < count as) :
    ∃ o, (run as).objs[i]? = some o ∧
      (∀ secs, secs ≠ 0 → getAbs o secs = some ((callsOf i 0 as).foldl after 0 / secs)) ∧
      (∀ scaled secs, secs ≠ 0 → getReal o scaled secs = some ((callsOf i 0 as).foldl after 0 * scaled / secs)) ∧
      (((run as).log.filter (fun p => p.1 == i)).map (·.2)) = allReports 0 (callsOf i 0 as) := by
  obtain ⟨o, h1, h2, h3, h4⟩ := born i as hs start (by simp [start]) (by simp [start]) rfl (by simp [start]) (by simpa [start] using hi)
  refine ⟨o, h1, ?_, ?_, h4⟩
  · intro secs h; rw [getAbs, if_neg h, h3]; rfl
  · intro scaled secs h
    have h3' : o.time * o.res = (callsOf i 0 as).foldl after 0 := h3
    rw [getReal, if_neg h, ← h3']
    congr 1; field_simp

example : Sane [.new 0, .resolution 2, .new 0, .on 0 (.incr 5 1 (1 / 1000)), .on 1 (.incr 5 1 (1 / 1000)), .on 1 (.decr 7 1 1), .on 0 (.decr 2 1 (1 / 1000))] ∧
    ((run [.new 0, .resolution 2, .new 0, .on 0 (.incr 5 1 (1 / 1000)), .on 1 (.incr 5 1 (1 / 1000)), .on 1 (.decr 7 1 1), .on 0 (.decr 2 1 (1 / 1000))]).objs.map
      (fun o => getAbs o (1 / 1000))) = [some 3, some 0] ∧
    (run [.new 0, .resolution 2, .new 0, .on 0 (.incr 5 1 (1 / 1000)), .on 1 (.incr 5 1 (1 / 1000)), .on 1 (.decr 7 1 1), .on 0 (.decr 2 1 (1 / 1000))]).log =
      [(1, .tooDecr)] := by
  refine ⟨?_, ?_, ?_⟩
  · simp [Sane]
  · decide +kernel
  · decide +kernel

/-- C217. Durations are laws: what is set is read, in any unit; what is added and taken away again leaves the time as it was. -/
theorem C217_laws (o : Time) (hr : 0 < o.res) (t u : Rat) (hu : 0 < u) :
    (∀ v, v ≠ 0 → getAbs (setAbs o t u).obj v = some (t * u / v)) ∧
    (∀ s, 0 < s → 0 ≤ t → (call (call o (.incr t s u)).obj (.decr t s u)).obj = (if o.time < 0 then reset o else o)) ∧
    (∀ s, 0 < s → 0 ≤ t → getReal (incr (reset o) t s u).obj s u = some t) := by
  have h0 : o.res ≠ 0 := ne_of_gt hr
  refine ⟨?_, ?_, ?_⟩
  · intro v hv
    simp only [setAbs, h0, if_false, getAbs, hv]
    congr 1; field_simp
  · intro s hs ht
    have hs0 : s ≠ 0 := ne_of_gt hs
    have ht' : ¬ t < 0 := not_lt.2 ht
    simp only [call, incr, toRes, ht', hs0, h0, or_false, if_false, decr]
    have e : o.time + t / s * (u / o.res) - t / s * (u / o.res) = o.time := by ring
    simp only [e]
    split <;> rfl
  · intro s hs ht
    have hs0 : s ≠ 0 := ne_of_gt hs
    have ht' : ¬ t < 0 := not_lt.2 ht
    have hu0 : u ≠ 0 := ne_of_gt hu
    simp only [incr, reset, toRes, ht', hs0, h0, or_false, if_false, getReal, hu0]
    congr 1; field_simp; ring

example : (0 : Rat) < (mkTime (1 / 1000) 0).res ∧ (0 : Rat) < 1 / 1000000 := by decide +kernel

/-- C217. A call raises exactly if it has to divide by a scale of 0. -/
theorem C217_raises (o : Time) (hr : 0 < o.res) (c : Call) : (call o c).raised = true ↔
    (∃ t u, 0 ≤ t ∧ c = .incr t 0 u) ∨ ∃ t u, 0 ≤ t ∧ c = .decr t 0 u := by
  have h0 : o.res ≠ 0 := ne_of_gt hr
  cases c with
  | reset => simp [call]
  | set t u => simp [call, setAbs, h0]
  | incr t s u =>
    simp only [call, incr, toRes, h0, or_false]
    by_cases ht : t < 0
    · have : ¬ 0 ≤ t := not_le.2 ht
      simp [ht]
    · by_cases hs : s = 0
      · subst hs; simp [ht, not_lt.1 ht]
      · simp [ht, hs]
  | decr t s u =>
    simp only [call, decr, toRes, h0, or_false]
    by_cases ht : t < 0
    · have : ¬ 0 ≤ t := not_le.2 ht
      simp [ht]
    · by_cases hs : s = 0
      · subst hs; simp [ht, not_lt.1 ht]
      · simp only [ht, hs, if_false]
        split <;> simp [hs]

example : (call (mkTime (1 / 1000) 0) (.incr 5 0 1)).raised = true ∧ (call (mkTime (1 / 1000) 0) (.incr 5 1 1)).raised = false := by decide +kernel

/-- C218, violated: `set_abstime` takes a negative time, whatever the resolution, without a report. -/
theorem C218_never_negative_fails (dflt : Rat) (h : 0 < dflt) (t u : Rat) (ht : t < 0) (hu : 0 < u) :
    getAbs (call (mkTime dflt 0) (.set t u)).obj u = some t ∧ (call (mkTime dflt 0) (.set t u)).msgs = [] := by
  have h0 : dflt ≠ 0 := ne_of_gt h
  have hu0 : u ≠ 0 := ne_of_gt hu
  simp only [call, setAbs, mkTime, if_true, h0, if_false, getAbs, hu0, and_true]
  congr 1; field_simp

/-- C218, what holds: a time that is given lengths of time only is never negative. -/
theorem C218_never_negative_partial (as : List Act) (hs : Sane as) (i : Nat) (hi : i < count as)
    (hf : ∀ c ∈ callsOf i 0 as, Forward c) : ∃ o v, (run as).objs[i]? = some o ∧ getAbs o 1 = some v ∧ 0 ≤ v := by
  obtain ⟨o, h1, h2, _⟩ := C216_resolution_invisible as hs i hi
  refine ⟨o, _, h1, h2 1 (by decide +kernel), ?_⟩
  have : ∀ (cs : List Call) (d : Rat), 0 ≤ d → (∀ c ∈ cs, Forward c) → 0 ≤ cs.foldl after d := by
    intro cs
    induction cs with
    | nil => intro d hd _; exact hd
    | cons c cs ih =>
      intro d hd hc
      exact ih _ (after_nonneg d hd c (hc c (by simp))) (fun c' h' => hc c' (by simp [h']))
  rw [div_one]
  exact this _ 0 (le_refl _) hf

example : (∀ c ∈ callsOf 0 0 [.new 0, .on 0 (.incr 5 1 3), .on 0 (.decr 7 1 3)], Forward c) := by
  intro c hc
  simp [callsOf] at hc
  rcases hc with rfl | rfl <;> simp [Forward]

end Verif.TlmTime
