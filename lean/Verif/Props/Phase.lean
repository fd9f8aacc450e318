import Verif.Lemmas.Phase
/-! # C49: phase schedules -/
namespace Verif.Phase

theorem run_snoc (ops : List Op) (o : Op) :
    (run step init (ops ++ [o])).2 = (run step init ops).2 ++ [(step (runS step init ops) o).2] := by
  have key : ∀ (s : State), (run step s (ops ++ [o])).2 = (run step s ops).2 ++ [(step (runS step s ops) o).2] := by
    induction ops with
    | nil => intro s; rfl
    | cons a l ih =>
      intro s
      have := ih (step s a).1
      simp only [List.cons_append, run]
      rw [this]; rfl
  exact key init

/-- C49, the part that holds: as long as phases are only put at the end of a schedule, before or after one other phase
(whole schedules too), every call succeeds and the phases form chains in exactly the order described by the calls: each
phase has as predecessor and successor just its neighbours. Missing: `with_phase` (`C49_with_partial`) and `after_phase`
together with `before_phase` (`C49_adjacent_fails`). -/
theorem C49_linear_partial {ops : List Op} {cs : List (List Nat)} (h : Sched ops cs) :
    Chains (runS step init ops) cs ∧ ∀ r ∈ (run step init ops).2, r = .ok := by
  refine ⟨(sched_inv h).chains, ?_⟩
  induction h with
  | nil => intro r hr; cases hr
  | newImp _ ih =>
    intro r hr; rw [run_snoc] at hr
    rcases List.mem_append.mp hr with hr | hr
    · exact ih r hr
    · simpa [step] using hr
  | newTop d _ ih =>
    intro r hr; rw [run_snoc] at hr
    rcases List.mem_append.mp hr with hr | hr
    · exact ih r hr
    · simpa [step] using hr
  | append hs hi h1 h2 h3 ih =>
    intro r hr; rw [run_snoc] at hr
    rcases List.mem_append.mp hr with hr | hr
    · exact ih r hr
    · rw [(add_append (sched_inv hs) hi h1 h2 h3).1] at hr; simpa using hr
  | before hs hi h1 h2 h3 h4 h5 h6 ih =>
    intro r hr; rw [run_snoc] at hr
    rcases List.mem_append.mp hr with hr | hr
    · exact ih r hr
    · rw [(add_before (sched_inv hs) hi h1 h2 h3 h4 h5 h6).1] at hr; simpa using hr
  | after hs hi h1 h2 h3 h4 h5 h6 ih =>
    intro r hr; rw [run_snoc] at hr
    rcases List.mem_append.mp hr with hr | hr
    · exact ih r hr
    · rw [(add_after (sched_inv hs) hi h1 h2 h3 h4 h5 h6).1] at hr; simpa using hr

/-- C49, the part that holds: in these schedules, and when IMP phases have then been put in parallel with others, a phase is
a successor of another exactly when the other is its predecessor. -/
theorem C49_mutual_partial {ops : List Op} (h : Par ops) : Mutual (runS step init ops) := (par_winv h).mtl

/-- C49, the part that holds: in these schedules `is_before` and `is_after` answer according to the order; the argument can
be a phase of the schedule or an IMP phase, which stands for the phases made from it. -/
theorem C49_order_partial {ops : List Op} {cs : List (List Nat)} (h : Sched ops cs) (a phase : Nat)
    (ha : a ∈ cs.flatten) :
    (isBefore (runS step init ops) a phase = some true ∨ isBefore (runS step init ops) a phase = some false) ∧
    (isBefore (runS step init ops) a phase = some true ↔ ¬ isPhase (runS step init ops) phase a ∧
      ∃ b, isPhase (runS step init ops) phase b ∧ Earlier cs a b) ∧
    (isAfter (runS step init ops) a phase = some true ∨ isAfter (runS step init ops) a phase = some false) ∧
    (isAfter (runS step init ops) a phase = some true ↔ ¬ isPhase (runS step init ops) phase a ∧
      ∃ b, isPhase (runS step init ops) phase b ∧ Earlier cs b a) := by
  have hc := (sched_inv h).chains
  generalize runS step init ops = s at *
  have hm := (hc.mem a).mp ha
  obtain ⟨u, v, huv⟩ := chain_of hc hm.1 hm.2
  have hb : isBefore s a phase = some (!isPhase s phase a && (v.find? (isPhase s phase)).isSome) := by
    rw [isBefore, findSucc_in hc huv false a phase, inScope_false, takeWhile_true]
    by_cases hp : isPhase s phase a = true <;> simp [hp]
  have hbp : isAfter s a phase = some (!isPhase s phase a && (u.reverse.find? (isPhase s phase)).isSome) := by
    rw [isAfter, findPred_in hc huv false a phase, inScope_false, takeWhile_true]
    by_cases hp : isPhase s phase a = true <;> simp [hp]
  refine ⟨?_, ?_, ?_, ?_⟩
  · rw [hb]; cases (!isPhase s phase a && (v.find? (isPhase s phase)).isSome) <;> simp
  · rw [hb]
    simp only [Option.some.injEq, Bool.and_eq_true, Bool.not_eq_true', List.find?_isSome, Bool.not_eq_true]
    refine and_congr Iff.rfl ⟨?_, ?_⟩
    · rintro ⟨b, h1, h2⟩; exact ⟨b, h2, (earlier_iff hc huv).1.mpr h1⟩
    · rintro ⟨b, h1, h2⟩; exact ⟨b, (earlier_iff hc huv).1.mp h2, h1⟩
  · rw [hbp]; cases (!isPhase s phase a && (u.reverse.find? (isPhase s phase)).isSome) <;> simp
  · rw [hbp]
    simp only [Option.some.injEq, Bool.and_eq_true, Bool.not_eq_true', List.find?_isSome, Bool.not_eq_true, List.mem_reverse]
    refine and_congr Iff.rfl ⟨?_, ?_⟩
    · rintro ⟨b, h1, h2⟩; exact ⟨b, h2, (earlier_iff hc huv).2.mpr h1⟩
    · rintro ⟨b, h1, h2⟩; exact ⟨b, (earlier_iff hc huv).2.mp h2, h1⟩

/-- C49, the part that holds: in these schedules `find` searches backwards from the phase to the first phase out of scope,
then forwards, and returns the nearest match. -/
theorem C49_find_partial {ops : List Op} {cs : List (List Nat)} (h : Sched ops cs) (u v : List Nat) (a phase : Nat)
    (huv : u ++ a :: v ∈ cs) (stay : Bool) (hp : isPhase (runS step init ops) phase a = false) :
    find (runS step init ops) a phase stay = some
      (((u.reverse.takeWhile (inScope (runS step init ops) stay a)).find? (isPhase (runS step init ops) phase)).or
       ((v.takeWhile (inScope (runS step init ops) stay a)).find? (isPhase (runS step init ops) phase))) := by
  have hc := (sched_inv h).chains
  generalize runS step init ops = s at *
  rw [find, hp, findPred_in hc huv stay a phase, findSucc_in hc huv stay a phase]
  simp only [Bool.false_eq_true, if_false, List.find?_cons, hp]
  cases (u.reverse.takeWhile (inScope s stay a)).find? (isPhase s phase) <;> simp

/-- C49, the part that holds: an IMP phase added with `with_phase` to such a schedule gets one new phase with the same
predecessors and successors as the other, whose own neighbours do not change; the new phase becomes a successor of its
predecessors and a predecessor of its successors, and nothing else changes. -/
theorem C49_with_partial {ops : List Op} (h : Par ops) (self phase x : Nat) (w : Option Nat)
    (hs : self < (runS step init ops).next) (hp : phase < (runS step init ops).next)
    (hk : (runS step init ops).kind phase = .imp) (hw : below (runS step init ops).next w)
    (hr : resolve (runS step init ops) self w = some (some x)) (hx : x < (runS step init ops).next)
    (hne : some x ≠ (runS step init ops).endN self) (he : (runS step init ops).endN self ≠ none) :
    ∃ t, step (runS step init ops) (.add self phase w none none) = (t, .ok) ∧
      t.next = (runS step init ops).next + 1 ∧ t.imp (runS step init ops).next = some phase ∧
      preds t (runS step init ops).next = preds (runS step init ops) x ∧
      succs t (runS step init ops).next = succs (runS step init ops) x ∧
      preds t x = preds (runS step init ops) x ∧ succs t x = succs (runS step init ops) x ∧
      ∀ a, a < (runS step init ops).next →
        (∀ b, b ∈ preds t a ↔ b ∈ preds (runS step init ops) a ∨
          (b = (runS step init ops).next ∧ x ∈ preds (runS step init ops) a)) ∧
        (∀ b, b ∈ succs t a ↔ b ∈ succs (runS step init ops) a ∨
          (b = (runS step init ops).next ∧ x ∈ succs (runS step init ops) a)) := by
  have hi := par_winv h
  generalize runS step init ops = s at *
  obtain ⟨e1, _, _, e2, e3, e4, e5, _, _, e6, e7⟩ := with_eff hi hx (some phase) (some self)
  refine ⟨_, add_with hs hp hk hw hr hne he, e1.next, ?_, e2, e3, e4, e5, ?_⟩
  · rw [e1.imp]; simp [new]
  · intro a ha
    constructor
    · intro b; rw [e6 a ha]; split
      · next k => rw [mem_addKey]; simp [k]
      · next k => simp [k]
    · intro b; rw [e7 a ha]; split
      · next k => rw [mem_addKey]; simp [k]
      · next k => simp [k]

/-- C49. What `find` counts as in scope: the phases of the same schedule or domain, including those in other schedules of
the same domain; phases directly in one domain are out of scope from a schedule in another. -/
theorem C49_scope (s : State) :
    (∀ a o, s.kind a = .node → s.parent a = some o → s.kind o = .schedule ∨ s.kind o = .domain → inScope s true o a) ∧
    (∀ a b p q d, 1 ≤ s.next → s.kind a = .node → s.parent a = some p → s.kind p = .schedule → s.parent p = some d →
      s.kind b = .node → s.parent b = some q → s.kind q = .schedule → s.parent q = some d → s.kind d = .domain →
      2 ≤ s.next → inScope s true a b) ∧
    (∀ a o d d', 2 ≤ s.next → s.kind o = .schedule → s.parent o = some d → s.kind d = .domain → s.kind a = .node →
      s.parent a = some d' → s.kind d' = .domain → d ≠ d' → ¬ inScope s true o a) := by
  refine ⟨?_, ?_, ?_⟩
  · intro a o h1 h2 h3
    rcases h3 with h3 | h3 <;> simp [inScope, getSchedule, h1, h2, h3]
  · intro a b p q d _ h1 h2 h3 h4 h5 h6 h7 h8 h9 hn
    obtain ⟨n, hn⟩ : ∃ n, s.next = n + 2 := ⟨s.next - 2, by omega⟩
    simp [inScope, hn, getDomain, h1, h2, h3, h4, h5, h6, h7, h8, h9]
  · intro a o d d' hn h1 h2 h3 h4 h5 h6 h7
    obtain ⟨n, hn⟩ : ∃ n, s.next = n + 2 := ⟨s.next - 2, by omega⟩
    simp [inScope, getSchedule, hn, getDomain, h1, h2, h3, h4, h5, h6]
    exact fun e => h7 e.symm

/-- C49 fails for `stay_in_scope` between domains: phases directly in one domain count as in scope from another. -/
theorem C49_scope_fails (s : State) (a b d d' : Nat) (ha : s.kind a = .node) (hb : s.kind b = .node)
    (hpa : s.parent a = some d) (hpb : s.parent b = some d') (hd : s.kind d = .domain) (hd' : s.kind d' = .domain) :
    inScope s true a b := by
  simp [inScope, getSchedule, ha, hb, hpa, hpb, hd, hd']

/-- C49. Calls with contradictory arguments are refused and change nothing: `with_phase` together with another, before the
schedule itself, after or with its end node. -/
theorem C49_refused (s : State) (self phase : Nat) (w a b : Option Nat)
    (hw : ∀ x, w = some x → s.kind x ≠ .imp) (ha : ∀ x, a = some x → s.kind x ≠ .imp) (hb : ∀ x, b = some x → s.kind x ≠ .imp)
    (h : (w ≠ none ∧ (a ≠ none ∨ b ≠ none)) ∨ b = some self ∨ a = s.endN self ∨ w = s.endN self) :
    step s (.add self phase w a b) = (s, .fatal) := by
  have hr : ∀ x : Option Nat, (∀ y, x = some y → s.kind y ≠ .imp) → resolve s self x = some x := by
    intro x hx
    cases x with
    | none => rfl
    | some y => rw [resolve, if_neg (hx y rfl)]
  simp only [step]
  split
  · rw [add, hr w hw, hr a ha, hr b hb]
    dsimp only
    split
    · rfl
    · next hn =>
      rw [if_pos]
      rcases h with h | h
      · exfalso; apply hn
        cases w <;> cases a <;> cases b <;> simp_all
      · exact h
  · rfl

theorem isBefore_chain {s : State} {cs : List (List Nat)} (hc : Chains s cs) {a : Nat} (phase : Nat) (ha : a ∈ cs.flatten)
    (h : ¬ ∃ b, isPhase s phase b = true ∧ Earlier cs a b) : isBefore s a phase = some false := by
  have hm := (hc.mem a).mp ha
  obtain ⟨u, v, huv⟩ := chain_of hc hm.1 hm.2
  rw [isBefore, findSucc_in hc huv false a phase, inScope_false, takeWhile_true]
  by_cases hp : isPhase s phase a = true
  · simp [hp]
  · have : v.find? (isPhase s phase) = none := by
      rw [List.find?_eq_none]
      intro b hb hk
      exact h ⟨b, hk, (earlier_iff hc huv).1.mpr hb⟩
    simp [hp, this]

/-- C49. A phase is not put between two phases that are not in this order: the call is refused and the predecessors and
successors of all phases stay. -/
theorem C49_between_refused {ops : List Op} {cs : List (List Nat)} (h : Sched ops cs) (self phase x y : Nat)
    (hs : self < (runS step init ops).next) (hp : phase < (runS step init ops).next)
    (hk : (runS step init ops).kind phase = .imp) (hx : x ∈ cs.flatten) (hy : y ∈ cs.flatten)
    (hys : y ≠ self) (hxs : some x ≠ (runS step init ops).endN self) (he : (runS step init ops).endN self ≠ none)
    (hno : ¬ ∃ b, isPhase (runS step init ops) y b = true ∧ Earlier cs x b) :
    (step (runS step init ops) (.add self phase none (some x) (some y))).2 = .fatal ∧
    ∀ a, a < (runS step init ops).next →
      preds (step (runS step init ops) (.add self phase none (some x) (some y))).1 a = preds (runS step init ops) a ∧
      succs (step (runS step init ops) (.add self phase none (some x) (some y))).1 a = succs (runS step init ops) a := by
  have hi := sched_inv h
  generalize runS step init ops = s at *
  have hx' := (hi.chains.mem x).mp hx
  have hy' := (hi.chains.mem y).mp hy
  have he' : ¬ (none = s.endN self) := fun k => he k.symm
  let s1 := new s .node (some phase) (some self)
  have hc1 : Chains s1 ([s.next] :: cs) := new_chains hi.chains hi.refs .node (by decide) _ _
  have hbf : isBefore s1 x y = some false := by
    apply isBefore_chain hc1 y (by rw [List.flatten_cons]; exact List.mem_append_right _ hx)
    rintro ⟨b, hb, c, hc, hsub⟩
    have hbm : b ≠ s.next ∧ c ∈ cs := by
      rcases List.mem_cons.mp hc with rfl | hc
      · exact absurd hsub.length_le (by simp)
      · refine ⟨?_, hc⟩
        rintro rfl
        have := ((hi.chains.mem s.next).mp (List.mem_flatten.mpr ⟨c, hc, hsub.subset (by simp)⟩)).1
        omega
    refine hno ⟨b, ?_, c, hbm.2, hsub⟩
    have : s1.imp b = s.imp b := set_ne _ _ hbm.1
    simpa [isPhase, this] using hb
  have : step s (.add self phase none (some x) (some y)) = (s1, .fatal) := by
    have r1 : resolve s self (some x) = some (some x) := by rw [resolve, if_neg hx'.2]
    have r2 : resolve s self (some y) = some (some y) := by rw [resolve, if_neg hy'.2]
    simp only [step, hs, hp, below, hx'.1, hy'.1, decide_true, and_self, if_true, add, r1, r2]
    simp only [resolve, Option.isSome_none, Bool.false_and, Bool.false_eq_true, if_false, Option.some.injEq, hys, hxs, he',
      or_self]
    simp only [place, if_pos hk]
    simp [link, linkBetween, hbf, s1] 
  rw [this]
  exact ⟨rfl, fun a ha => new_preds hi.refs _ _ _ ha⟩

/-- A domain (0, its end 1) and the IMP phases 2, 3, 4. -/
def three : List Op := [.newTop true, .newImp, .newImp, .newImp]

/-- C49 fails after `with_phase`: adding one more phase at the end raises, because the two parallel phases share one
dictionary of successors, and predecessors and successors no longer agree (5 is a predecessor of the end node 1, which is
no successor of 5). -/
theorem C49_with_append_fails :
    let ops := three ++ [.add 0 2 none none none, .add 0 3 (some 2) none none]
    let s := runS step init ops
    let t := (step s (.add 0 4 none none none)).1
    Par ops ∧ (step s (.add 0 4 none none none)).2 = .error ∧
    (5 ∈ preds t 1 ∧ 1 ∉ succs t 5) ∧ (5 ∈ preds t 7 ∧ 7 ∈ succs t 5 ∧ 7 ∉ preds t 1) := by
  refine ⟨?_, by decide, by decide, by decide⟩
  have h1 : Sched three [[0, 1]] := .newImp (.newImp (.newImp (.newTop true .nil)))
  have h2 := Sched.append (self := 0) (phase := 2) (x := 1) h1 (.imp (by decide) (by decide)) (by decide) (by decide) (by decide)
  exact .with (x := 5) (.base h2) (by decide) (by decide) (by decide) (by decide) (by decide) (by decide) (by decide) (by decide)

/-- C49 fails for a phase put between two neighbours with `after_phase` and `before_phase`: the call raises (it deletes from
the wrong dictionary), and the relation is no longer mutual. -/
theorem C49_adjacent_fails :
    let s := runS step init (three ++ [.add 0 2 none none none, .add 0 3 none none none])
    let r := step s (.add 0 4 none (some 2) (some 3))
    r.2 = .error ∧ (5 ∈ preds r.1 6 ∧ 6 ∉ succs r.1 5) := by decide

/-- C49 fails for searching among parallel phases: only the first successor is followed, so a phase that is in the schedule
is neither found nor before anything, and cannot be named in `add`. -/
theorem C49_parallel_find_fails :
    let s := runS step init (three ++ [.add 0 2 none none none, .add 0 3 (some 2) none none])
    s.imp 6 = some 3 ∧ 6 ∈ succs s 0 ∧ find s 0 3 true = some none ∧ isBefore s 0 3 = some false ∧
    (step s (.add 0 4 none (some 3) none)).2 = .fatal := by decide

-- Non-vacuity: a nested schedule, a phase before and one after
example : Sched (three ++ [.newTop false, .add 5 2 none none none, .add 0 5 none none none,
    .add 0 3 none none (some 5), .add 0 4 none (some 3) none]) [[0, 8, 9, 5, 7, 6, 1]] := by
  have h0 : Sched three [[0, 1]] := .newImp (.newImp (.newImp (.newTop true .nil)))
  have h1 : Sched (three ++ [.newTop false]) [[0, 1], [5, 6]] := .newTop false h0
  have h2 := Sched.append (self := 5) (phase := 2) (x := 6) h1 (.imp (by decide) (by decide)) (by decide) (by decide) (by decide)
  have h3 := Sched.append (self := 0) (phase := 5) (x := 1) h2
    (.sched (cs1 := [[0, 1]]) (cs2 := []) (d := [5, 7, 6]) rfl rfl (by decide) (by decide)) (by decide) (by decide) (by decide)
  have h4 := Sched.before (self := 0) (phase := 3) (x := 5) (b := some 5) h3 (.imp (by decide) (by decide))
    (by decide) (by decide) (by decide) (by decide) (by decide) (by decide)
  exact Sched.after (self := 0) (phase := 4) (x := 8) (a := some 3) h4 (.imp (by decide) (by decide))
    (by decide) (by decide) (by decide) (by decide) (by decide) (by decide)

end Verif.Phase
