import Verif.Spec.SeqStart
/-!
# C82: the life of a sequence

`start()` calls the methods of the sequence and of its parent in the documented order, each once, in the documented state; with automatic
objection the sequence holds exactly one objection on its starting phase during all of them and none afterwards; it ends finished, can be
started again, and can be waited for.
-/
namespace Verif.SeqStart

/-- What scripts cannot change. -/
structure Same (q q' : Seq) : Prop where
  state : q'.state = q.state
  held : q'.held = q.held
  log : q'.log = q.log
  fin : q'.finEvent = q.finEvent
  priority : q'.priority = q.priority
  isChild : q'.isChild = q.isChild
  registered : q'.registered = q.registered
  apo : q.apoLocked = true → q'.apo = q.apo ∧ q'.apoLocked = true
  phase : q.phaseLocked = true → q'.phase = q.phase ∧ q'.phaseLocked = true

theorem Same.refl (q : Seq) : Same q q := ⟨rfl, rfl, rfl, rfl, rfl, rfl, rfl, fun h => ⟨rfl, h⟩, fun h => ⟨rfl, h⟩⟩

theorem Same.trans {a b c : Seq} (h : Same a b) (g : Same b c) : Same a c :=
  ⟨g.state.trans h.state, g.held.trans h.held, g.log.trans h.log, g.fin.trans h.fin, g.priority.trans h.priority,
   g.isChild.trans h.isChild, g.registered.trans h.registered,
   fun x => ⟨(g.apo (h.apo x).2).1.trans (h.apo x).1, (g.apo (h.apo x).2).2⟩,
   fun x => ⟨(g.phase (h.phase x).2).1.trans (h.phase x).1, (g.phase (h.phase x).2).2⟩⟩

theorem same_act (q : Seq) (a : Act) : Same q (act q a) := by
  cases a with
  | setApo b => cases h : q.apoLocked <;> simp [act, h] <;> constructor <;> simp [h]
  | getApo => constructor <;> simp [act]
  | setPhase p => cases h : q.phaseLocked <;> simp [act, h] <;> constructor <;> simp [h]
  | getPhase => constructor <;> simp [act]

theorem same_acts (l : List Act) (q : Seq) : Same q (l.foldl act q) := by
  induction l generalizing q with
  | nil => exact Same.refl q
  | cons a l ih => exact (same_act q a).trans (ih _)

/-- The settings are frozen: the automatic-objection flag, and the phase if it matters. -/
structure Frozen (q : Seq) (apo : Bool) (phase : Option Nat) : Prop where
  a : q.apo = apo
  al : q.apoLocked = true
  p : apo = true → q.phase = phase ∧ q.phaseLocked = true

/-- The hooks of a list of steps, with the states they run in. -/
def hooksOf : St → List Step → List (Hook × St)
  | _, [] => []
  | _, .to s :: ps => hooksOf s ps
  | s, .hook h :: ps => (h, s) :: hooksOf s ps
  | s, .raiseObj :: ps => hooksOf s ps
  | s, .dropObj :: ps => hooksOf s ps
  | _, .finish :: ps => hooksOf .finished ps

/-- Only state changes and hooks. -/
def Plain (ps : List Step) : Prop := ∀ p ∈ ps, (∃ s, p = .to s) ∨ (∃ h, p = .hook h)

/-- The entries up to and including the first method that raises, and whether there is none. -/
def upto (sc : Hook → Script) : List (Hook × St) → List (Hook × St) × Bool
  | [] => ([], true)
  | e :: es => if (sc e.1).raises then ([e], false) else (e :: (upto sc es).1, (upto sc es).2)

theorem run_plain (sc : Hook → Script) (a : Bool) (ph : Option Nat) (ps : List Step) (hp : Plain ps) (q : Seq) (hf : Frozen q a ph) :
    (run sc ps q).2 = (upto sc (hooksOf q.state ps)).2 ∧
    (run sc ps q).1.log = q.log ++ (upto sc (hooksOf q.state ps)).1.map (fun e => (e.1, e.2, q.held)) ∧
    (run sc ps q).1.held = q.held ∧ Frozen (run sc ps q).1 a ph ∧
    (run sc ps q).1.finEvent = q.finEvent ∧ (run sc ps q).1.priority = q.priority ∧ (run sc ps q).1.isChild = q.isChild ∧
    (run sc ps q).1.registered = q.registered := by
  induction ps generalizing q with
  | nil => simp [run, hooksOf, upto, hf]
  | cons p ps ih =>
    have hp' : Plain ps := fun x hx => hp x (by simp [hx])
    rcases hp p (by simp) with ⟨s, rfl⟩ | ⟨h, rfl⟩
    · have := ih hp' { q with state := s } ⟨hf.a, hf.al, hf.p⟩
      simpa [run, step, hooksOf] using this
    · have hs := same_acts (sc h).acts { q with log := q.log ++ [(h, q.state, q.held)] }
      cases hr : (sc h).raises with
      | true =>
        simp only [run, step, hr, hooksOf, upto]
        refine ⟨rfl, ?_, hs.held, ⟨(hs.apo hf.al).1.trans hf.a, (hs.apo hf.al).2, fun h => ?_⟩, hs.fin, hs.priority, hs.isChild, hs.registered⟩
        · exact hs.log.trans (by simp)
        · obtain ⟨h1, h2⟩ := hf.p h
          exact ⟨(hs.phase h2).1.trans h1, (hs.phase h2).2⟩
      | false =>
        have hF : Frozen ((sc h).acts.foldl act { q with log := q.log ++ [(h, q.state, q.held)] }) a ph :=
          ⟨(hs.apo hf.al).1.trans hf.a, (hs.apo hf.al).2, fun h => by
            obtain ⟨h1, h2⟩ := hf.p h
            exact ⟨(hs.phase h2).1.trans h1, (hs.phase h2).2⟩⟩
        have := ih hp' _ hF
        simp only [run, step, hr, hooksOf, upto, Bool.not_false, if_true]
        rw [hs.state] at this
        obtain ⟨t1, t2, t3, t4, t5, t6, t7, t8⟩ := this
        refine ⟨t1, ?_, t3.trans hs.held, t4, t5.trans hs.fin, t6.trans hs.priority, t7.trans hs.isChild, t8.trans hs.registered⟩
        rw [t2, hs.log, hs.held]; simp

theorem run_append (sc : Hook → Script) (xs ys : List Step) (q : Seq) :
    run sc (xs ++ ys) q = if (run sc xs q).2 then run sc ys (run sc xs q).1 else run sc xs q := by
  induction xs generalizing q with
  | nil => simp [run]
  | cons x xs ih =>
    simp only [List.cons_append, run]
    by_cases h : (step sc q x).2 = true
    · simp only [h, if_true, ih]
    · have h : (step sc q x).2 = false := by simpa using h
      simp [h]

/-- The middle of `start_process`. -/
def mid (parent cpp : Bool) : List Step :=
  [.hook .preStart] ++ (if cpp then [.to .preBody, .hook .preBody] else [])
  ++ (if parent then [.hook .parentPreDo, .hook .parentMidDo] else [])
  ++ [.to .body, .hook .body, .to .ended]
  ++ (if parent then [.hook .parentPostDo] else [])
  ++ (if cpp then [.to .postBody, .hook .postBody] else []) ++ [.to .postStart, .hook .postStart]

theorem prog_eq (parent cpp : Bool) : prog parent cpp = .raiseObj :: (mid parent cpp ++ [.dropObj, .finish]) := by
  cases parent <;> cases cpp <;> rfl

theorem mid_plain (parent cpp : Bool) : Plain (mid parent cpp) := by
  intro p hp
  cases parent <;> cases cpp <;> simp [mid] at hp <;> rcases hp with h | h | h | h | h | h | h | h | h | h | h | h | h <;> simp_all

theorem mid_hooks (parent cpp : Bool) : hooksOf .preStart (mid parent cpp) = documented parent cpp := by
  cases parent <;> cases cpp <;> rfl

theorem raise_step (sc : Hook → Script) (q : Seq) :
    (step sc q .raiseObj).2 = true ∧ Frozen (step sc q .raiseObj).1 q.apo q.phase ∧
    (step sc q .raiseObj).1.held = objection q ++ q.held ∧ (step sc q .raiseObj).1.state = q.state ∧
    (step sc q .raiseObj).1.log = q.log ∧ (step sc q .raiseObj).1.finEvent = q.finEvent ∧ (step sc q .raiseObj).1.priority = q.priority ∧
    (step sc q .raiseObj).1.isChild = q.isChild ∧ (step sc q .raiseObj).1.registered = q.registered := by
  cases ha : q.apo <;> cases hp : q.phase <;>
    simp [step, act, ha, hp, objection] <;> constructor <;> simp [ha, hp]

theorem drop_step (sc : Hook → Script) (q : Seq) (a : Bool) (ph : Option Nat) (hf : Frozen q a ph) (rest : List Nat)
    (hh : q.held = (if a then ph.toList else []) ++ rest) :
    (step sc q .dropObj).2 = true ∧ (step sc q .dropObj).1.held = rest ∧ (step sc q .dropObj).1.log = q.log ∧
    (step sc q .dropObj).1.apo = a ∧ (step sc q .dropObj).1.priority = q.priority := by
  have ha := hf.a
  cases a with
  | false => simp [step, act, ha, hh]
  | true =>
    have hp := (hf.p rfl).1
    cases ph <;> simp [step, act, ha, hp, hh]

/-- The sequence when `start_process` begins. -/
def begun (q : Seq) (parent : Option Int) (sqr : Bool) (p : Int) : Seq :=
  { q with isChild := parent.isSome || q.isChild, priority := p, registered := sqr, state := .preStart }

theorem start_eq (sc : Hook → Script) (parent : Option Int) (sqr : Bool) (prio p : Int) (cpp : Bool) (q : Seq) (hi : Idle q)
    (hp : priority parent prio = some p) :
    start sc parent sqr prio cpp q =
      (let r := run sc (prog parent.isSome cpp) (begun q parent sqr p)
       if r.2 = false then (r.1, .raised)
       else
        let q := if r.1.state ≠ .stopped then { r.1 with registered := false } else r.1
        let q := { q with isChild := false }
        ({ q with apoLocked := false, phase := none, phaseLocked := false }, .done)) := by
  have hi : q.state = .created ∨ q.state = .stopped ∨ q.state = .finished := hi
  unfold start
  rw [if_neg (not_not_intro hi)]
  simp only [hp, begun]
  cases parent <;> rfl

/-- What `start` does, given the priority is legal: everything observable. -/
theorem start_result (sc : Hook → Script) (parent : Option Int) (sqr : Bool) (prio p : Int) (cpp : Bool) (q : Seq) (hi : Idle q)
    (hp : priority parent prio = some p) :
    let o := start sc parent sqr prio cpp q
    let doc := documented parent.isSome cpp
    o.1.log = q.log ++ (upto sc doc).1.map (fun e => (e.1, e.2, objection q ++ q.held)) ∧ o.1.priority = p ∧ o.1.apo = q.apo ∧
    ((upto sc doc).2 = true → o.2 = .done ∧ o.1.held = q.held ∧ o.1.state = .finished ∧ o.1.finEvent = true ∧ o.1.registered = false ∧
      o.1.isChild = false ∧ o.1.phase = none ∧ o.1.apoLocked = false ∧ o.1.phaseLocked = false) ∧
    ((upto sc doc).2 = false → o.2 = .raised ∧ o.1.held = objection q ++ q.held ∧ o.1.registered = sqr ∧
      (parent.isSome = true → o.1.isChild = true) ∧ o.1.finEvent = q.finEvent) := by
  rw [start_eq sc parent sqr prio p cpp q hi hp]
  obtain ⟨r1, r2, r3, r4, r5, r6, r7, r8, r9⟩ := raise_step sc (begun q parent sqr p)
  obtain ⟨m1, m2, m3, m4, m5, m6, m7, m8⟩ := run_plain sc q.apo q.phase (mid parent.isSome cpp) (mid_plain _ _)
    (step sc (begun q parent sqr p) .raiseObj).1 r2
  have hst : (step sc (begun q parent sqr p) .raiseObj).1.state = .preStart := r4
  rw [hst, mid_hooks] at m1 m2
  rw [prog_eq]
  simp only [run, r1, if_true, run_append]
  generalize hm : run sc (mid parent.isSome cpp) (step sc (begun q parent sqr p) .raiseObj).1 = M at m1 m2 m3 m4 m5 m6 m7 m8 ⊢
  rw [r3] at m2 m3
  have hob : objection (begun q parent sqr p) = objection q := rfl
  have hhe : (begun q parent sqr p).held = q.held := rfl
  rw [hob, hhe] at m2 m3
  rw [r5] at m2
  cases hu : (upto sc (documented parent.isSome cpp)).2 with
  | false =>
    rw [hu] at m1
    simp only [m1, Bool.false_eq_true, if_false, if_true]
    refine ⟨m2, m6.trans r7, m4.a, nofun, fun _ => ⟨trivial, m3, m8.trans r9, fun h => ?_, m5.trans r6⟩⟩
    show M.1.isChild = true
    rw [m7, r8]; simp [begun, h]
  | true =>
    rw [hu] at m1
    obtain ⟨d1, d2, d3, d4, d5⟩ := drop_step sc M.1 q.apo q.phase m4 q.held m3
    generalize step sc M.1 .dropObj = D at d1 d2 d3 d4 d5 ⊢
    simp only [m1, if_true, d1, step]
    refine ⟨d3.trans m2, d5.trans (m6.trans r7), d4, fun _ => ?_, nofun⟩
    simp [d2]

theorem upto_calm {sc : Hook → Script} (h : Calm sc) (l : List (Hook × St)) : upto sc l = (l, true) := by
  induction l with
  | nil => rfl
  | cons e l ih => simp [upto, h e.1, ih]

/-- C82. If no method raises, `start()` returns having called exactly the documented methods, each in its documented state and while the
sequence held its objection (if it was told to object and has a starting phase) – whatever the methods do to the sequence's settings –
and afterwards it holds no objection it did not hold before, is finished, unknown to sequencer and parent, and keeps its
automatic-objection setting, while the starting phase is forgotten. -/
theorem C82_life_of_a_sequence (sc : Hook → Script) (hc : Calm sc) (parent : Option Int) (sqr : Bool) (prio p : Int) (cpp : Bool) (q : Seq)
    (hi : Idle q) (hp : priority parent prio = some p) :
    let o := start sc parent sqr prio cpp q
    o.2 = .done ∧
    o.1.log = q.log ++ (documented parent.isSome cpp).map (fun e => (e.1, e.2, objection q ++ q.held)) ∧
    o.1.held = q.held ∧ o.1.state = .finished ∧ o.1.registered = false ∧ o.1.isChild = false ∧ o.1.priority = p ∧
    o.1.apo = q.apo ∧ o.1.phase = none := by
  intro o
  obtain ⟨h1, h2, h3, h4, _⟩ := start_result sc parent sqr prio p cpp q hi hp
  rw [upto_calm hc] at h1 h4
  obtain ⟨g1, g2, g3, g4, g5, g6, g7, g8⟩ := h4 rfl
  exact ⟨g1, h1, g2, g3, g5, g6, h2, h3, g7⟩

/-- C82. Every method is called at most once per `start`, and the order never depends on what the methods do. -/
theorem C82_documented_once (parent cpp : Bool) : (documented parent cpp).Pairwise (fun a b => a.1 ≠ b.1) := by
  cases parent <;> cases cpp <;> simp [documented]

/-- C82. The priority a sequence runs with: the one given, else the parent's, else 100. -/
theorem C82_priority (parent : Option Int) (p : Int) :
    (0 ≤ p → priority parent p = some p) ∧ (p = -1 → priority parent p = some (parent.getD 100)) ∧ (p < -1 → priority parent p = none) := by
  refine ⟨fun h => ?_, fun h => ?_, fun h => by simp [priority, h]⟩
  · have h1 : ¬ p < -1 := by omega
    have h2 : ¬ p < 0 := by omega
    simp [priority, h1, h2]
  · subst h; cases parent <;> simp [priority]

/-- C82. A sequence that ended can be started again, any number of times, with the same calls each time (the objection only if the starting
phase is given again). -/
theorem C82_restart (sc : Hook → Script) (hc : Calm sc) (parent : Option Int) (sqr : Bool) (prio p : Int) (cpp : Bool) (q : Seq)
    (hi : Idle q) (hp : priority parent prio = some p) (ph : Nat) :
    let o := (start sc parent sqr prio cpp q).1
    Idle o ∧ (act o (.setPhase (some ph))).phase = some ph ∧ objection (act o (.setPhase (some ph))) = if q.apo then [ph] else [] := by
  obtain ⟨_, _, h3, h4, _⟩ := start_result sc parent sqr prio p cpp q hi hp
  rw [upto_calm hc] at h4
  obtain ⟨g1, g2, g3, g4, g5, g6, g7, g8, g9⟩ := h4 rfl
  refine ⟨.inr (.inr g3), ?_, ?_⟩ <;> simp [act, g9, objection, h3]

/-- C82. A running sequence cannot be started a second time: the attempt is fatal and calls nothing. -/
theorem C82_no_second_start (sc : Hook → Script) (parent : Option Int) (sqr : Bool) (prio : Int) (cpp : Bool) (q : Seq) (h : ¬ Idle q) :
    start sc parent sqr prio cpp q = (q, .fatal) := by
  have h : ¬ (q.state = .created ∨ q.state = .stopped ∨ q.state = .finished) := h
  unfold start; rw [if_pos h]

/-- C112, with exceptions: what was called is the documented list up to the first method that raises. -/
theorem C112_exception_prefix_partial (sc : Hook → Script) (parent : Option Int) (sqr : Bool) (prio p : Int) (cpp : Bool) (q : Seq)
    (hi : Idle q) (hp : priority parent prio = some p) (pre post : List (Hook × St)) (e : Hook × St)
    (hd : documented parent.isSome cpp = pre ++ e :: post) (hpre : ∀ x ∈ pre, (sc x.1).raises = false) (he : (sc e.1).raises = true) :
    let o := start sc parent sqr prio cpp q
    o.2 = .raised ∧ o.1.log = q.log ++ (pre ++ [e]).map (fun e => (e.1, e.2, objection q ++ q.held)) := by
  have hu : upto sc (documented parent.isSome cpp) = (pre ++ [e], false) := by
    rw [hd]; clear hd
    induction pre with
    | nil => simp [upto, he]
    | cons x pre ih =>
      have := ih fun y hy => hpre y (by simp [hy])
      simp [upto, hpre x (by simp), this]
  obtain ⟨h1, _, _, _, h5⟩ := start_result sc parent sqr prio p cpp q hi hp
  rw [hu] at h1 h5
  exact ⟨(h5 rfl).1, h1⟩

/-- C112 fails after an exception in any method: the objection is never dropped, the sequencer and the parent still know the sequence. -/
theorem C112_exception_keeps_objection_fails (sc : Hook → Script) (parent : Option Int) (sqr : Bool) (prio p : Int) (cpp : Bool) (q : Seq)
    (hi : Idle q) (hp : priority parent prio = some p) (e : Hook × St) (hd : e ∈ documented parent.isSome cpp)
    (he : (sc e.1).raises = true) (ph : Nat) (ha : q.apo = true) (hph : q.phase = some ph) :
    let o := start sc parent sqr prio cpp q
    o.2 = .raised ∧ o.1.held = ph :: q.held ∧ o.1.registered = sqr ∧ (parent.isSome = true → o.1.isChild = true) := by
  have hu : (upto sc (documented parent.isSome cpp)).2 = false := by
    generalize documented parent.isSome cpp = l at hd
    induction l with
    | nil => simp at hd
    | cons x l ih =>
      rcases List.mem_cons.1 hd with rfl | h
      · simp [upto, he]
      · cases hx : (sc x.1).raises with
        | true => simp [upto, hx]
        | false => simp [upto, hx, ih h]
  obtain ⟨_, _, _, _, h5⟩ := start_result sc parent sqr prio p cpp q hi hp
  obtain ⟨g1, g2, g3, g4, _⟩ := h5 hu
  refine ⟨g1, ?_, g3, g4⟩
  rw [g2]; simp [objection, ha, hph]

/-- C113 fails for waiting: `wait_for_sequence_state(mask)` raises in every state but "finished", whatever the mask: it cannot be used to wait. -/
theorem C113_wait_for_state_fails (q : Seq) (mask : Nat) (h : q.state ≠ .finished) : waitForState q mask = .raises := by
  have : ¬ (q.state.code &&& mask = St.finished.code) := by
    intro e
    have hb := congrArg (fun n => n.testBit 8) e
    simp only [Nat.testBit_and] at hb
    have h1 : q.state.code.testBit 8 = false := by
      cases hs : q.state <;> first | exact absurd hs h | decide
    rw [h1, Bool.false_and] at hb
    exact absurd hb (by decide)
  simp [waitForState, this]

/-- C113. In a finished sequence a wait for "finished" returns at once. -/
theorem C113_wait_when_finished_partial (q : Seq) (hs : q.state = .finished) (hf : q.finEvent = true) (mask : Nat) (hm : mask.testBit 8 = true) :
    waitForState q mask = .returns := by
  have : q.state.code &&& mask = St.finished.code := by
    rw [hs]
    apply Nat.eq_of_testBit_eq
    intro i
    rw [Nat.testBit_and]
    by_cases hi : i = 8
    · subst hi; rw [hm]; decide
    · have : St.finished.code.testBit i = false := by
        show (2 ^ 8).testBit i = false
        rw [Nat.testBit_two_pow]; simp; omega
      rw [this]; rfl
  simp [waitForState, this, hf]

-- Non-vacuity: a child sequence told to object to phase 3, whose body tries to change the settings.
def demo : Seq := { apo := true, phase := some 3 }
def demoScripts : Hook → Script
  | .body => { acts := [.setApo false, .setPhase (some 5), .getPhase] }
  | _ => {}

example : Calm demoScripts ∧ Idle demo ∧ priority (some 7) (-1) = some 7 := ⟨fun h => by cases h <;> rfl, by decide, by decide⟩
example : (start demoScripts (some 7) true (-1) true demo).2 = .done ∧ (start demoScripts (some 7) true (-1) true demo).1.errors = 2 := by decide
example : (start (fun h => { raises := h == .body }) none true (-1) false demo).1.log =
    [(.preStart, .preStart, [3]), (.body, .body, [3])] := by decide
example : ¬ Idle (start (fun h => { raises := h == .body }) none true (-1) false demo).1 := by decide
example : (Hook.body, St.body) ∈ documented (none : Option Int).isSome false := by decide

end Verif.SeqStart
