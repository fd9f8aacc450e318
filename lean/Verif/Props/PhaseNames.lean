import Verif.Lemmas.PhaseNames
/-!
# C272-C276: names of phases

`Within s top l a`: the schedules `l` (outermost first) are around `a`, and `top` is around them.
-/
namespace Verif.PhaseNames

/-! ## C272: the full name of a phase is the path to it -/

/-- In every tidy history every phase is within schedules that are in a domain or in nothing. -/
theorem C272_somewhere {ops : List Op} (h : Tidy ops) (a : Nat) :
    ∃ l, Within (runS step init ops) none l a ∨
      ∃ d, kind (runS step init ops) d = .domain ∧ Within (runS step init ops) (some d) l a := by
  obtain ⟨r, hi⟩ := tidy_inv h
  obtain ⟨top, l, hw, ht, _⟩ := exists_within hi _ a (Nat.lt_succ_self _)
  rcases ht with rfl | ⟨d, rfl, hd⟩
  · exact ⟨l, .inl hw⟩
  · exact ⟨l, .inr ⟨d, hd, hw⟩⟩

theorem gives_full {s : State} {rank : Nat → Nat} (h : Inv s rank) {top : Option Nat} (ht : Top s top) {l : List Nat} {a : Nat}
    (hw : Within s top l a) (ha : a < s.ph.next) (hk : kind s a = .node ∨ kind s a = .schedule) :
    Gives (fun n => fullName s n a) (dotted (topName s top :: l.map s.name ++ [s.name a])) := by
  refine ⟨l.length + 2, fun n hn => ?_⟩
  rcases hk with hk | hk
  · exact fullName_node ht hw hk (within_names h hw) n (by omega)
  · exact fullName_sched ht hw hk (within_names h hw) (h.nm a ha) n (by omega)

/-- A node or schedule in a domain: the names of the domain, of the schedules around it, and its own. -/
theorem C272_full_name {ops : List Op} (h : Tidy ops) {l : List Nat} {a d : Nat}
    (hw : Within (runS step init ops) (some d) l a) (hd : kind (runS step init ops) d = .domain)
    (ha : a < (runS step init ops).ph.next) (hk : kind (runS step init ops) a = .node ∨ kind (runS step init ops) a = .schedule) :
    Gives (fun n => fullName (runS step init ops) n a)
      (dotted ((runS step init ops).name d :: l.map (runS step init ops).name ++ [(runS step init ops).name a])) := by
  obtain ⟨r, hi⟩ := tidy_inv h
  exact gives_full hi (.inr ⟨d, rfl, hd⟩) hw ha hk

/-- In no domain: "unknown" stands for the domain. -/
theorem C272_unknown {ops : List Op} (h : Tidy ops) {l : List Nat} {a : Nat} (hw : Within (runS step init ops) none l a)
    (ha : a < (runS step init ops).ph.next) (hk : kind (runS step init ops) a = .node ∨ kind (runS step init ops) a = .schedule) :
    Gives (fun n => fullName (runS step init ops) n a)
      (dotted ("unknown" :: l.map (runS step init ops).name ++ [(runS step init ops).name a])) := by
  obtain ⟨r, hi⟩ := tidy_inv h
  exact gives_full hi (.inl rfl) hw ha hk

theorem gives_domain {s : State} {d : Nat} (hd : kind s d = .domain) : Gives (fun n => fullName s n d) (s.name d) := by
  refine ⟨1, fun n hn => ?_⟩
  obtain ⟨n, rfl⟩ : ∃ m, n = m + 1 := ⟨n - 1, by omega⟩
  simp [fullName, domainName, getDomain, scheduleName, getSchedule, pickSched, joinNames, hd]

/-- The full name of a domain is its name, and so is that of an IMP phase. -/
theorem C272_own_name (s : State) (a : Nat) (hk : kind s a = .domain ∨ kind s a = .imp) : Gives (fun n => fullName s n a) (s.name a) := by
  rcases hk with hk | hk
  · exact gives_domain hk
  · exact ⟨0, fun n _ => by simp [fullName, hk]⟩

/-- A domain 0 (ends at 1), a schedule 2 (3) in it, a schedule 4 (5) in that, and an IMP phase 6 added to it: node 7. -/
def sample : List Op :=
  [.newTop true "uvm", .newTop false "outer", .newTop false "inner", .newImp "main",
   .add 0 2 none none none, .add 2 4 none none none, .add 4 6 none none none]

theorem above_step {s : State} {a p b : Nat} (hp : parent s a = some p) (hab : a ≠ b) (h : Above s a b) : Above s p b := by
  cases h with
  | here => exact absurd rfl hab
  | on hq h' => rw [hp] at hq; cases hq; exact h'

theorem above_none {s : State} {a b : Nat} (hp : parent s a = none) (hab : a ≠ b) : ¬ Above s a b := by
  intro h
  cases h with
  | here => exact hab rfl
  | on hq _ => rw [hp] at hq; cases hq

theorem sample_tidy : Tidy sample := by
  have t0 := Tidy.newTop (d := true) (t := "uvm") Tidy.nil (by decide)
  have t1 := Tidy.newTop (d := false) (t := "outer") t0 (by decide)
  have t2 := Tidy.newTop (d := false) (t := "inner") t1 (by decide)
  have t3 := Tidy.newImp (t := "main") t2 (by decide)
  have t4 := Tidy.add (self := 0) (phase := 2) (w := none) (a := none) (b := none) t3 (.inr (by decide))
    (.inr ⟨by decide, above_none (by decide) (by decide)⟩)
  have t5 := Tidy.add (self := 2) (phase := 4) (w := none) (a := none) (b := none) t4 (.inl (by decide))
    (.inr ⟨by decide, fun h => above_none (by decide) (by decide) (above_step (p := 0) (by decide) (by decide) h)⟩)
  exact Tidy.add (self := 4) (phase := 6) (w := none) (a := none) (b := none) t5 (.inl (by decide)) (.inl (by decide))

example : Within (runS step init sample) (some 0) [2, 4] 7 ∧ kind (runS step init sample) 0 = .domain ∧
    kind (runS step init sample) 7 = .node ∧ fullName (runS step init sample) 5 7 = some "uvm.outer.inner.main" :=
  ⟨.on (l := [2]) (by decide) (by decide) (.on (l := []) (by decide) (by decide) (.out (by decide))), by decide, by decide, by decide⟩

/-! ## C273: names follow additions -/

/-- What is in `self` is named after `self`. -/
theorem gives_in {t : State} {rank : Nat → Nat} (h : Inv t rank) {self : Nat} (hs : self < t.ph.next)
    (hk : kind t self = .schedule ∨ kind t self = .domain) {F : String} (hF : Gives (fun n => fullName t n self) F) {m : List Nat} {x : Nat}
    (hw : Within t (some self) m x) (hx : x < t.ph.next) (hkx : kind t x = .node ∨ kind t x = .schedule) :
    Gives (fun n => fullName t n x) (F ++ "." ++ dotted (m.map t.name ++ [t.name x])) := by
  have huniq : ∀ G, Gives (fun n => fullName t n self) G → F = G := by
    rintro G ⟨k, hk⟩
    obtain ⟨j, hj⟩ := hF
    have h1 := hj (j + k) (by omega)
    have h2 := hk (j + k) (by omega)
    simp only [h1, Option.some.injEq] at h2
    exact h2
  rcases hk with hk | hk
  · obtain ⟨top, l, hwl, ht, _⟩ := exists_within h _ self (Nat.lt_succ_self _)
    rw [huniq _ (gives_full h ht hwl hs (.inr hk))]
    have h1 := gives_full h ht (within_comp hwl hk hw) hx hkx
    have e : ∀ (a : String) (l : List String) (b : String) (m : List String), m ≠ [] →
        dotted (a :: l ++ b :: m) = dotted (a :: l ++ [b]) ++ "." ++ dotted m := by
      intro a l b m hm
      induction l generalizing a with
      | nil => show a ++ "." ++ dotted (b :: m) = a ++ "." ++ b ++ "." ++ dotted m
               rw [dotted_cons _ _ hm]; simp only [String.append_assoc]
      | cons c l ih => show a ++ "." ++ dotted (c :: l ++ b :: m) = a ++ "." ++ dotted (c :: l ++ [b]) ++ "." ++ dotted m
                       rw [ih]; simp only [String.append_assoc]
    have h2 := e (topName t top) (l.map t.name) (t.name self) (m.map t.name ++ [t.name x]) (by simp)
    rw [← h2]
    simpa using h1
  · rw [huniq _ (gives_domain hk)]
    have h1 := gives_full h (.inr ⟨self, rfl, hk⟩) hw hx hkx
    rw [List.cons_append, dotted_cons _ _ (by simp)] at h1
    exact h1

theorem full_keep {s t : State} {rs rt : Nat → Nat} (hs : Inv s rs) (ht : Inv t rt) (hnx : s.ph.next ≤ t.ph.next) {a : Nat}
    (ha : a < s.ph.next) (hka : kind s a = .node ∨ kind s a = .schedule ∨ kind s a = .domain)
    (hp : ∀ b, Above s a b → parent t b = parent s b) (hk : ∀ b, Above s a b → kind t b = kind s b)
    (hn : ∀ b, Above s a b → t.name b = s.name b) {F : String} (hF : Gives (fun n => fullName s n a) F) :
    Gives (fun n => fullName t n a) F := by
  have huniq : ∀ G, Gives (fun n => fullName s n a) G → F = G := by
    rintro G ⟨k, hk⟩
    obtain ⟨j, hj⟩ := hF
    have h1 := hj (j + k) (by omega)
    have h2 := hk (j + k) (by omega)
    simp only [h1, Option.some.injEq] at h2
    exact h2
  have key : kind s a = .node ∨ kind s a = .schedule → Gives (fun n => fullName t n a) F := by
    intro hka
    obtain ⟨top, l, hwl, htop, _⟩ := exists_within hs _ a (Nat.lt_succ_self _)
    rw [huniq _ (gives_full hs htop hwl ha hka)]
    have hab := within_above hwl
    have h1 : Top t top := by
      rcases htop with rfl | ⟨d, rfl, hd⟩
      · exact .inl rfl
      · exact .inr ⟨d, rfl, (hk d (hab.2 d rfl)).trans hd⟩
    have h2 := gives_full ht h1 (within_keep hwl hp hk) (by omega) (by rw [hk a .here]; exact hka)
    have e1 : l.map t.name = l.map s.name := List.map_congr_left fun b hb => hn b (hab.1 b hb)
    have e2 : topName t top = topName s top := by
      cases top with
      | none => rfl
      | some d => exact hn d (hab.2 d rfl)
    rw [e1, e2, hn a .here] at h2
    exact h2
  rcases hka with hka | hka | hka
  · exact key (.inl hka)
  · exact key (.inr hka)
  · rw [huniq _ (gives_domain hka), ← hn a .here]
    exact gives_domain ((hk a .here).trans hka)

/-- Adding an IMP phase makes a node that is named after the schedule or domain and the IMP phase. -/
theorem C273_node {ops : List Op} (h : Tidy ops) {self phase : Nat} {w a b : Option Nat}
    (hk : kind (runS step init ops) self = .schedule ∨ kind (runS step init ops) self = .domain)
    (hp : kind (runS step init ops) phase = .imp) (hok : (step (runS step init ops) (.add self phase w a b)).2 = .ok) {F : String}
    (hF : Gives (fun n => fullName (runS step init ops) n self) F) :
    Gives (fun n => fullName (runS step init (ops ++ [.add self phase w a b])) n (runS step init ops).ph.next)
      (F ++ "." ++ (runS step init ops).name phase) := by
  obtain ⟨r, hi⟩ := tidy_inv h
  obtain ⟨r', hi'⟩ := tidy_inv (Tidy.add (w := w) (a := a) (b := b) h hk (.inl hp))
  rw [runS_snoc] at hi' ⊢
  generalize runS step init ops = s at *
  rcases step_add s self phase w a b with h | ⟨h1, h2, h3, h4, h5, h6, h7⟩ | ⟨h1, h2, h3, h4, h5, h6, h7⟩
  · exact absurd hok h.2
  · have hlt : ∀ b, Above s self b → b ≠ s.ph.next := fun b hb => by have := above_lt hi hb h2; omega
    generalize (step s (.add self phase w a b)).1 = t at *
    have hF' := full_keep hi hi' (by omega) h2 (hk.elim (fun h => .inr (.inl h)) (fun h => .inr (.inr h)))
      (fun b hb => by unfold parent; rw [h4, Phase.set_ne _ _ (hlt b hb)])
      (fun b hb => by unfold kind; rw [h5, Phase.set_ne _ _ (hlt b hb)])
      (fun b hb => by rw [h7, Phase.set_ne _ _ (hlt b hb)]) hF
    have hw : Within t (some self) [] s.ph.next := .out (by unfold parent; rw [h4, Phase.set_self])
    have := gives_in hi' (by omega) (by unfold kind; rw [h5, Phase.set_ne _ _ (by omega)]; exact hk) hF' hw (by omega)
      (.inl (by unfold kind; rw [h5, Phase.set_self]))
    rw [h7, Phase.set_self] at this
    exact this
  · exact absurd hp h3

/-- Adding a schedule renames it, and the phases within it, after the schedule or domain it is added to. -/
theorem C273_schedule {ops : List Op} (h : Tidy ops) {self phase : Nat} {w a b : Option Nat}
    (hk : kind (runS step init ops) self = .schedule ∨ kind (runS step init ops) self = .domain)
    (hp : kind (runS step init ops) phase = .schedule) (hno : ¬ Above (runS step init ops) self phase)
    (hok : (step (runS step init ops) (.add self phase w a b)).2 = .ok) {F : String}
    (hF : Gives (fun n => fullName (runS step init ops) n self) F) :
    Gives (fun n => fullName (runS step init (ops ++ [.add self phase w a b])) n phase) (F ++ "." ++ (runS step init ops).name phase) ∧
    ∀ m x, Within (runS step init ops) (some phase) m x →
      kind (runS step init ops) x = .node ∨ kind (runS step init ops) x = .schedule → x < (runS step init ops).ph.next →
      Gives (fun n => fullName (runS step init (ops ++ [.add self phase w a b])) n x)
        (F ++ "." ++ dotted ((runS step init ops).name phase :: m.map (runS step init ops).name ++ [(runS step init ops).name x])) := by
  obtain ⟨r, hi⟩ := tidy_inv h
  obtain ⟨r', hi'⟩ := tidy_inv (Tidy.add (w := w) (a := a) (b := b) h hk (.inr ⟨hp, hno⟩))
  rw [runS_snoc] at hi' ⊢
  generalize runS step init ops = s at *
  rcases step_add s self phase w a b with h | ⟨h1, h2, h3, h4, h5, h6, h7⟩ | ⟨h1, h2, h3, h4, h5, h6, h7⟩
  · exact absurd hok h.2
  · rw [hp] at h3; cases h3
  · generalize (step s (.add self phase w a b)).1 = t at *
    have hF' := full_keep hi hi' (by omega) h2 (hk.elim (fun h => .inr (.inl h)) (fun h => .inr (.inr h)))
      (fun b hb => by
        unfold parent
        rw [h4, Phase.set_ne]
        intro e
        rw [e] at hb
        exact hno hb)
      (fun b hb => by unfold kind; rw [h5])
      (fun b hb => by rw [h7]) hF
    have hk' : kind t self = .schedule ∨ kind t self = .domain := by unfold kind; rw [h5]; exact hk
    have hpar : parent t phase = some self := by unfold parent; rw [h4, Phase.set_self]
    refine ⟨?_, ?_⟩
    · have := gives_in hi' (by omega) hk' hF' (m := []) (x := phase) (.out hpar) (by omega) (.inr (by unfold kind; rw [h5]; exact hp))
      rw [h7] at this
      exact this
    · intro m x hw hkx hx
      have hw' := within_moved hi h4 h5 hw
      have hc := within_comp (Within.out hpar) (by unfold kind; rw [h5]; exact hp) hw'
      have := gives_in hi' (by omega) hk' hF' hc (by omega) (by unfold kind; rw [h5]; exact hkx)
      rw [h7] at this
      simpa using this

/-- Phases that are not within what is moved keep their names. -/
theorem C273_others {ops : List Op} (h : Tidy ops) {self phase : Nat} {w a b : Option Nat}
    (hk : kind (runS step init ops) self = .schedule ∨ kind (runS step init ops) self = .domain)
    (hp : kind (runS step init ops) phase = .imp ∨
      kind (runS step init ops) phase = .schedule ∧ ¬ Above (runS step init ops) self phase) {x : Nat} (hx : x < (runS step init ops).ph.next)
    (hkx : kind (runS step init ops) x = .node ∨ kind (runS step init ops) x = .schedule ∨ kind (runS step init ops) x = .domain)
    (hout : ¬ Above (runS step init ops) x phase) {F : String} (hF : Gives (fun n => fullName (runS step init ops) n x) F) :
    Gives (fun n => fullName (runS step init (ops ++ [.add self phase w a b])) n x) F := by
  obtain ⟨r, hi⟩ := tidy_inv h
  obtain ⟨r', hi'⟩ := tidy_inv (Tidy.add (w := w) (a := a) (b := b) h hk hp)
  rw [runS_snoc] at hi' ⊢
  generalize runS step init ops = s at *
  rcases step_add s self phase w a b with h | ⟨h1, h2, h3, h4, h5, h6, h7⟩ | ⟨h1, h2, h3, h4, h5, h6, h7⟩
  · rw [h.1]; exact hF
  · have hlt : ∀ b, Above s x b → b ≠ s.ph.next := fun b hb => by have := above_lt hi hb hx; omega
    exact full_keep hi hi' (by omega) hx hkx
      (fun b hb => by unfold parent; rw [h4, Phase.set_ne _ _ (hlt b hb)])
      (fun b hb => by unfold kind; rw [h5, Phase.set_ne _ _ (hlt b hb)])
      (fun b hb => by rw [h7, Phase.set_ne _ _ (hlt b hb)]) hF
  · exact full_keep hi hi' (by omega) hx hkx
      (fun b hb => by
        unfold parent
        rw [h4, Phase.set_ne]
        intro e
        rw [e] at hb
        exact hout hb)
      (fun b hb => by unfold kind; rw [h5])
      (fun b hb => by rw [h7]) hF

/-- The calls of the sample went well, and the names came out as said: "outer" moved into "uvm" after "inner" was in it. -/
example :
    let ops := [Op.newTop true "uvm", .newTop false "outer", .newTop false "inner", .newImp "main",
      .add 2 4 none none none, .add 4 6 none none none, .add 0 2 none none none]
    (run step init ops).2 = List.replicate 7 .ok ∧
    fullName (runS step init (ops.take 6)) 9 7 = some "unknown.outer.inner.main" ∧
    fullName (runS step init ops) 9 7 = some "uvm.outer.inner.main" ∧
    fullName (runS step init ops) 9 4 = some "uvm.outer.inner" := by decide +kernel

/-! ## C274: the schedule of a phase -/

/-- Asked with `hier`, a phase gives the outermost schedule around it (a schedule that is in none gives itself), and its name. -/
theorem C274_topmost {ops : List Op} (h : Tidy ops) {top : Option Nat} {l : List Nat} {a o : Nat}
    (hw : Within (runS step init ops) top l a) (ht : top = none ∨ ∃ d, top = some d ∧ kind (runS step init ops) d = .domain)
    (hk : kind (runS step init ops) a = .node ∨ kind (runS step init ops) a = .schedule) (ha : a < (runS step init ops).ph.next)
    (ho : (l ++ if kind (runS step init ops) a = .schedule then [a] else []).head? = some o) :
    Gives (fun n => getSchedule (runS step init ops) true n a) (some o) ∧
    Gives (fun n => scheduleName (runS step init ops) true n a) ((runS step init ops).name o) := by
  obtain ⟨r, hi⟩ := tidy_inv h
  generalize runS step init ops = s at *
  have hks : ∀ {l a top}, Within s top l a → ∀ b ∈ l, kind s b = .schedule := by
    intro l a top hw
    induction hw with
    | out => nofun
    | on _ hk _ ih =>
      intro b hb
      rcases List.mem_append.1 hb with hb | hb
      · exact ih b hb
      · simp only [List.mem_singleton] at hb; rw [hb]; exact hk
  have hfst : ∀ {l a top c m}, Within s top l a → l = c :: m → parent s c = top := by
    intro l a top c m hw
    induction hw generalizing m with
    | out => nofun
    | @on a p l hp hk hw ih =>
      intro e
      cases l with
      | nil => simp only [List.nil_append, List.cons.injEq] at e; rw [← e.1]; exact within_nil hw
      | cons d l => simp only [List.cons_append, List.cons.injEq] at e; exact ih (by rw [e.1])
  have hko : kind s o = .schedule ∧ parent s o = top ∧ o < s.ph.next := by
    cases l with
    | nil =>
      rcases hk with hk | hk
      · simp [hk] at ho
      · simp only [hk, if_true, List.nil_append, List.head?_cons, Option.some.injEq] at ho
        rw [← ho]
        exact ⟨hk, within_nil hw, ha⟩
    | cons c m =>
      simp only [List.cons_append, List.head?_cons, Option.some.injEq] at ho
      rw [← ho]
      exact ⟨hks hw c (.head _), hfst hw rfl, above_lt hi ((within_above hw).1 c (.head _)) ha⟩
  have hg : ∀ n, l.length < n → getSchedule s true n a = some (some o) := by
    intro n hn
    have h1 := topSched_within ht hw n hn
    have h2 : (l ++ [a]).head (by simp) = o := by
      cases l with
      | nil =>
        rcases hk with hk | hk
        · simp [hk] at ho
        · simp only [hk, if_true, List.nil_append, List.head?_cons, Option.some.injEq] at ho
          simp [ho]
      | cons c m => simpa using ho
    simp [getSchedule, h1, h2, pickSched, hko.1]
  refine ⟨⟨l.length + 1, fun n hn => hg n (by omega)⟩, ⟨l.length + 1, fun n hn => ?_⟩⟩
  have h3 := nameLoop_within ht (Within.out hko.2.1) nofun (s.name o) n (hi.nm o hko.2.2) (by simp; omega)
  simp [scheduleName, hg n (by omega), h3, dotted]

/-- Asked without, a node gives the schedule it was added to, a schedule itself; their names are the path from the
outermost schedule. -/
theorem C274_own {ops : List Op} (h : Tidy ops) {top : Option Nat} {l : List Nat} {a p : Nat}
    (hw : Within (runS step init ops) top l a) (ht : top = none ∨ ∃ d, top = some d ∧ kind (runS step init ops) d = .domain)
    (hk : kind (runS step init ops) a = .node ∨ kind (runS step init ops) a = .schedule) (ha : a < (runS step init ops).ph.next)
    (ho : (l ++ if kind (runS step init ops) a = .schedule then [a] else []).getLast? = some p) :
    Gives (fun n => getSchedule (runS step init ops) false n a) (some p) ∧
    Gives (fun n => scheduleName (runS step init ops) false n a)
      (dotted ((l ++ if kind (runS step init ops) a = .schedule then [a] else []).map (runS step init ops).name)) := by
  obtain ⟨r, hi⟩ := tidy_inv h
  generalize runS step init ops = s at *
  rcases hk with hk | hk
  · simp only [hk, reduceCtorEq, if_false, List.append_nil] at ho ⊢
    cases hw with
    | out => cases ho
    | @on _ q l hp hkq hw =>
      simp only [List.getLast?_append, List.getLast?_singleton, Option.some_or, Option.some.injEq] at ho
      subst ho
      have hg : ∀ n, getSchedule s false n a = some (some q) := fun n => by simp [getSchedule, pickSched, hk, hp, hkq]
      refine ⟨⟨0, fun n _ => hg n⟩, ⟨l.length + 1, fun n hn => ?_⟩⟩
      have h3 := nameLoop_within ht hw (within_names hi hw) (s.name q) n (hi.nm q (hi.up _ _ hp).2.1) (by omega)
      simp [scheduleName, hg n, h3]
  · simp only [hk, if_true, List.getLast?_append, List.getLast?_singleton, Option.some_or, Option.some.injEq] at ho ⊢
    subst ho
    have hg : ∀ n, getSchedule s false n a = some (some a) := fun n => by simp [getSchedule, pickSched, hk]
    refine ⟨⟨0, fun n _ => hg n⟩, ⟨l.length + 1, fun n hn => ?_⟩⟩
    have h3 := nameLoop_within ht hw (within_names hi hw) (s.name a) n (hi.nm a ha) (by omega)
    simp [scheduleName, hg n, h3]

/-- A node directly in a domain has no schedule. -/
theorem C274_none (s : State) {a d : Nat} (hk : kind s a = .node) (hp : parent s a = some d) (hd : kind s d = .domain) (hier : Bool) :
    Gives (fun n => getSchedule s hier n a) none ∧ Gives (fun n => scheduleName s hier n a) "" := by
  have hg : ∀ n, 1 ≤ n → getSchedule s hier n a = some none := by
    intro n hn
    obtain ⟨n, rfl⟩ : ∃ m, n = m + 1 := ⟨n - 1, by omega⟩
    cases hier <;> simp [getSchedule, topSched, pickSched, hp, hd, hk]
  exact ⟨⟨1, hg⟩, ⟨1, fun n hn => by simp [scheduleName, hg n hn]⟩⟩

example : let s := runS step init sample
    getSchedule s true 5 7 = some (some 2) ∧ scheduleName s true 5 7 = some "outer" ∧
    getSchedule s false 5 7 = some (some 4) ∧ scheduleName s false 5 7 = some "outer.inner" := by decide +kernel

/-! ## C275: the ends of schedules -/

/-- The end of a schedule is named after the domain only: the schedules on the way are left out of its full name. -/
theorem C275_end_fails {ops : List Op} (h : Tidy ops) {l : List Nat} {a p d : Nat}
    (hw : Within (runS step init ops) (some d) (l ++ [p]) a) (hd : kind (runS step init ops) d = .domain)
    (hk : kind (runS step init ops) a = .terminal) :
    Gives (fun n => fullName (runS step init ops) n a) ((runS step init ops).name d ++ "." ++ (runS step init ops).name a) ∧
    (runS step init ops).name d ++ "." ++ (runS step init ops).name a ≠
      dotted ((runS step init ops).name d :: (l ++ [p]).map (runS step init ops).name ++ [(runS step init ops).name a]) := by
  obtain ⟨r, hi⟩ := tidy_inv h
  generalize runS step init ops = s at *
  refine ⟨⟨l.length + 3, fun n hn => ?_⟩, ?_⟩
  · have h1 := domainName_within (.inr ⟨d, rfl, hd⟩) hw (by rw [hk]; nofun) n (by simp; omega)
    simp [fullName, h1, scheduleName, getSchedule, pickSched, joinNames, hk, topName]
  · intro e
    rw [List.cons_append, dotted_cons _ _ (by simp), dotted_snoc _ _ (by simp)] at e
    have e' := congrArg String.length e
    simp only [String.length_append] at e'
    have h1 : ".".length = 1 := rfl
    omega

/-- The end of a domain is named after the domain and itself. -/
theorem C275_end_partial (s : State) {a d : Nat} (hp : parent s a = some d) (hd : kind s d = .domain) (hk : kind s a = .terminal) :
    Gives (fun n => fullName s n a) (dotted [s.name d, s.name a]) := by
  have h1 := domainName_within (.inr ⟨d, rfl, hd⟩) (Within.out hp) (by rw [hk]; nofun)
  refine ⟨2, fun n hn => ?_⟩
  simp [fullName, h1 n (by simp; omega), scheduleName, getSchedule, pickSched, joinNames, hk, topName, dotted]

/-- The ends of "outer" and "inner" of the sample. -/
example : Within (runS step init sample) (some 0) ([2] ++ [4]) 5 ∧ kind (runS step init sample) 5 = .terminal ∧
    fullName (runS step init sample) 5 5 = some "uvm.inner end" ∧ fullName (runS step init sample) 5 1 = some "uvm.uvm end" :=
  ⟨.on (l := [2]) (by decide) (by decide) (.on (l := []) (by decide) (by decide) (.out (by decide))), by decide, by decide, by decide⟩

/-! ## C276: asking for a name ends -/

/-- After tidy histories every look-up of a name, schedule or domain ends. -/
theorem C276_ends_partial {ops : List Op} (h : Tidy ops) (a : Nat) (hier : Bool) :
    (∃ x, Gives (fun n => getDomain (runS step init ops) n a) x) ∧
    (∃ x, Gives (fun n => getSchedule (runS step init ops) hier n a) x) ∧
    (a < (runS step init ops).ph.next → ∃ x, Gives (fun n => fullName (runS step init ops) n a) x) := by
  obtain ⟨r, hi⟩ := tidy_inv h
  generalize runS step init ops = s at *
  obtain ⟨top, l, hw, ht, _⟩ := exists_within hi _ a (Nat.lt_succ_self _)
  refine ⟨?_, ?_, fun ha => ?_⟩
  · by_cases hk : kind s a = .domain
    · exact ⟨some a, 1, fun n hn => by
        obtain ⟨n, rfl⟩ : ∃ m, n = m + 1 := ⟨n - 1, by omega⟩
        simp [getDomain, hk]⟩
    · exact ⟨top, l.length + 2, fun n hn => getDomain_within ht hw hk n (by omega)⟩
  · cases hier
    · exact ⟨pickSched s a a, 0, fun _ _ => rfl⟩
    · exact ⟨_, l.length + 1, fun n hn => by
        show (topSched s n a).map (pickSched s a) = _
        rw [topSched_within ht hw n (by omega)]
        rfl⟩
  · cases hk : kind s a with
    | imp => exact ⟨_, C272_own_name s a (.inr hk)⟩
    | domain => exact ⟨_, C272_own_name s a (.inl hk)⟩
    | node => exact ⟨_, gives_full hi ht hw ha (.inl hk)⟩
    | schedule => exact ⟨_, gives_full hi ht hw ha (.inr hk)⟩
    | terminal =>
      refine ⟨topName s top ++ "." ++ s.name a, l.length + 2, fun n hn => ?_⟩
      have h1 := domainName_within ht hw (by rw [hk]; nofun) n (by omega)
      simp [fullName, h1, scheduleName, getSchedule, pickSched, joinNames, hk]

theorem hangs_loop {s : State} (c : Nat → Prop) (hc : ∀ a, c a → kind s a = .schedule ∧ ∃ p, parent s a = some p ∧ c p) {a : Nat} (ha : c a) :
    Hangs (fun n => getDomain s n a) ∧ Hangs (fun n => getSchedule s true n a) ∧ Hangs (fun n => fullName s n a) := by
  have h1 : ∀ n a, c a → getDomain s n a = none := by
    intro n
    induction n with
    | zero => intro _ _; rfl
    | succ n ih =>
      intro a ha
      obtain ⟨hk, p, hp, hcp⟩ := hc a ha
      simp [getDomain, hk, hp, ih p hcp]
  have h2 : ∀ n a, c a → topSched s n a = none := by
    intro n
    induction n with
    | zero => intro _ _; rfl
    | succ n ih =>
      intro a ha
      obtain ⟨hk, p, hp, hcp⟩ := hc a ha
      simp [topSched, (hc p hcp).1, hp, ih p hcp]
  refine ⟨fun n => h1 n a ha, fun n => ?_, fun n => ?_⟩
  · simp [getSchedule, h2 n a ha]
  · simp [fullName, (hc a ha).1, domainName, h1 n a ha]

/-- A schedule can be added to itself, and two schedules to each other: the calls succeed, and asking such a schedule for
its domain, its outermost schedule or its full name never ends. -/
theorem C276_cycle_fails :
    (∃ ops : List Op, (∀ r ∈ (run step init ops).2, r = .ok) ∧ Hangs (fun n => getDomain (runS step init ops) n 0) ∧
      Hangs (fun n => getSchedule (runS step init ops) true n 0) ∧ Hangs (fun n => fullName (runS step init ops) n 0) ∧
      ops.length = 2) ∧
    ∃ ops : List Op, (∀ r ∈ (run step init ops).2, r = .ok) ∧ Hangs (fun n => getDomain (runS step init ops) n 0) ∧
      Hangs (fun n => getSchedule (runS step init ops) true n 0) ∧ Hangs (fun n => fullName (runS step init ops) n 0) ∧
      ∀ self phase w a b, Op.add self phase w a b ∈ ops → self ≠ phase := by
  refine ⟨⟨[.newTop false "s", .add 0 0 none none none], by decide +kernel, ?_⟩,
    ⟨[.newTop false "s", .newTop false "t", .add 0 2 none none none, .add 2 0 none none none], by decide +kernel, ?_⟩⟩
  · have := hangs_loop (s := runS step init [.newTop false "s", .add 0 0 none none none]) (fun a => a = 0)
      (fun a ha => by subst ha; exact ⟨by decide +kernel, 0, by decide +kernel, rfl⟩) rfl
    exact ⟨this.1, this.2.1, this.2.2, rfl⟩
  · have := hangs_loop (s := runS step init [.newTop false "s", .newTop false "t", .add 0 2 none none none, .add 2 0 none none none])
      (fun a => a = 0 ∨ a = 2)
      (fun a ha => by
        rcases ha with ha | ha
        · subst ha; exact ⟨by decide +kernel, 2, by decide +kernel, .inr rfl⟩
        · subst ha; exact ⟨by decide +kernel, 0, by decide +kernel, .inl rfl⟩) (a := 0) (.inl rfl)
    refine ⟨this.1, this.2.1, this.2.2, ?_⟩
    intro self phase w a b hm
    simp only [List.mem_cons, List.not_mem_nil, or_false, reduceCtorEq, false_or, Op.add.injEq] at hm
    omega

end Verif.PhaseNames
