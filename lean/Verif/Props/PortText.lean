import Verif.Spec.PortText
/-! # C368, C369: the display of port networks -/
namespace Verif.PortText

/-- Every connection displayed adds one piece to the indentation, and none is taken away. -/
def Grown (st st' : St) : Prop :=
  ∃ l : List Line, st'.lines = st.lines ++ l ∧ st'.indent.length = st.indent.length + l.length ∧
    ∀ i (h : i < l.length), (l[i]).indent.length = st.indent.length + i

theorem Grown.refl (st : St) : Grown st st := ⟨[], by simp, by simp, fun i h => absurd h (by simp)⟩

theorem Grown.trans {a b c : St} (h : Grown a b) (h' : Grown b c) : Grown a c := by
  obtain ⟨l, h1, h2, h3⟩ := h
  obtain ⟨m, g1, g2, g3⟩ := h'
  refine ⟨l ++ m, by rw [g1, h1, List.append_assoc], by rw [g2, h2, List.length_append]; omega, fun i hi => ?_⟩
  rw [List.getElem_append]
  split
  · next hl => exact h3 i hl
  · next hl =>
    have := g3 (i - l.length) (by rw [List.length_append] at hi; omega)
    rw [this, h2]; omega

theorem grown_line (st : St) (b : Bool) (nm : String) (q : Nat) : Grown st ⟨st.indent ++ [b], st.lines ++ [⟨st.indent, nm, q⟩]⟩ :=
  ⟨[⟨st.indent, nm, q⟩], rfl, by simp, fun i h => by simp at h; simp [h]⟩

theorem entries_net (next : Nat → List (String × Nat)) (ok : Nat → Prop) (d : Nat) (rec : Nat → St → Option St)
    (cs : List (String × Nat))
    (hrec : ∀ c ∈ cs, ∀ st, ∃ st' l, rec c.2 st = some st' ∧ Grown st st' ∧ (st'.lines.map fun x => (x.name, x.port)) = (st.lines.map fun x => (x.name, x.port)) ++ l.map (·.2) ∧
      ((¬ ok (d + 1) ∧ l = []) ∨ (ok (d + 1) ∧ Net next ok (d + 1) (next c.2) l))) :
    ∀ st, ∃ st' l, entries rec cs st = some st' ∧ Grown st st' ∧
      (st'.lines.map fun x => (x.name, x.port)) = (st.lines.map fun x => (x.name, x.port)) ++ l.map (·.2) ∧ Net next ok d cs l := by
  induction cs with
  | nil => intro st; exact ⟨st, [], rfl, .refl st, by simp, .nil d⟩
  | cons c cs ih =>
    intro st
    obtain ⟨nm, q⟩ := c
    obtain ⟨s1, l1, e1, g1, m1, h1⟩ := hrec (nm, q) (by simp) ⟨st.indent ++ [!cs.isEmpty], st.lines ++ [⟨st.indent, nm, q⟩]⟩
    obtain ⟨s2, l2, e2, g2, m2, h2⟩ := ih (fun c hc => hrec c (by simp [hc])) s1
    refine ⟨s2, (d, nm, q) :: l1 ++ l2, ?_, ((grown_line st _ nm q).trans g1).trans g2, ?_, ?_⟩
    · simp only [entries, e1, e2]
    · rw [m2, m1]; simp
    · rcases h1 with ⟨hn, rfl⟩ | ⟨hy, hl⟩
      · exact .cut hn h2
      · exact .cons hy hl h2

theorem walk_net (next : Nat → List (String × Nat)) (stop : Nat → Bool) (rank : Nat → Nat) (ha : NoCycle next rank) : ∀ (n level p : Nat), rank p < n → ∀ st,
    ∃ st' l, walk next stop n level p st = some st' ∧ Grown st st' ∧ (st'.lines.map fun x => (x.name, x.port)) = (st.lines.map fun x => (x.name, x.port)) ++ l.map (·.2) ∧
      ((¬ stop level = false ∧ l = []) ∨ (stop level = false ∧ Net next (fun d => stop d = false) level (next p) l)) := by
  intro n
  induction n with
  | zero => intro level p h; omega
  | succ n ih =>
    intro level p hp st
    simp only [walk]
    cases hs : stop level with
    | true => exact ⟨st, [], by simp, .refl st, by simp, .inl ⟨by simp, rfl⟩⟩
    | false =>
      obtain ⟨st', l, h1, h2, h3, h4⟩ := entries_net next (fun d => stop d = false) level (walk next stop n (level + 1)) (next p)
        (fun c hc st => ih (level + 1) c.2 (by have := ha p c hc; omega) st) st
      exact ⟨st', l, by simpa using h1, h2, h3, .inr ⟨rfl, h4⟩⟩

theorem Net.congr {next : Nat → List (String × Nat)} {ok ok' : Nat → Prop} (h : ∀ d, ok d ↔ ok' d) {d : Nat} {cs : List (String × Nat)} {l : List (Nat × String × Nat)}
    (hn : Net next ok d cs l) : Net next ok' d cs l := by
  induction hn with
  | nil d => exact .nil d
  | cut hk _ ih => exact .cut (fun h' => hk ((h _).2 h')) ih
  | cons hk _ _ ih1 ih2 => exact .cons ((h _).1 hk) ih1 ih2

theorem stopTo_false (k : Int) (d : Nat) : stopTo k d = false ↔ Within k d := by
  simp only [stopTo, Within, Bool.and_eq_false_iff, bne_eq_false_iff_eq, decide_eq_false_iff_not]
  omega

theorem stopFrom_false (k : Int) (hk : k ≠ -2) (d : Nat) : stopFrom k d = false ↔ Within (if k = -1 then -1 else k + 1) d := by
  simp only [stopFrom, Within, Bool.and_eq_false_iff, bne_eq_false_iff_eq, decide_eq_false_iff_not]
  split <;> omega

theorem impLines_map (ind : List Bool) (l : List (String × Nat)) : ∀ i, (impLines ind i l).map (fun x => x.2.2) = l ∧
    (impLines ind i l).map (fun x => x.2.1) = List.range' i l.length := by
  induction l with
  | nil => intro i; exact ⟨rfl, rfl⟩
  | cons c l ih =>
    intro i
    obtain ⟨nm, q⟩ := c
    simp only [impLines, List.map_cons, (ih (i + 1)).1, (ih (i + 1)).2, List.length_cons, List.range'_succ]
    exact ⟨trivial, trivial⟩

/-- C368.  In a network without cycles `debug_connected_to` displays the tree of connections of the port, down to the level asked for, each connection followed by what is
below it, in the order of connection; and all implementations found, numbered in order. -/
theorem C368_fanout (s : Port.State) (rank : Nat → Nat) (ha : Port.Acyclic s rank) (p : Nat) (k : Int) (hk : Within k 0) (n : Nat) (hn : rank p < n) :
    ∃ t l, connectedTo s n k p = some (.text t) ∧ Net (fun q => (s.node q).providedBy) (Within k) 0 (s.node p).providedBy l ∧
      (t.net.map fun x => (x.name, x.port)) = l.map (·.2) ∧ t.imps.map (fun x => x.2.2) = (s.node p).imps ∧ t.imps.map (fun x => x.2.1) = List.range (s.node p).imps.length := by
  obtain ⟨st, l, h1, _, h3, h4⟩ := walk_net (fun q => (s.node q).providedBy) (stopTo k) rank (fun p c hc => ha p c.2 ⟨c.1, hc⟩) n 0 p hn ⟨[], []⟩
  have h0 := (stopTo_false k 0).2 hk
  rcases h4 with ⟨hf, _⟩ | ⟨_, h4⟩
  · exact absurd h0 hf
  · refine ⟨⟨st.lines, impLines st.indent 0 (s.node p).imps, false⟩, l, by simp only [connectedTo, h0, Bool.false_eq_true, if_false, h1], h4.congr (stopTo_false k), by simpa using h3, (impLines_map _ _ 0).1, ?_⟩
    rw [(impLines_map _ _ 0).2, List.range_eq_range']

/-- C368.  The same for `debug_provided_to` and the ports that lead to the port, with one level more; a port that nothing was connected to is said not to be bound. -/
theorem C368_fanin (s : Port.State) (rank : Nat → Nat) (ha : NoCycle (fun q => (s.node q).providedTo) rank) (p : Nat) (k : Int) (hk : -1 ≤ k) (n : Nat) (hn : rank p < n) :
    ∃ t l, providedTo s n k p = some (.text t) ∧ Net (fun q => (s.node q).providedTo) (Within (if k = -1 then -1 else k + 1)) 0 (s.node p).providedTo l ∧
      (t.net.map fun x => (x.name, x.port)) = l.map (·.2) ∧ (t.unbound = true ↔ (s.node p).providedTo = []) := by
  obtain ⟨st, l, h1, _, h3, h4⟩ := walk_net (fun q => (s.node q).providedTo) (stopFrom k) rank ha n 0 p hn ⟨[], []⟩
  have h0 := (stopFrom_false k (by omega) 0).2 (by simp only [Within]; split <;> omega)
  rcases h4 with ⟨hf, _⟩ | ⟨_, h4⟩
  · exact absurd h0 hf
  · exact ⟨⟨st.lines, [], (s.node p).providedTo.isEmpty⟩, l, by simp only [providedTo, h0, Bool.false_eq_true, if_false, h1], h4.congr (stopFrom_false k (by omega)), by simpa using h3, by simp⟩

theorem Net.ports {next : Nat → List (String × Nat)} {ok : Nat → Prop} (hok : ∀ d, ok d) {d : Nat} {cs : List (String × Nat)} {l : List (Nat × String × Nat)} (h : Net next ok d cs l)
    (q : Nat) : q ∈ l.map (·.2.2) ↔ ∃ c ∈ cs, c.2 = q ∨ Leads next c.2 q := by
  induction h with
  | nil d => simp
  | cut hk => exact absurd (hok _) hk
  | @cons d c cs l m _ _ _ ih1 ih2 =>
    rw [List.cons_append, List.map_cons, List.map_append, List.mem_cons, List.mem_append, ih1, ih2]
    constructor
    · rintro (h | ⟨x, hx, h⟩ | ⟨x, hx, h⟩)
      · exact ⟨c, by simp, .inl h.symm⟩
      · refine ⟨c, by simp, .inr ?_⟩
        rcases h with rfl | h
        · exact .one hx
        · exact .more hx h
      · exact ⟨x, by simp [hx], h⟩
    · rintro ⟨x, hx, h⟩
      rcases List.mem_cons.1 hx with rfl | hx
      · rcases h with h | h
        · exact .inl h.symm
        · refine .inr (.inl ?_)
          cases h with
          | one hc => exact ⟨_, hc, .inl rfl⟩
          | more hc h => exact ⟨_, hc, .inr h⟩
      · exact .inr (.inr ⟨x, hx, h⟩)

/-- C368.  So without a limit the ports displayed are exactly those that connections lead to. -/
theorem C368_reached (s : Port.State) (rank : Nat → Nat) (ha : Port.Acyclic s rank) (p : Nat) (n : Nat) (hn : rank p < n) :
    ∃ t, connectedTo s n (-1) p = some (.text t) ∧ ∀ q, q ∈ t.net.map (·.port) ↔ Leads (fun q => (s.node q).providedBy) p q := by
  obtain ⟨t, l, h1, h2, h3, _⟩ := C368_fanout s rank ha p (-1) (.inl rfl) n hn
  refine ⟨t, h1, fun q => ?_⟩
  have e : t.net.map (·.port) = l.map (·.2.2) := by
    have := congrArg (List.map Prod.snd) h3
    simpa [List.map_map, Function.comp_def] using this
  rw [e, h2.ports (fun d => .inl rfl)]
  constructor
  · rintro ⟨c, hc, rfl | h⟩
    · exact .one hc
    · exact .more hc h
  · intro h
    cases h with
    | one hc => exact ⟨_, hc, .inl rfl⟩
    | more hc h => exact ⟨_, hc, .inr h⟩

/-- C369 fails for every port with two or more connections: they are all at the same depth, and no two of them are displayed with the same indentation: the indentation is increased
for every connection and never decreased, so the first connection is indented by nothing and any later one by as many pieces as lines are above it. -/
theorem C369_depth_fails (s : Port.State) (rank : Nat → Nat) (ha : Port.Acyclic s rank) (p : Nat) (n : Nat) (hn : rank p < n)
    (a b : String × Nat) (rest : List (String × Nat)) (hp : (s.node p).providedBy = a :: b :: rest) :
    ∃ (t : Text) (l : List (Nat × String × Nat)) (i j : Nat), connectedTo s n (-1) p = some (.text t) ∧ Net (fun q => (s.node q).providedBy) (Within (-1)) 0 (s.node p).providedBy l ∧
      (t.net.map fun x => (x.name, x.port)) = l.map (·.2) ∧ l[i]? = some (0, a) ∧ l[j]? = some (0, b) ∧
      ∃ x y : Line, t.net[i]? = some x ∧ t.net[j]? = some y ∧ x.indent.length < y.indent.length := by
  obtain ⟨st, l, h1, ⟨m, g1, g2, g3⟩, h3, h4⟩ := walk_net (fun q => (s.node q).providedBy) (stopTo (-1)) rank (fun p c hc => ha p c.2 ⟨c.1, hc⟩) n 0 p hn ⟨[], []⟩
  have h0 := (stopTo_false (-1) 0).2 (.inl rfl)
  rcases h4 with ⟨hf, _⟩ | ⟨_, h4⟩
  · exact absurd h0 hf
  replace h4 := h4.congr (stopTo_false (-1))
  have hm : st.lines = m := by simpa using g1
  have hlen : m.length = l.length := by
    have := congrArg List.length h3
    rw [hm] at this
    simpa using this
  have hpos : ∃ j, 0 < j ∧ l[0]? = some (0, a) ∧ l[j]? = some (0, b) := by
    have h5 := h4
    rw [hp] at h5
    cases h5 with
    | cut hk => exact absurd (.inl rfl) hk
    | @cons _ _ _ l1 l2 _ _ h6 =>
      cases h6 with
      | cut hk => exact absurd (.inl rfl) hk
      | cons => exact ⟨l1.length + 1, by omega, rfl, by simp⟩
  obtain ⟨j, hj, ha0, hbj⟩ := hpos
  have hjl : j < m.length := by rw [hlen]; exact (List.getElem?_eq_some_iff.1 hbj).1
  refine ⟨⟨st.lines, impLines st.indent 0 (s.node p).imps, false⟩, l, 0, j, by simp only [connectedTo, h0, Bool.false_eq_true, if_false, h1], h4, by simpa using h3, ha0, hbj, m[0]'(by omega), m[j], ?_, ?_, ?_⟩
  · simp only [hm]; exact List.getElem?_eq_getElem _
  · simp only [hm]; exact List.getElem?_eq_getElem _
  · rw [g3 0 (by omega), g3 j hjl]; simp; omega

/-- With one connection each, the depths of the tree are the numbers of the lines. -/
theorem Net.chain {next : Nat → List (String × Nat)} (h1 : ∀ p, (next p).length ≤ 1) {ok : Nat → Prop} {d : Nat} {cs : List (String × Nat)} {l : List (Nat × String × Nat)}
    (h : Net next ok d cs l) (hc : cs.length ≤ 1) : ∀ i x, l[i]? = some x → x.1 = d + i := by
  induction h with
  | nil d => intro i x h; simp at h
  | @cut d c cs m _ hm ih =>
    obtain rfl : cs = [] := List.eq_nil_of_length_eq_zero (by simp at hc; simpa using hc)
    cases hm
    intro i x h
    cases i with
    | zero => simp at h; simp [← h]
    | succ i => simp at h
  | @cons d c cs l m _ _ hm ih1 ih2 =>
    obtain rfl : cs = [] := List.eq_nil_of_length_eq_zero (by simp at hc; simpa using hc)
    cases hm
    intro i x h
    cases i with
    | zero => simp at h; simp [← h]
    | succ i =>
      have := ih1 (h1 _) i x (by simpa using h)
      omega

/-- C369 fails: with `max_level` 0 `debug_connected_to` displays nothing and `debug_provided_to` still displays a level, for every port that something was connected to. -/
theorem C369_levels_fails (s : Port.State) (rank : Nat → Nat) (ha : NoCycle (fun q => (s.node q).providedTo) rank) (p : Nat) (n : Nat) (hn : rank p < n)
    (hp : (s.node p).providedTo ≠ []) :
    connectedTo s n 0 p = some .nothing ∧ ∃ t, providedTo s n 0 p = some (.text t) ∧ (t.net.map fun x => (x.name, x.port)) = (s.node p).providedTo := by
  refine ⟨by simp [connectedTo, stopTo], ?_⟩
  obtain ⟨t, l, h1, h2, h3, _⟩ := C368_fanin s rank ha p 0 (by decide) n hn
  refine ⟨t, h1, h3.trans ?_⟩
  clear h3 h1 hp
  have key : ∀ (d : Nat) (cs : List (String × Nat)) (l : List (Nat × String × Nat)),
      Net (fun q => (s.node q).providedTo) (Within (if (0 : Int) = -1 then -1 else 0 + 1)) d cs l → l.map (·.2) = cs := by
    intro d cs l h
    induction h with
    | nil => rfl
    | cut _ _ ih => simp [ih]
    | cons hok _ _ _ ih => simp [Within] at hok; omega
  exact key _ _ _ h2

/-- C369, what holds: in a network in which every port has at most one connection the indentation is the depth. -/
theorem C369_chain_partial (s : Port.State) (rank : Nat → Nat) (ha : Port.Acyclic s rank) (h1 : ∀ q, ((s.node q).providedBy).length ≤ 1) (p : Nat) (n : Nat) (hn : rank p < n) :
    ∃ t l, connectedTo s n (-1) p = some (.text t) ∧ Net (fun q => (s.node q).providedBy) (Within (-1)) 0 (s.node p).providedBy l ∧ t.net.length = l.length ∧
      ∀ (i : Nat) (x : Line) (y : Nat × String × Nat), t.net[i]? = some x → l[i]? = some y → x.indent.length = y.1 ∧ (x.name, x.port) = y.2 := by
  obtain ⟨st, l, e1, ⟨m, g1, g2, g3⟩, h3, h4⟩ := walk_net (fun q => (s.node q).providedBy) (stopTo (-1)) rank (fun p c hc => ha p c.2 ⟨c.1, hc⟩) n 0 p hn ⟨[], []⟩
  have h0 := (stopTo_false (-1) 0).2 (.inl rfl)
  rcases h4 with ⟨hf, _⟩ | ⟨_, h4⟩
  · exact absurd h0 hf
  replace h4 := h4.congr (stopTo_false (-1))
  have hm : st.lines = m := by simpa using g1
  replace h3 : (st.lines.map fun x => (x.name, x.port)) = l.map (·.2) := by simpa using h3
  refine ⟨⟨st.lines, impLines st.indent 0 (s.node p).imps, false⟩, l, by simp only [connectedTo, h0, Bool.false_eq_true, if_false, e1], h4, by simpa using congrArg List.length h3, fun i x y hx hy => ?_⟩
  simp only at hx
  constructor
  · rw [hm] at hx
    obtain ⟨hi, rfl⟩ := List.getElem?_eq_some_iff.1 hx
    rw [g3 i hi, h4.chain h1 (h1 p) i y hy]
    simp
  · have := congrArg (fun z => z[i]?) h3
    simp only [List.getElem?_map, hx, hy, Option.map_some, Option.some.injEq] at this
    exact this

/-- A port 0 connected to the ports 1 and 2, and 1 to 3. -/
def ex : Port.State :=
  Port.built (fun p => toString p) (fun p => Port.fresh (if p < 2 then .port else .imp) 1 0 (-1)) [(1, some 3), (0, some 1), (0, some 2)]

example : Port.Acyclic ex (fun p => 3 - p) ∧ (ex.node 0).providedBy = ("1", 1) :: ("2", 2) :: [] := by
  have h0 : ∀ p, (ex.node p).providedBy = if p = 0 then [("1", 1), ("2", 2)] else if p = 1 then [("3", 3)] else [] := by
    intro p
    match p with
    | 0 => decide
    | 1 => decide
    | 2 => decide
    | 3 => decide
    | p + 4 => simp [ex, Port.built, Port.connect, Port.setNode, Port.fresh]
  refine ⟨fun p q ⟨k, hq⟩ => ?_, h0 0⟩
  rw [h0] at hq
  split at hq
  · simp at hq; show 3 - q < 3 - p; omega
  · split at hq
    · simp at hq; show 3 - q < 3 - p; omega
    · simp at hq

/-- The connection to 2, at the same depth as that to 1, is indented by two pieces. -/
example : connectedTo ex 10 (-1) 0 = some (.text { net := [⟨[], "1", 1⟩, ⟨[true], "3", 3⟩, ⟨[true, false], "2", 2⟩] }) := by decide
example : connectedTo ex 10 1 0 = some (.text { net := [⟨[], "1", 1⟩, ⟨[true], "2", 2⟩] }) := by decide
example : providedTo ex 10 0 3 = some (.text { net := [⟨[], "1", 1⟩] }) := by decide
example : providedTo ex 10 (-1) 0 = some (.text { net := [], unbound := true }) := by decide

end Verif.PortText
