import Verif.Lemmas.ReportText
/-!
# C244 – C248: report texts
-/
namespace Verif.ReportText
open Verif.Pool (keys lookup assign)

/-- C244, what holds: the copy of a message without elements has the same settings, and the same text is composed of it. -/
theorem C244_copy_partial (m : Msg) (h : m.elems = []) (term : Bool) (time shown : Txt) :
    ∃ m', copy m = some m' ∧ m' = m ∧ compose term time shown m' = compose term time shown m := by
  refine ⟨m, ?_, rfl, rfl⟩
  simp only [copy, h, List.any_nil, Bool.false_eq_true, if_false, List.map_nil, Option.some.injEq]
  cases m; simp_all

/-- C244 fails for every message with elements: they are not copied, and composing the text of the copy raises. -/
theorem C244_elements_fails (m m' : Msg) (h : m.elems ≠ []) (hc : copy m = some m') (term : Bool) (time shown : Txt) :
    compose term time shown m' = none ∧ ∀ e ∈ m'.elems, e = none := by
  simp only [copy] at hc
  split at hc
  · cases hc
  · simp only [Option.some.injEq] at hc
    subst hc
    have hall : ∀ e ∈ m.elems.map cloneElem, e = none := by
      intro e he
      obtain ⟨x, _, rfl⟩ := List.mem_map.1 he
      rfl
    refine ⟨?_, hall⟩
    have hany : (m.elems.map cloneElem).any (·.isNone) = true := by
      cases hm : m.elems with
      | nil => exact absurd hm h
      | cons x l => rfl
    have hlen : (m.elems.map cloneElem).length ≠ 0 := by
      rw [List.length_map]
      intro h0; exact h (List.eq_nil_of_length_eq_zero h0)
    simp only [compose, printElems, hany, if_neg hlen, if_true, Option.map_none]

example : ∃ m', copy (add ⟨.info, ['I'], ['t'], 0, [], [], [], 3, none, []⟩ ['a'] ['1'] 2) = some m' := ⟨_, rfl⟩

/-- C245 fails for every message: whatever is added to it does not show in its text. -/
theorem C245_elements_fails (m : Msg) (es es' : List Elem) (h : es ≠ []) (h' : es' ≠ []) (term : Bool) (time shown : Txt) :
    compose term time shown { m with elems := es.map some } = compose term time shown { m with elems := es'.map some } := by
  have hl : ∀ es : List Elem, es ≠ [] → (es.map some).length ≠ 0 := by
    intro es h h0
    rw [List.length_map] at h0
    exact h (List.eq_nil_of_length_eq_zero h0)
  have ha : ∀ es : List Elem, (es.map some).any (·.isNone) = false := by
    intro es; induction es with
    | nil => rfl
    | cons e l ih => simp
  simp only [compose, printElems, ha, if_neg (hl es h), if_neg (hl es' h'), Bool.false_eq_true, if_false]

/-- C246.  The text composed of a plain message shows everything: two messages with the same text (composed with the same setting of
the terminator) have the same severity, file, line, name, context, id and text, and the same time. -/
theorem C246_text_shows_all (m m' : Msg) (h : Plain m) (h' : Plain m') (term : Bool) (time time' shown shown' : Txt) (ht : ':' ∉ time) (ht' : ':' ∉ time')
    (e : compose term time shown m = compose term time' shown' m') :
    m.sev = m'.sev ∧ m.file = m'.file ∧ (m.file ≠ [] → m.line = m'.line) ∧ time = time' ∧ m.handler = m'.handler ∧ m.ctx = m'.ctx ∧ m.id = m'.id ∧
      m.text = m'.text := by
  obtain ⟨n, hn, hn1, hn2⟩ := h.handler
  obtain ⟨n', hn', hn1', hn2'⟩ := h'.handler
  have hsp : ∀ s, ' ' ∉ ename s := by intro s; cases s <;> decide
  have hinj : ∀ s s', ename s = ename s' → s = s' := by intro s s'; cases s <;> cases s' <;> decide
  simp only [compose, h.elems, h'.elems, List.length_nil, if_true, Option.map_some, Option.some.injEq, hn, hn', Option.getD_some,
    List.append_assoc, List.cons_append, List.nil_append] at e
  obtain ⟨e1, e⟩ := split_first (hsp _) (hsp _) e
  have hs := hinj _ _ e1
  rw [hs] at e ⊢
  clear e1 hinj hsp hs
  -- the rest, from the name on
  have rest : ∀ {t t' : Txt}, ':' ∉ t → ':' ∉ t' → ∀ {c c' i i' b b' z : Txt}, ' ' ∉ c → ' ' ∉ c' → ']' ∉ i → ']' ∉ i' →
      t ++ (':' :: ' ' :: (n ++ ((if c ≠ [] then '@' :: '@' :: c else []) ++ (' ' :: '[' :: (i ++ (']' :: ' ' :: (b ++ z))))))) =
      t' ++ (':' :: ' ' :: (n' ++ ((if c' ≠ [] then '@' :: '@' :: c' else []) ++ (' ' :: '[' :: (i' ++ (']' :: ' ' :: (b' ++ z))))))) →
      t = t' ∧ n = n' ∧ c = c' ∧ i = i' ∧ b = b' := by
    intro t t' ht ht' c c' i i' b b' z hc hc' hi hi' e
    obtain ⟨e1, e⟩ := split_first ht ht' e
    simp only [List.cons.injEq, true_and] at e
    have hw : ∀ (n c : Txt), ' ' ∉ n → ' ' ∉ c → ' ' ∉ n ++ (if c ≠ [] then '@' :: '@' :: c else []) := by
      intro n c h1 h2
      rw [List.mem_append]
      rintro (h | h)
      · exact h1 h
      · split at h
        · simp only [List.mem_cons] at h
          rcases h with h | h | h
          · exact absurd h (by decide)
          · exact absurd h (by decide)
          · exact h2 h
        · cases h
    rw [← List.append_assoc, ← List.append_assoc (as := n')] at e
    obtain ⟨e2, e⟩ := split_first (hw n c hn2 hc) (hw n' c' hn2' hc') e
    simp only [List.cons.injEq, true_and] at e
    obtain ⟨e3, e⟩ := split_first hi hi' e
    simp only [List.cons.injEq, true_and] at e
    have e4 : b = b' := List.append_cancel_right e
    have e5 : n = n' ∧ c = c' := by
      by_cases h1 : c = [] <;> by_cases h2 : c' = []
      · subst h1; subst h2; simpa using e2
      · simp only [h1, h2, ne_eq, not_true, not_false_iff, if_true, if_false, List.append_nil] at e2
        rw [e2] at hn1
        exact absurd (List.mem_append_right _ List.mem_cons_self) hn1
      · simp only [h1, h2, ne_eq, not_true, not_false_iff, if_true, if_false, List.append_nil] at e2
        rw [← e2] at hn1'
        exact absurd (List.mem_append_right _ List.mem_cons_self) hn1'
      · simp only [h1, h2, ne_eq, not_false_iff, if_true] at e2
        obtain ⟨a, b⟩ := split_first hn1 hn1' e2
        exact ⟨a, by simpa using b⟩
    exact ⟨e1, e5.1, e5.2, e3, e4⟩
  by_cases h1 : m.file = [] <;> by_cases h2 : m'.file = []
  · simp only [h1, h2, ne_eq, not_true, if_false, List.nil_append, List.cons.injEq, true_and] at e
    obtain ⟨a, b, c, d, f⟩ := rest ht ht' h.ctx h'.ctx h.id h'.id e
    exact ⟨rfl, by rw [h1, h2], fun hx => absurd h1 hx, a, by rw [hn, hn', b], c, d, f⟩
  · simp only [h1, h2, ne_eq, not_true, not_false_iff, if_true, if_false, List.nil_append, List.append_assoc, List.cons_append] at e
    cases hf : m'.file with
    | nil => exact absurd hf h2
    | cons x l =>
      rw [hf] at e
      simp only [List.cons_append, List.cons.injEq] at e
      have := h'.file.2
      rw [hf, List.head?_cons, ← e.1] at this
      exact absurd rfl this
  · simp only [h1, h2, ne_eq, not_true, not_false_iff, if_true, if_false, List.nil_append, List.append_assoc, List.cons_append] at e
    cases hf : m.file with
    | nil => exact absurd hf h1
    | cons x l =>
      rw [hf] at e
      simp only [List.cons_append, List.cons.injEq] at e
      have := h.file.2
      rw [hf, List.head?_cons, e.1] at this
      exact absurd rfl this
  · simp only [h1, h2, ne_eq, not_false_iff, if_true, List.nil_append, List.append_assoc, List.cons_append] at e
    obtain ⟨e2, e⟩ := split_first h.file.1 h'.file.1 e
    obtain ⟨e3, e⟩ := split_first h.line h'.line e
    simp only [List.cons.injEq, true_and] at e
    obtain ⟨a, b, c, d, f⟩ := rest ht ht' h.ctx h'.ctx h.id h'.id e
    exact ⟨rfl, e2, fun _ => e3, a, by rw [hn, hn', b], c, d, f⟩

example : Plain ⟨.error, ['I', 'D'], ['a', ' ', 'b'], 0, ['f'], ['1', '2'], ['c'], 3, some ['t', '.', 'u'], []⟩ :=
  ⟨rfl, ⟨_, rfl, by decide, by decide⟩, ⟨by decide, by decide⟩, by decide, by decide, by decide⟩

/-- The state of the server after a history. -/
structure Agrees (s : Server) (pre : List Op) (lids : List Txt) (lsevs : List Sev) : Prop where
  ids : keys s.ids.items = firstSeen ((messages pre).map (·.2))
  sevs : keys s.sevs.items = [.info, .warning, .error, .fatal]
  nodup : (keys s.ids.items).Nodup
  idN : ∀ i, (lookup s.ids.items i).getD 0 = idCount pre i
  sevN : ∀ v, (lookup s.sevs.items v).getD 0 = sevCount pre v
  idPtr : ∃ k : Nat, k ≤ s.ids.items.length ∧ s.ids.ptr = (k : Int) - 1 ∧ lids = (keys s.ids.items).take k
  sevPtr : ∃ k : Nat, k ≤ s.sevs.items.length ∧ s.sevs.ptr = (k : Int) - 1 ∧ lsevs = (keys s.sevs.items).take k

theorem agrees_new : Agrees newServer [] [] [] :=
  ⟨rfl, by decide, by decide, fun _ => rfl, fun v => by cases v <;> decide, ⟨0, by decide, by decide, by decide⟩, ⟨0, by decide, by decide, by decide⟩⟩

theorem messages_append (a b : List Op) : messages (a ++ b) = messages a ++ messages b := by
  induction a with
  | nil => rfl
  | cons o l ih => cases o <;> simp [messages, ih]

theorem agrees_step {s : Server} {pre : List Op} {li : List Txt} {ls : List Sev} (h : Agrees s pre li ls) (o : Op) :
    Agrees (step s o).1 (pre ++ [o]) (li ++ (step s o).2.1) (ls ++ (step s o).2.2) := by
  cases o with
  | message v i =>
    have hm : messages (pre ++ [.message v i]) = messages pre ++ [(v, i)] := messages_append _ _
    refine ⟨?_, ?_, nodup_incr _ _ h.nodup, fun x => ?_, fun x => ?_, ?_, ?_⟩
    · show keys (incr s.ids i).items = _
      rw [keys_incr, hm, h.ids]
      simp only [firstSeen, List.map_append, List.map_cons, List.map_nil, List.foldl_append, List.foldl_cons, List.foldl_nil]
      by_cases hx : i ∈ List.foldl (fun seen i => if i ∈ seen then seen else seen ++ [i]) [] ((messages pre).map (·.2))
      · rw [if_pos hx]; exact if_pos hx
      · rw [if_neg hx]; exact if_neg hx
    · show keys (incr s.sevs v).items = _
      rw [keys_incr, h.sevs]
      cases v <;> decide
    · show (lookup (incr s.ids i).items x).getD 0 = _
      rw [lookup_incr, h.idN]
      simp only [idCount, hm, List.filter_append, List.length_append]
      by_cases hx : i = x <;> simp [hx]
    · show (lookup (incr s.sevs v).items x).getD 0 = _
      rw [lookup_incr, h.sevN]
      simp only [sevCount, hm, List.filter_append, List.length_append]
      by_cases hx : v = x <;> simp [hx]
    · obtain ⟨k, h1, h2, h3⟩ := h.idPtr
      refine ⟨k, Nat.le_trans h1 (length_incr _ _), (ptr_incr _ _).trans h2, ?_⟩
      show li ++ [] = (keys (incr s.ids i).items).take k
      rw [take_incr _ _ _ h1, h3, List.append_nil]
    · obtain ⟨k, h1, h2, h3⟩ := h.sevPtr
      refine ⟨k, Nat.le_trans h1 (length_incr _ _), (ptr_incr _ _).trans h2, ?_⟩
      show ls ++ [] = (keys (incr s.sevs v).items).take k
      rw [take_incr _ _ _ h1, h3, List.append_nil]
  | idSet =>
    have hm : messages (pre ++ [.idSet]) = messages pre := by rw [messages_append]; simp [messages]
    obtain ⟨k, h1, h2, h3⟩ := h.idPtr
    have e : getSet s.ids = (⟨s.ids.items, (s.ids.items.length : Int) - 1⟩, (keys s.ids.items).drop k) := by
      have := getSet_spec s.ids.items k h1
      rw [← h2] at this; exact this
    simp only [step, e]
    refine ⟨by rw [hm]; exact h.ids, h.sevs, h.nodup, fun i => by simp only [idCount, hm]; exact h.idN i,
      fun v => by simp only [sevCount, hm]; exact h.sevN v, ⟨s.ids.items.length, Nat.le_refl _, rfl, ?_⟩, ?_⟩
    · rw [h3, List.take_append_drop, List.take_of_length_le (by simp [keys])]
    · simpa using h.sevPtr
  | sevSet =>
    have hm : messages (pre ++ [.sevSet]) = messages pre := by rw [messages_append]; simp [messages]
    obtain ⟨k, h1, h2, h3⟩ := h.sevPtr
    have e : getSet s.sevs = (⟨s.sevs.items, (s.sevs.items.length : Int) - 1⟩, (keys s.sevs.items).drop k) := by
      have := getSet_spec s.sevs.items k h1
      rw [← h2] at this; exact this
    simp only [step, e]
    refine ⟨by rw [hm]; exact h.ids, h.sevs, h.nodup, fun i => by simp only [idCount, hm]; exact h.idN i,
      fun v => by simp only [sevCount, hm]; exact h.sevN v, by simpa using h.idPtr, ⟨s.sevs.items.length, Nat.le_refl _, rfl, ?_⟩⟩
    rw [h3, List.take_append_drop, List.take_of_length_le (by simp [keys])]

theorem agrees_run (ops : List Op) : ∀ {s : Server} {pre : List Op} {li : List Txt} {ls : List Sev}, Agrees s pre li ls →
    Agrees (run s ops) (pre ++ ops) (li ++ listedIds s ops) (ls ++ listedSevs s ops) := by
  induction ops with
  | nil => intro s pre li ls h; simpa [run, listedIds, listedSevs] using h
  | cons o l ih =>
    intro s pre li ls h
    have := ih (agrees_step h o)
    simpa [run, listedIds, listedSevs] using this

/-- C247, what holds: until they are asked for, nothing is lost: in all, `get_id_set` gives every id once, in the order of the first
messages, and `get_severity_set` the four severities. -/
theorem C247_sets_partial (ops : List Op) :
    listedIds newServer (ops ++ [.idSet]) = firstSeen ((messages ops).map (·.2)) ∧
    listedSevs newServer (ops ++ [.sevSet]) = [.info, .warning, .error, .fatal] := by
  have key : ∀ o : Op, Agrees (run newServer (ops ++ [o])) (ops ++ [o]) (listedIds newServer (ops ++ [o])) (listedSevs newServer (ops ++ [o])) := by
    intro o; simpa using agrees_run (ops ++ [o]) agrees_new
  have a := agrees_run ops agrees_new
  simp only [List.nil_append] at a
  have app : ∀ (l : List Op) (s : Server) (o : Op), listedIds s (l ++ [o]) = listedIds s l ++ (step (run s l) o).2.1 ∧
      listedSevs s (l ++ [o]) = listedSevs s l ++ (step (run s l) o).2.2 := by
    intro l
    induction l with
    | nil => intro s o; simp [listedIds, listedSevs, run]
    | cons x l ih => intro s o; simp [listedIds, listedSevs, run, ih (step s x).1 o]
  constructor
  · rw [(app ops _ _).1]
    obtain ⟨k, h1, h2, h3⟩ := a.idPtr
    have e : getSet (run newServer ops).ids = (⟨(run newServer ops).ids.items, ((run newServer ops).ids.items.length : Int) - 1⟩,
        (keys (run newServer ops).ids.items).drop k) := by
      have := getSet_spec (run newServer ops).ids.items k h1
      rw [← h2] at this; exact this
    simp only [step, e]
    rw [h3, List.take_append_drop, a.ids]
  · rw [(app ops _ _).2]
    obtain ⟨k, h1, h2, h3⟩ := a.sevPtr
    have e : getSet (run newServer ops).sevs = (⟨(run newServer ops).sevs.items, ((run newServer ops).sevs.items.length : Int) - 1⟩,
        (keys (run newServer ops).sevs.items).drop k) := by
      have := getSet_spec (run newServer ops).sevs.items k h1
      rw [← h2] at this; exact this
    simp only [step, e]
    rw [h3, List.take_append_drop, a.sevs]

/-- C247 fails: asked again, both give nothing, whatever was reported before. -/
theorem C247_again_fails (ops : List Op) :
    (step (run newServer (ops ++ [.idSet])) .idSet).2.1 = [] ∧ (step (run newServer (ops ++ [.sevSet])) .sevSet).2.2 = [] := by
  have a := agrees_run ops agrees_new
  constructor
  · obtain ⟨k, h1, h2, _⟩ := a.idPtr
    have e : getSet (run newServer ops).ids = (⟨(run newServer ops).ids.items, ((run newServer ops).ids.items.length : Int) - 1⟩,
        (keys (run newServer ops).ids.items).drop k) := by
      have := getSet_spec (run newServer ops).ids.items k h1
      rw [← h2] at this; exact this
    have hr : (run newServer (ops ++ [.idSet])).ids = ⟨(run newServer ops).ids.items, ((run newServer ops).ids.items.length : Int) - 1⟩ := by
      have hr : run newServer (ops ++ [.idSet]) = (step (run newServer ops) .idSet).1 := by simp [run]
      rw [hr]
      show (getSet (run newServer ops).ids).1 = _
      rw [e]
    simp only [step, hr, getSet_spec _ _ (Nat.le_refl _)]
    simp [keys]
  · obtain ⟨k, h1, h2, _⟩ := a.sevPtr
    have e : getSet (run newServer ops).sevs = (⟨(run newServer ops).sevs.items, ((run newServer ops).sevs.items.length : Int) - 1⟩,
        (keys (run newServer ops).sevs.items).drop k) := by
      have := getSet_spec (run newServer ops).sevs.items k h1
      rw [← h2] at this; exact this
    have hr : (run newServer (ops ++ [.sevSet])).sevs = ⟨(run newServer ops).sevs.items, ((run newServer ops).sevs.items.length : Int) - 1⟩ := by
      have hr : run newServer (ops ++ [.sevSet]) = (step (run newServer ops) .sevSet).1 := by simp [run]
      rw [hr]
      show (getSet (run newServer ops).sevs).1 = _
      rw [e]
    simp only [step, hr, getSet_spec _ _ (Nat.le_refl _)]
    simp [keys]

example : (step (run newServer [.message .info ['A'], .message .error ['B'], .message .info ['A']]) .idSet).2.1 = [['A'], ['B']] := by decide

/-- C248.  The summary has one line for each severity with the number of its messages, one for each id that was reported with
the number of its messages (if these are enabled), and no other lines for severities or ids. -/
theorem C248_summary (ops : List Op) (quit maxQuit : Nat) (b : Bool) :
    let l := summary { run newServer ops with quit := quit, maxQuit := maxQuit, idSummary := b }
    l.Nodup ∧ (∀ s n, .sev s n ∈ l ↔ n = sevCount ops s) ∧ (∀ i n, .id i n ∈ l ↔ b = true ∧ 0 < n ∧ n = idCount ops i) ∧
    (.reached ∈ l ↔ 0 < maxQuit ∧ maxQuit ≤ quit) := by
  have a := agrees_run ops agrees_new
  simp only [List.nil_append] at a
  have seen : ∀ (l : List Txt) (i : Txt) (acc : List Txt), i ∈ l.foldl (fun seen i => if i ∈ seen then seen else seen ++ [i]) acc ↔ i ∈ acc ∨ i ∈ l := by
    intro l
    induction l with
    | nil => intro i acc; simp
    | cons x l ih =>
      intro i acc
      rw [List.foldl_cons, ih, List.mem_cons]
      split
      · rename_i hx
        constructor
        · rintro (h | h)
          · exact .inl h
          · exact .inr (.inr h)
        · rintro (h | rfl | h)
          · exact .inl h
          · exact .inl hx
          · exact .inr h
      · rw [List.mem_append, List.mem_singleton, or_assoc]
  have hpos : ∀ i, i ∈ keys (run newServer ops).ids.items ↔ 0 < idCount ops i := by
    intro i
    rw [a.ids, firstSeen, seen, idCount, List.length_pos_iff_exists_mem]
    simp only [List.not_mem_nil, false_or, List.mem_map, List.mem_filter, decide_eq_true_eq]
  generalize hs : run newServer ops = s at *
  intro l
  have hl : l = [.head] ++ (if maxQuit ≠ 0 then (if quit ≥ maxQuit then [.reached] else []) ++ [.quit quit maxQuit] else []) ++
      [.bySev] ++ [Sev.info, .warning, .error, .fatal].map (fun k => .sev k (sevCount ops k)) ++
      (if b then [.byId] ++ (keys s.ids.items).map (fun k => .id k (idCount ops k)) else []) := by
    show summary _ = _
    simp only [summary, a.sevs, a.sevN, a.idN]
  have hnd : (keys s.ids.items).Nodup := a.nodup
  rw [hl]
  clear hl l
  have hid : ((keys s.ids.items).map (fun k => Line.id k (idCount ops k))).Nodup := by
    apply hnd.map
    intro x y hxy h
    simp only [Line.id.injEq] at h
    exact hxy h.1
  refine ⟨?_, fun v n => ?_, fun i n => ?_, ?_⟩
  · by_cases h1 : maxQuit ≠ 0 <;> by_cases h2 : quit ≥ maxQuit <;> by_cases h3 : b = true <;>
      simp [h1, h2, h3, hid]
  · by_cases h1 : maxQuit ≠ 0 <;> by_cases h2 : quit ≥ maxQuit <;> by_cases h3 : b = true <;>
      cases v <;> simp [h1, h2, h3]
  · have : ∀ n, (∃ x, x ∈ keys s.ids.items ∧ x = i ∧ idCount ops x = n) ↔ 0 < n ∧ n = idCount ops i := by
      intro n
      constructor
      · rintro ⟨x, hx, rfl, rfl⟩; exact ⟨(hpos x).1 hx, rfl⟩
      · rintro ⟨h1, rfl⟩; exact ⟨i, (hpos i).2 h1, rfl, rfl⟩
    by_cases h1 : maxQuit ≠ 0 <;> by_cases h2 : quit ≥ maxQuit <;> by_cases h3 : b = true <;>
      simp [h1, h2, h3, this]
  · by_cases h1 : maxQuit ≠ 0 <;> by_cases h2 : quit ≥ maxQuit <;> by_cases h3 : b = true <;>
      simp [h1, h2, h3] <;> omega

/-- C248: before any message is counted for quitting, the count is 0. -/
theorem C248_new_quit_count (m : Nat) (h : 0 < m) : Line.quit 0 m ∈ summary { newServer with maxQuit := m } ∧ .reached ∉ summary { newServer with maxQuit := m } ∧
    ∀ n m', Line.quit n m' ∉ summary newServer := by
  have : m ≠ 0 := by omega
  simp [summary, newServer, this, resetSevs, Pool.assign, Pool.init]

example : summary (run newServer [.message .info ['A'], .idSet, .message .error ['B'], .message .info ['A']]) =
    [.head, .bySev, .sev .info 2, .sev .warning 0, .sev .error 1, .sev .fatal 0, .byId, .id ['A'] 2, .id ['B'] 1] := by decide

end Verif.ReportText
