import Verif.Spec.Port
namespace Verif.Port
open Verif.Pool (assign lookup)

theorem flatMap_congr' {f g : Nat → List Nat} (l : List Nat) (h : ∀ q ∈ l, f q = g q) : l.flatMap f = l.flatMap g := by
  induction l with
  | nil => rfl
  | cons a l ih =>
    rw [List.flatMap_cons, List.flatMap_cons, h a (List.mem_cons_self ..), ih (fun q hq => h q (List.mem_cons_of_mem _ hq))]

theorem mem_firsts (x : Nat) (l : List Nat) : x ∈ firsts l ↔ x ∈ l := by
  induction l with
  | nil => simp [firsts]
  | cons y l ih =>
    by_cases h : x = y <;> simp [firsts, ih, h]

theorem firsts_nodup (l : List Nat) : (firsts l).Nodup := by
  induction l with
  | nil => simp [firsts]
  | cons y l ih => simp only [firsts, List.nodup_cons]; exact ⟨by simp, ih.filter _⟩

theorem firsts_snoc (l : List Nat) (x : Nat) :
    firsts (l ++ [x]) = if x ∈ l then firsts l else firsts l ++ [x] := by
  induction l with
  | nil => simp [firsts]
  | cons y l ih =>
    simp only [List.cons_append, firsts, ih]
    by_cases hl : x ∈ l
    · simp [hl]
    · by_cases hy : x = y
      · subst hy; simp [hl]
      · simp [hl, hy]

theorem firsts_of_nodup {l : List Nat} (h : l.Nodup) : firsts l = l := by
  induction l with
  | nil => rfl
  | cons y l ih =>
    rw [List.nodup_cons] at h
    simp only [firsts, ih h.2]
    congr 1
    rw [List.filter_eq_self]
    intro a ha
    have : a ≠ y := fun e => h.1 (e ▸ ha)
    simpa using this

/-- Dictionary entries for a list of implementations. -/
def entries (nm : Nat → String) (l : List Nat) : List (String × Nat) := l.map (fun i => (nm i, i))

theorem lookup_entries {nm : Nat → String} (hn : ∀ a b, nm a = nm b → a = b) (l : List Nat) (x : Nat) :
    lookup (entries nm l) (nm x) = if x ∈ l then some x else none := by
  induction l with
  | nil => rfl
  | cons y l ih =>
    simp only [entries, List.map_cons, lookup] at ih ⊢
    by_cases h : x = y
    · subst h; simp
    · have : nm x ≠ nm y := fun e => h (hn _ _ e)
      simp only [if_neg this, ih, List.mem_cons, h, false_or]

theorem assign_new {V : Type} (l : List (String × V)) (k : String) (v : V) (h : lookup l k = none) :
    assign l k v = l ++ [(k, v)] := by
  induction l with
  | nil => rfl
  | cons e l ih =>
    obtain ⟨k', v'⟩ := e
    by_cases hk : k = k'
    · simp [lookup, hk] at h
    · simp only [lookup, if_neg hk] at h
      simp [assign, hk, ih h]

theorem addImp_entries {nm : Nat → String} (hn : ∀ a b, nm a = nm b → a = b) (l : List Nat) (x : Nat) :
    addImp nm (entries nm (firsts l)) x = entries nm (firsts (l ++ [x])) := by
  rw [firsts_snoc]
  unfold addImp
  by_cases h : x ∈ l
  · rw [lookup_entries hn, if_pos ((mem_firsts x l).2 h), if_pos h]
  · have hf : x ∉ firsts l := fun e => h ((mem_firsts x l).1 e)
    have hl := lookup_entries hn (firsts l) x
    rw [if_neg hf] at hl
    rw [hl, if_neg h]
    simp only
    rw [assign_new _ _ _ hl]
    simp [entries]

theorem foldl_addImp {nm : Nat → String} (hn : ∀ a b, nm a = nm b → a = b) (xs l : List Nat) :
    xs.foldl (addImp nm) (entries nm (firsts l)) = entries nm (firsts (l ++ xs)) := by
  induction xs generalizing l with
  | nil => simp
  | cons x xs ih => rw [List.foldl_cons, addImp_entries hn, ih]; simp

theorem entries_vals (nm : Nat → String) (l : List Nat) : (entries nm l).map (·.2) = l := by
  induction l with
  | nil => rfl
  | cons a l ih => simp [entries] at ih ⊢; exact ih

/-- The parts of the network that binding does not touch. -/
structure Static (s0 s : State) : Prop where
  kind : ∀ p, (s.node p).kind = (s0.node p).kind
  by_ : ∀ p, (s.node p).providedBy = (s0.node p).providedBy
  to : ∀ p, (s.node p).providedTo = (s0.node p).providedTo
  min : ∀ p, (s.node p).minSize = (s0.node p).minSize
  max : ∀ p, (s.node p).maxSize = (s0.node p).maxSize

theorem Static.refl (s : State) : Static s s := ⟨fun _ => rfl, fun _ => rfl, fun _ => rfl, fun _ => rfl, fun _ => rfl⟩

theorem Static.trans {a b c : State} (h : Static a b) (k : Static b c) : Static a c :=
  ⟨fun p => (k.kind p).trans (h.kind p), fun p => (k.by_ p).trans (h.by_ p), fun p => (k.to p).trans (h.to p),
   fun p => (k.min p).trans (h.min p), fun p => (k.max p).trans (h.max p)⟩

/-- Reports say exactly which resolved ports have the wrong number of implementations. -/
structure Rep (s : State) : Prop where
  few : ∀ p n, .tooFew p n ∈ s.reports ↔
    (s.node p).resolved = true ∧ (s.node p).imps.length = n ∧ (n : Int) < (s.node p).minSize
  many : ∀ p n, .tooMany p n ∈ s.reports ↔
    (s.node p).resolved = true ∧ (s.node p).imps.length = n ∧ (s.node p).maxSize ≠ -1 ∧ (n : Int) > (s.node p).maxSize

theorem setNode_same (s : State) (p : Nat) (n : Node) : (setNode s p n).node p = n := by simp [setNode]
theorem setNode_other (s : State) {p q : Nat} (n : Node) (h : q ≠ p) : (setNode s p n).node q = s.node q := by
  simp [setNode, h]
theorem setNode_reports (s : State) (p : Nat) (n : Node) : (setNode s p n).reports = s.reports := rfl

/-- Changing the implementation list of an unresolved port. -/
theorem static_imps (s : State) (p : Nat) (l : List (String × Nat)) : Static s (setNode s p { s.node p with imps := l }) := by
  constructor <;> intro q <;> by_cases h : q = p <;>
    first | (subst h; rw [setNode_same]; done) | (rw [setNode_other _ _ h]; done)

theorem rep_imps {s : State} (h : Rep s) (p : Nat) (hr : (s.node p).resolved = false) (l : List (String × Nat)) :
    Rep (setNode s p { s.node p with imps := l }) := by
  constructor
  · intro q n
    rw [setNode_reports, h.few q n]
    by_cases hq : q = p
    · subst hq; rw [setNode_same]; simp [hr]
    · rw [setNode_other _ _ hq]
  · intro q n
    rw [setNode_reports, h.many q n]
    by_cases hq : q = p
    · subst hq; rw [setNode_same]; simp [hr]
    · rw [setNode_other _ _ hq]

theorem finish_node (s : State) (p : Nat) :
    (finish s p).node = (setNode s p { s.node p with resolved := true }).node := by
  unfold finish; simp only; split <;> split <;> rfl

theorem finish_static (s : State) (p : Nat) : Static s (finish s p) := by
  constructor <;> intro q <;> rw [finish_node] <;> by_cases h : q = p <;>
    first | (subst h; rw [setNode_same]; done) | (rw [setNode_other _ _ h]; done)

theorem finish_rep {s : State} (h : Rep s) (p : Nat) (hr : (s.node p).resolved = false) : Rep (finish s p) := by
  have fewp : ∀ n, Report.tooFew p n ∉ s.reports := by
    intro n hn; have := ((h.few p n).1 hn).1; rw [hr] at this; cases this
  have manyp : ∀ n, Report.tooMany p n ∉ s.reports := by
    intro n hn; have := ((h.many p n).1 hn).1; rw [hr] at this; cases this
  have rep : (finish s p).reports = s.reports ++
      (if ((s.node p).imps.length : Int) < (s.node p).minSize then [.tooFew p (s.node p).imps.length] else []) ++
      (if (s.node p).maxSize ≠ -1 ∧ ((s.node p).imps.length : Int) > (s.node p).maxSize
        then [.tooMany p (s.node p).imps.length] else []) := by
    by_cases h1 : ((s.node p).imps.length : Int) < (s.node p).minSize <;>
      by_cases h2 : (s.node p).maxSize ≠ -1 ∧ ((s.node p).imps.length : Int) > (s.node p).maxSize <;>
      simp [finish, setNode, h1, h2]
  constructor
  · intro q n
    rw [rep, finish_node]
    by_cases hq : q = p
    · subst hq
      rw [setNode_same]
      simp only [List.mem_append, fewp n, false_or, true_and]
      by_cases h1 : ((s.node q).imps.length : Int) < (s.node q).minSize
      · rw [if_pos h1]
        simp only [List.mem_singleton, Report.tooFew.injEq, true_and]
        constructor
        · rintro (rfl | h)
          · exact ⟨rfl, h1⟩
          · split at h <;> simp at h
        · rintro ⟨rfl, _⟩; exact .inl rfl
      · rw [if_neg h1]
        constructor
        · rintro (h | h)
          · simp at h
          · split at h <;> simp at h
        · rintro ⟨rfl, h⟩; exact absurd h h1
    · rw [setNode_other _ _ hq, ← h.few q n]
      simp only [List.mem_append]
      constructor
      · rintro ((h | h) | h)
        · exact h
        · split at h <;> simp at h; exact absurd h.1 hq
        · split at h <;> simp at h
      · intro h; exact .inl (.inl h)
  · intro q n
    rw [rep, finish_node]
    by_cases hq : q = p
    · subst hq
      rw [setNode_same]
      simp only [List.mem_append, manyp n, false_or, true_and]
      by_cases h1 : (s.node q).maxSize ≠ -1 ∧ ((s.node q).imps.length : Int) > (s.node q).maxSize
      · rw [if_pos h1]
        simp only [List.mem_singleton, Report.tooMany.injEq, true_and]
        constructor
        · rintro (h | rfl)
          · split at h <;> simp at h
          · exact ⟨rfl, h1⟩
        · rintro ⟨rfl, _⟩; exact .inr rfl
      · rw [if_neg h1]
        constructor
        · rintro (h | h)
          · split at h <;> simp at h
          · simp at h
        · rintro ⟨rfl, h⟩; exact absurd h h1
    · rw [setNode_other _ _ hq, ← h.many q n]
      simp only [List.mem_append]
      constructor
      · rintro ((h | h) | h)
        · exact h
        · split at h <;> simp at h
        · split at h <;> simp at h; exact absurd h.1 hq
      · intro h; exact .inl (.inl h)

theorem order_static {s0 s : State} (h : Static s0 s) (n p : Nat) : order s n p = order s0 n p := by
  induction n generalizing p with
  | zero => rfl
  | succ n ih =>
    simp only [order, h.kind, h.by_]
    have : order s n = order s0 n := funext ih
    rw [this]

/-- Enough fuel is enough. -/
theorem order_fuel {s : State} {rank : Nat → Nat} (ha : Acyclic s rank) (n m p : Nat) (h1 : rank p < n) (h2 : rank p < m) :
    order s n p = order s m p := by
  induction n generalizing p m with
  | zero => omega
  | succ n ih =>
    cases m with
    | zero => omega
    | succ m =>
      simp only [order]
      split
      · rfl
      · congr 1
        apply flatMap_congr'
        intro q hq
        obtain ⟨⟨k, q'⟩, hmem, rfl⟩ := List.mem_map.1 hq
        have := ha p q' ⟨k, hmem⟩
        exact ih m q' (by omega) (by omega)

/-- A bound port's implementation list is right; an unbound one's is empty. -/
structure Good (nm : Nat → String) (s0 : State) (rank : Nat → Nat) (s : State) (p : Nat) : Prop where
  done : (s.node p).resolved = true → (s.node p).imps = entries nm (order s0 (rank p + 1) p)
  todo : (s.node p).resolved = false → (s.node p).imps = []

/-- What one `resolve_bindings` call on port `p` achieves. -/
structure Post (nm : Nat → String) (s0 : State) (rank : Nat → Nat) (s s' : State) (p : Nat) : Prop where
  static : Static s s'
  rep : Rep s → Rep s'
  isDone : (s'.node p).resolved = true
  good : ∀ r, rank r ≤ rank p → Good nm s0 rank s' r
  frame : ∀ r, rank p ≤ rank r → r ≠ p → s'.node r = s.node r
  mono : ∀ r, (s.node r).resolved = true → s'.node r = s.node r

/-- The loop over the providers (651-654). -/
structure LoopPost (nm : Nat → String) (s0 : State) (rank : Nat → Nat) (s s' : State) (p : Nat) (seen qs : List Nat) :
    Prop where
  static : Static s s'
  rep : Rep s → Rep s'
  notDone : (s'.node p).resolved = false
  imps : (s'.node p).imps = entries nm (firsts (seen ++ qs.flatMap (fun q => order s0 (rank q + 1) q)))
  good : ∀ r, rank r ≤ rank p → r ≠ p → Good nm s0 rank s' r
  frame : ∀ r, rank p ≤ rank r → r ≠ p → s'.node r = s.node r
  mono : ∀ r, (s.node r).resolved = true → s'.node r = s.node r

theorem order_firsts (s : State) (n p : Nat) : firsts (order s n p) = order s n p := by
  apply firsts_of_nodup
  cases n with
  | zero => simp [order]
  | succ n => simp only [order]; split
              · simp
              · exact firsts_nodup _

theorem loop_post {nm : Nat → String} (hn : ∀ a b, nm a = nm b → a = b) {s0 : State} {rank : Nat → Nat} (n p : Nat)
    (ih : ∀ (s : State) (q : Nat), rank q < n → Static s0 s → (∀ r, rank r ≤ rank q → Good nm s0 rank s r) →
      Post nm s0 rank s (resolve nm n s q) q)
    (qs : List Nat) (hq : ∀ q ∈ qs, rank q < rank p ∧ rank q < n) (s : State) (hs : Static s0 s) (seen : List Nat)
    (hr : (s.node p).resolved = false) (hi : (s.node p).imps = entries nm (firsts seen))
    (hg : ∀ r, rank r ≤ rank p → r ≠ p → Good nm s0 rank s r) :
    LoopPost nm s0 rank s (qs.foldl (fun s q => addList nm (resolve nm n s q) p q) s) p seen qs := by
  induction qs generalizing s seen with
  | nil => exact ⟨Static.refl s, id, hr, by simpa using hi, hg, fun _ _ _ => rfl, fun _ _ => rfl⟩
  | cons q qs ihq =>
    obtain ⟨hqp, hqn⟩ := hq q (List.mem_cons_self ..)
    have hne : p ≠ q := fun e => by subst e; omega
    have P := ih s q hqn hs (fun r hrk => hg r (by omega) (fun e => by subst e; omega))
    have hp : (resolve nm n s q).node p = s.node p := P.frame p (by omega) hne
    have hr1 : ((resolve nm n s q).node p).resolved = false := by rw [hp]; exact hr
    have hqi := (P.good q (Nat.le_refl _)).done P.isDone
    have hadd : ((addList nm (resolve nm n s q) p q).node p).imps =
        entries nm (firsts (seen ++ order s0 (rank q + 1) q)) := by
      simp only [addList, setNode_same]
      rw [hqi, entries_vals, hp, hi, foldl_addImp hn]
    have hother : ∀ r, r ≠ p → (addList nm (resolve nm n s q) p q).node r = (resolve nm n s q).node r := by
      intro r h; simp only [addList]; rw [setNode_other _ _ h]
    have hst : Static (resolve nm n s q) (addList nm (resolve nm n s q) p q) := static_imps _ _ _
    have hrd : ((addList nm (resolve nm n s q) p q).node p).resolved = false := by
      simp only [addList, setNode_same]; exact hr1
    have hgood : ∀ r, rank r ≤ rank p → r ≠ p → Good nm s0 rank (addList nm (resolve nm n s q) p q) r := by
      intro r hrk hrp
      have : Good nm s0 rank (resolve nm n s q) r := by
        by_cases h : rank r ≤ rank q
        · exact P.good r h
        · have hf := P.frame r (by omega) (fun e => by subst e; omega)
          have := hg r hrk hrp
          exact ⟨by rw [hf]; exact this.done, by rw [hf]; exact this.todo⟩
      exact ⟨by rw [hother r hrp]; exact this.done, by rw [hother r hrp]; exact this.todo⟩
    have L := ihq (fun q' h' => hq q' (List.mem_cons_of_mem _ h')) (addList nm (resolve nm n s q) p q)
      (hs.trans (P.static.trans hst)) (seen ++ order s0 (rank q + 1) q) hrd hadd hgood
    rw [List.foldl_cons]
    refine ⟨(P.static.trans hst).trans L.static, fun h => L.rep (rep_imps (P.rep h) p hr1 _), L.notDone, ?_, L.good, ?_, ?_⟩
    · rw [L.imps]; simp [List.append_assoc]
    · intro r hrk hrp
      rw [L.frame r hrk hrp, hother r hrp, P.frame r (by omega) (fun e => by subst e; omega)]
    · intro r hrr
      have hrp : r ≠ p := fun e => by subst e; rw [hr] at hrr; cases hrr
      have e1 : (addList nm (resolve nm n s q) p q).node r = s.node r := by rw [hother r hrp, P.mono r hrr]
      rw [L.mono r (by rw [e1]; exact hrr), e1]

theorem resolve_post {nm : Nat → String} (hn : ∀ a b, nm a = nm b → a = b) {s0 : State} {rank : Nat → Nat}
    (ha : Acyclic s0 rank) (n : Nat) (s : State) (p : Nat) (hp : rank p < n) (hs : Static s0 s)
    (hg : ∀ r, rank r ≤ rank p → Good nm s0 rank s r) : Post nm s0 rank s (resolve nm n s p) p := by
  induction n generalizing s p with
  | zero => omega
  | succ n ih =>
    by_cases hr : (s.node p).resolved = true
    · simp only [resolve, hr, if_true]
      exact ⟨Static.refl s, id, hr, hg, fun _ _ _ => rfl, fun _ _ => rfl⟩
    · have hr' : (s.node p).resolved = false := by simpa using hr
      have hi0 := (hg p (Nat.le_refl _)).todo hr'
      by_cases hk : (s.node p).kind = .imp
      · have hk0 : (s0.node p).kind = .imp := by rw [← hs.kind p]; exact hk
        have hres : resolve nm (n + 1) s p =
            finish (setNode s p { s.node p with imps := assign (s.node p).imps (nm p) p }) p := by
          simp [resolve, hr', hk]
        have hass : assign (s.node p).imps (nm p) p = entries nm (order s0 (rank p + 1) p) := by
          rw [hi0]; simp [order, hk0, entries, assign]
        rw [hres, hass]
        generalize hl : entries nm (order s0 (rank p + 1) p) = l
        have hst := static_imps s p l
        have hrp := fun h => rep_imps (s := s) h p hr' l
        have h1p := setNode_same s p { s.node p with imps := l }
        have h1o := fun r (h : r ≠ p) => setNode_other s { s.node p with imps := l } h
        generalize setNode s p { s.node p with imps := l } = s1 at hst hrp h1p h1o
        have h1r : (s1.node p).resolved = false := by rw [h1p]; exact hr'
        have hnode : ∀ r, r ≠ p → (finish s1 p).node r = s.node r := by
          intro r h; rw [finish_node, setNode_other _ _ h, h1o r h]
        have hself1 : ((finish s1 p).node p).resolved = true := by rw [finish_node, setNode_same]
        have hself2 : ((finish s1 p).node p).imps = l := by rw [finish_node, setNode_same]; rw [h1p]
        refine ⟨hst.trans (finish_static _ p), fun h => finish_rep (hrp h) p h1r, hself1, ?_, fun r _ h => hnode r h, ?_⟩
        · intro r hrk
          by_cases h : r = p
          · subst h
            constructor
            · intro _; rw [hself2, hl]
            · intro h; rw [hself1] at h; cases h
          · have := hg r hrk
            exact ⟨by rw [hnode r h]; exact this.done, by rw [hnode r h]; exact this.todo⟩
        · intro r hrr
          exact hnode r (fun e => by subst e; rw [hr'] at hrr; cases hrr)
      · simp only [resolve, hr', if_neg hk, Bool.false_eq_true, if_false]
        have hk0 : ¬ (s0.node p).kind = .imp := by rw [← hs.kind p]; exact hk
        have hqs : ∀ q ∈ (s.node p).providedBy.map (·.2), rank q < rank p ∧ rank q < n := by
          intro q hq
          obtain ⟨⟨k, q'⟩, hmem, rfl⟩ := List.mem_map.1 hq
          have := ha p q' ⟨k, by rw [← hs.by_ p]; exact hmem⟩
          exact ⟨this, Nat.lt_of_lt_of_le this (by omega)⟩
        have L := loop_post hn (s0 := s0) (rank := rank) n p (fun s q h1 h2 h3 => ih s q h1 h2 h3)
          ((s.node p).providedBy.map (·.2)) hqs s hs [] hr' (by rw [hi0]; rfl) (fun r h1 _ => hg r h1)
        generalize ((s.node p).providedBy.map (·.2)).foldl (fun s q => addList nm (resolve nm n s q) p q) s = s1 at L
        have hnode : ∀ r, r ≠ p → (finish s1 p).node r = s1.node r := by
          intro r h; rw [finish_node, setNode_other _ _ h]
        have hself : (finish s1 p).node p = { s1.node p with resolved := true } := by
          rw [finish_node, setNode_same]
        have himps : (s1.node p).imps = entries nm (order s0 (rank p + 1) p) := by
          rw [L.imps]
          simp only [order, if_neg hk0, List.nil_append, ← hs.by_ p]
          congr 2
          apply flatMap_congr'
          intro q hq
          exact order_fuel ha _ _ q (Nat.lt_succ_self _) (hqs q hq).1
        refine ⟨L.static.trans (finish_static _ p), fun h => finish_rep (L.rep h) p L.notDone, by rw [hself], ?_, ?_, ?_⟩
        · intro r hrk
          by_cases h : r = p
          · subst h
            constructor
            · intro _; rw [hself]; exact himps
            · intro h; rw [hself] at h; cases h
          · have := L.good r hrk h
            exact ⟨by rw [hnode r h]; exact this.done, by rw [hnode r h]; exact this.todo⟩
        · intro r h1 h2; rw [hnode r h2, L.frame r h1 h2]
        · intro r hrr
          have hrp : r ≠ p := fun e => by subst e; rw [hr'] at hrr; cases hrr
          rw [hnode r hrp, L.mono r hrr]

/-- All ports bound. -/
structure AllPost (nm : Nat → String) (s0 : State) (rank : Nat → Nat) (s s' : State) (ps : List Nat) : Prop where
  static : Static s s'
  rep : Rep s → Rep s'
  isDone : ∀ p ∈ ps, (s'.node p).resolved = true
  good : ∀ r, Good nm s0 rank s' r
  mono : ∀ r, (s.node r).resolved = true → (s'.node r).resolved = true

theorem resolveAll_post {nm : Nat → String} (hn : ∀ a b, nm a = nm b → a = b) {s0 : State} {rank : Nat → Nat}
    (ha : Acyclic s0 rank) (depth : Nat) (ps : List Nat) (hd : ∀ p ∈ ps, rank p < depth) (s : State) (hs : Static s0 s)
    (hg : ∀ r, Good nm s0 rank s r) : AllPost nm s0 rank s (resolveAll nm depth s ps) ps := by
  unfold resolveAll
  induction ps generalizing s with
  | nil => exact ⟨Static.refl s, id, by simp, hg, fun _ h => h⟩
  | cons p ps ih =>
    have P := resolve_post hn ha depth s p (hd p (List.mem_cons_self ..)) hs (fun r _ => hg r)
    have hg1 : ∀ r, Good nm s0 rank (resolve nm depth s p) r := by
      intro r
      by_cases h : rank r ≤ rank p
      · exact P.good r h
      · have hf := P.frame r (by omega) (fun e => by subst e; omega)
        exact ⟨by rw [hf]; exact (hg r).done, by rw [hf]; exact (hg r).todo⟩
    have A := ih (fun q h => hd q (List.mem_cons_of_mem _ h)) (resolve nm depth s p) (hs.trans P.static) hg1
    rw [List.foldl_cons]
    refine ⟨P.static.trans A.static, fun h => A.rep (P.rep h), ?_, A.good, ?_⟩
    · intro q hq
      rcases List.mem_cons.1 hq with rfl | hq
      · exact A.mono q P.isDone
      · exact A.isDone q hq
    · intro r hr
      exact A.mono r (by rw [P.mono r hr]; exact hr)

/-! ## Connecting -/

theorem connect_eq (nm : Nat → String) (s : State) (p q : Nat) (h : (connect nm s p (some q)).2 = .done) :
    (connect nm s p (some q)).1 = setNode (setNode s p { s.node p with providedBy := assign (s.node p).providedBy (nm q) q }) q
      { (setNode s p { s.node p with providedBy := assign (s.node p).providedBy (nm q) q }).node q with
        providedTo := assign ((setNode s p { s.node p with providedBy := assign (s.node p).providedBy (nm q) q }).node q).providedTo (nm p) p } := by
  by_cases h1 : q = p
  · simp [connect, h1] at h
  by_cases h2 : (s.node q).mask &&& (s.node p).mask ≠ (s.node p).mask
  · rw [connect, if_neg h1, if_pos h2] at h; cases h
  by_cases h3 : (s.node p).kind = .imp
  · rw [connect, if_neg h1, if_neg h2, if_pos h3] at h; cases h
  by_cases h4 : (s.node p).kind = .export ∧ (s.node q).kind = .port
  · rw [connect, if_neg h1, if_neg h2, if_neg h3, if_pos h4] at h; cases h
  rw [connect, if_neg h1, if_neg h2, if_neg h3, if_neg h4]

theorem connect_refused (nm : Nat → String) (s : State) (p : Nat) (o : Option Nat) (h : (connect nm s p o).2 ≠ .done) :
    (connect nm s p o).1 = s := by
  cases o with
  | none => rfl
  | some q =>
    simp only [connect] at h ⊢
    split
    · rfl
    · next h1 =>
      split
      · rfl
      · next h2 =>
        split
        · rfl
        · next h3 =>
          split
          · rfl
          · next h4 => simp [h1, h2, h3, h4] at h

/-- Facts that hold of every network built by `connect`. -/
structure Built (nm : Nat → String) (s : State) : Prop where
  impLeaf : ∀ p, (s.node p).kind = .imp → (s.node p).providedBy = []
  keys : ∀ p, ∃ l, (s.node p).providedBy = entries nm l
  keysTo : ∀ p, ∃ l, (s.node p).providedTo = entries nm l
  sym : ∀ p q, (nm q, q) ∈ (s.node p).providedBy ↔ (nm p, p) ∈ (s.node q).providedTo
  blank : ∀ p, (s.node p).imps = [] ∧ (s.node p).resolved = false
  quiet : s.reports = []

theorem assign_entries {nm : Nat → String} (hn : ∀ a b, nm a = nm b → a = b) (l : List Nat) (x : Nat) :
    assign (entries nm l) (nm x) x = entries nm (if x ∈ l then l else l ++ [x]) := by
  induction l with
  | nil => rfl
  | cons y l ih =>
    simp only [entries, List.map_cons, assign] at ih ⊢
    by_cases h : x = y
    · subst h; simp
    · have : nm x ≠ nm y := fun e => h (hn _ _ e)
      rw [if_neg this, ih]
      by_cases hl : x ∈ l <;> simp [hl, h]

theorem mem_entries {nm : Nat → String} (l : List Nat) (k : String) (x : Nat) :
    (k, x) ∈ entries nm l ↔ k = nm x ∧ x ∈ l := by
  unfold entries
  rw [List.mem_map]
  constructor
  · rintro ⟨a, h, e⟩; cases e; exact ⟨rfl, h⟩
  · rintro ⟨rfl, h⟩; exact ⟨x, h, rfl⟩

theorem connect_nodes (nm : Nat → String) (s : State) (p q : Nat) (hne : q ≠ p) (h : (connect nm s p (some q)).2 = .done) :
    let s' := (connect nm s p (some q)).1
    (s'.node p) = { s.node p with providedBy := assign (s.node p).providedBy (nm q) q } ∧
    (s'.node q) = { s.node q with providedTo := assign (s.node q).providedTo (nm p) p } ∧
    (∀ r, r ≠ p → r ≠ q → s'.node r = s.node r) ∧ s'.reports = s.reports := by
  simp only
  rw [connect_eq nm s p q h]
  refine ⟨?_, ?_, ?_, rfl⟩
  · rw [setNode_other _ _ (Ne.symm hne), setNode_same]
  · rw [setNode_same, setNode_other _ _ hne]
  · intro r h1 h2; rw [setNode_other _ _ h2, setNode_other _ _ h1]

theorem connect_done_conds (nm : Nat → String) (s : State) (p : Nat) (o : Option Nat) (h : (connect nm s p o).2 = .done) :
    ∃ q, o = some q ∧ q ≠ p ∧ (s.node q).mask &&& (s.node p).mask = (s.node p).mask ∧ (s.node p).kind ≠ .imp ∧
      ¬ ((s.node p).kind = .export ∧ (s.node q).kind = .port) := by
  cases o with
  | none => simp [connect] at h
  | some q =>
    refine ⟨q, rfl, ?_⟩
    simp only [connect] at h
    split at h
    · simp at h
    · next h1 =>
      split at h
      · simp at h
      · next h2 =>
        split at h
        · simp at h
        · next h3 =>
          split at h
          · simp at h
          · next h4 => exact ⟨h1, by simpa using h2, h3, h4⟩

theorem connect_built {nm : Nat → String} (hn : ∀ a b, nm a = nm b → a = b) {s : State} (h : Built nm s) (p : Nat)
    (o : Option Nat) : Built nm (connect nm s p o).1 := by
  by_cases hd : (connect nm s p o).2 = .done
  · obtain ⟨q, rfl, hne, _, hki, _⟩ := connect_done_conds nm s p o hd
    obtain ⟨e1, e2, e3, e4⟩ := connect_nodes nm s p q hne hd
    generalize hs' : (connect nm s p (some q)).1 = s' at *
    obtain ⟨lp, hlp⟩ := h.keys p
    obtain ⟨lq, hlq⟩ := h.keysTo q
    have by_p : (s'.node p).providedBy = entries nm (if q ∈ lp then lp else lp ++ [q]) := by
      rw [e1]; show assign _ _ _ = _; rw [hlp, assign_entries hn]
    have to_q : (s'.node q).providedTo = entries nm (if p ∈ lq then lq else lq ++ [p]) := by
      rw [e2]; show assign _ _ _ = _; rw [hlq, assign_entries hn]
    have by_o : ∀ r, r ≠ p → (s'.node r).providedBy = (s.node r).providedBy := by
      intro r hr
      by_cases hq : r = q
      · subst hq; rw [e2]
      · rw [e3 r hr hq]
    have to_o : ∀ r, r ≠ q → (s'.node r).providedTo = (s.node r).providedTo := by
      intro r hr
      by_cases hq : r = p
      · subst hq; rw [e1]
      · rw [e3 r hq hr]
    have kind : ∀ r, (s'.node r).kind = (s.node r).kind := by
      intro r
      by_cases h1 : r = p
      · subst h1; rw [e1]
      · by_cases h2 : r = q
        · subst h2; rw [e2]
        · rw [e3 r h1 h2]
    constructor
    · intro r hr
      rw [kind] at hr
      have : r ≠ p := fun e => hki (by rw [← e]; exact hr)
      rw [by_o r this]; exact h.impLeaf r hr
    · intro r
      by_cases h1 : r = p
      · subst h1; exact ⟨_, by_p⟩
      · rw [by_o r h1]; exact h.keys r
    · intro r
      by_cases h1 : r = q
      · subst h1; exact ⟨_, to_q⟩
      · rw [to_o r h1]; exact h.keysTo r
    · intro a b
      have memP : (nm b, b) ∈ (s'.node p).providedBy ↔ b = q ∨ (nm b, b) ∈ (s.node p).providedBy := by
        rw [by_p, hlp, mem_entries, mem_entries]
        by_cases hm : q ∈ lp
        · rw [if_pos hm]; constructor
          · exact .inr
          · rintro (rfl | hh)
            · exact ⟨rfl, hm⟩
            · exact hh
        · rw [if_neg hm]; simp [or_comm]
      have memQ : (nm a, a) ∈ (s'.node q).providedTo ↔ a = p ∨ (nm a, a) ∈ (s.node q).providedTo := by
        rw [to_q, hlq, mem_entries, mem_entries]
        by_cases hm : p ∈ lq
        · rw [if_pos hm]; constructor
          · exact .inr
          · rintro (rfl | hh)
            · exact ⟨rfl, hm⟩
            · exact hh
        · rw [if_neg hm]; simp [or_comm]
      by_cases ha : a = p
      · subst ha
        rw [memP]
        by_cases hb : b = q
        · subst hb; rw [memQ]; simp
        · rw [to_o b hb, ← h.sym]; simp [hb]
      · rw [by_o a ha]
        by_cases hb : b = q
        · subst hb; rw [memQ, ← h.sym]; simp [ha]
        · rw [to_o b hb]; exact h.sym a b
    · intro r
      by_cases h1 : r = p
      · subst h1; rw [e1]; exact h.blank r
      · by_cases h2 : r = q
        · subst h2; rw [e2]; exact h.blank r
        · rw [e3 r h1 h2]; exact h.blank r
    · rw [e4]; exact h.quiet
  · rw [connect_refused nm s p o hd]; exact h

theorem built_ok {nm : Nat → String} (hn : ∀ a b, nm a = nm b → a = b) {node : Nat → Node} (hf : Fresh node)
    (calls : List (Nat × Option Nat)) : Built nm (built nm node calls) := by
  unfold built
  have h0 : Built nm ⟨node, []⟩ := by
    refine ⟨fun p _ => (hf p).1, fun p => ⟨[], (hf p).1⟩, fun p => ⟨[], (hf p).2.1⟩, ?_, fun p => ⟨(hf p).2.2.1, (hf p).2.2.2⟩, rfl⟩
    intro p q
    simp only [(hf p).1, (hf q).2.1, List.not_mem_nil]
  generalize (⟨node, []⟩ : State) = s at h0
  induction calls generalizing s with
  | nil => exact h0
  | cons c cs ih => exact ih _ (connect_built hn h0 c.1 c.2)

theorem mem_order {nm : Nat → String} {s : State} (hb : Built nm s) {rank : Nat → Nat} (ha : Acyclic s rank) (n p i : Nat)
    (hp : rank p < n) : i ∈ order s n p ↔ Reaches s p i := by
  induction n generalizing p with
  | zero => omega
  | succ n ih =>
    simp only [order]
    by_cases hk : (s.node p).kind = .imp
    · rw [if_pos hk, List.mem_singleton]
      constructor
      · rintro rfl; exact .here i hk
      · intro h
        cases h with
        | here => rfl
        | via hc _ => obtain ⟨k, hc⟩ := hc; rw [hb.impLeaf p hk] at hc; simp at hc
    · rw [if_neg hk, mem_firsts, List.mem_flatMap]
      constructor
      · rintro ⟨q, hq, hi⟩
        obtain ⟨⟨k, q'⟩, hmem, rfl⟩ := List.mem_map.1 hq
        have hc : Conn s p q' := ⟨k, hmem⟩
        have := ha p q' hc
        exact .via hc ((ih q' (by omega)).1 hi)
      · intro h
        cases h with
        | here _ h => exact absurd h hk
        | @via _ q _ hc hr =>
          have := ha p q hc
          obtain ⟨k, hmem⟩ := hc
          exact ⟨q, List.mem_map.2 ⟨(k, q), hmem, rfl⟩, (ih q (by omega)).2 hr⟩

theorem write_eq (s : State) (p : Nat) : write s p = ((s.node p).imps.map (·.2)).map .imp := by
  unfold write getIf
  apply List.ext_getElem
  · simp
  · intro i h1 h2
    simp only [List.length_map, List.length_range] at h1
    simp [List.getElem?_eq_getElem h1]

end Verif.Port
