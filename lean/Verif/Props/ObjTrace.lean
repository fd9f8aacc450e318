import Verif.Model.ObjTrace
/-! # Properties of tracing, displaying and waiting for objections (C297-C299) -/
namespace Verif.ObjTrace
open Verif.Objection (Tree State Out Op addCounts step)

/-! ## C297: tracing -/

/-- C297. `trace_mode` returns the mode in force before, and sets it for 0 and 1 only. -/
theorem C297_mode (cur : Bool) (m : Int) :
    (traceMode cur m).2 = cur ∧ (traceMode cur 0).1 = false ∧ (traceMode cur 1).1 = true ∧
    (m ≠ 0 → m ≠ 1 → (traceMode cur m).1 = cur) := by
  simp +contextual [traceMode]

/-- C297 (partial): when tracing is off (or its messages are disabled) nothing is different, and with tracing raising or dropping nothing
is the same as without, as is everything that is not a raise, a drop or the end of a drain's delay.  Missing: everything else (`C297_raise_fails`, `C297_drop_fails`, `C297_drain_fails`). -/
theorem C297_same_partial (t : Tree) (s : State) :
    (∀ op, stepT false t s op = ((step t s op).1, (step t s op).2.map .out)) ∧
    (∀ o, stepT true t s (.raise o 0) = ((step t s (.raise o 0)).1, (step t s (.raise o 0)).2.map .out)) ∧
    (∀ o, stepT true t s (.drop o 0) = ((step t s (.drop o 0)).1, (step t s (.drop o 0)).2.map .out)) ∧
    (∀ op, (∀ o n, op ≠ .raise o n) → (∀ o n, op ≠ .drop o n) → (∀ i, op ≠ .notify i) →
      stepT true t s op = ((step t s op).1, (step t s op).2.map .out)) := by
  have hc : ∀ o, ∃ l, Objection.chain t o = o :: l := by
    intro o
    simp only [Objection.chain, Objection.chainF]
    split
    · next h => exact ⟨[], by rw [h]⟩
    · exact ⟨_, rfl⟩
  refine ⟨fun _ => rfl, fun o => ?_, fun o => ?_, fun op h1 h2 h3 => ?_⟩
  · obtain ⟨l, hl⟩ := hc o
    simp [stepT, step, hl, Objection.mRaise]
  · obtain ⟨l, hl⟩ := hc o
    simp [stepT, step, hl, Objection.mDrop]
  · cases op with
    | raise o n => exact absurd rfl (h1 o n)
    | drop o n => exact absurd rfl (h2 o n)
    | notify i => exact absurd rfl (h3 i)
    | _ => rfl

/-- C297 fails in the code: with tracing on, every raise by any object ends in an exception after the counts of that object itself were
increased: no hook is called, no other object's total changes (so the objection never reaches the root), no pending drain is taken
back. -/
theorem C297_raise_fails (t : Tree) (s : State) (o : Nat) (n : Int) (hn : n ≠ 0) :
    let r := stepT true t s (.raise o n)
    .exception ∈ r.2 ∧ (∀ x, .out x ∉ r.2) ∧ r.1.total o = s.total o + n ∧ r.1.count o = s.count o + n ∧
    (∀ x, x ≠ o → r.1.total x = s.total x) ∧ r.1.sched = s.sched ∧ r.1.forked = s.forked ∧ r.1.fctx = s.fctx := by
  simp +contextual [stepT, hn, report, addCounts, State.total, State.count, Objection.bump]

/-- C297 fails in the code: with tracing on, every drop that is not refused ends in an exception after the counts of the object itself
were decreased: nothing is passed on and no drain is scheduled, even if the total of the object is now 0. -/
theorem C297_drop_fails (t : Tree) (s : State) (o : Nat) (n : Int) (hn : n ≠ 0) (ht : (s.tot o).isSome = true ∧ n ≤ s.total o)
    (hs : (s.srcC o).isSome = true ∧ n ≤ s.count o) :
    let r := stepT true t s (.drop o n)
    .exception ∈ r.2 ∧ (∀ x, .out x ∉ r.2) ∧ r.1.total o = s.total o - n ∧
    (∀ x, x ≠ o → r.1.total x = s.total x) ∧ r.1.sched = s.sched := by
  have h1 : ¬ (((s.tot o).isNone || decide (n > s.total o)) = true) := by
    simp only [Bool.or_eq_true, Option.isNone_iff_eq_none, decide_eq_true_eq, not_or]
    exact ⟨fun h => by simp [h] at ht, by omega⟩
  have h2 : ¬ (((s.srcC o).isNone || decide (n > s.count o)) = true) := by
    simp only [Bool.or_eq_true, Option.isNone_iff_eq_none, decide_eq_true_eq, not_or]
    exact ⟨fun h => by simp [h] at hs, by omega⟩
  simp only [stepT, if_true, hn, if_false, h1, h2]
  simp +contextual [report, addCounts, State.total, Objection.bump]
  omega

/-- C297 fails in the code: a drain that is due when tracing is on ends in an exception; `all_dropped` is not called and no total
changes, so the objects above keep their share for ever. -/
theorem C297_drain_fails (t : Tree) (s : State) (i : Nat) (r : Objection.Run) (hr : s.running[i]? = some r) (hn : r.notified = false) :
    let q := stepT true t s (.notify i)
    .exception ∈ q.2 ∧ (∀ x, .out x ∉ q.2) ∧ q.1.running = s.running.eraseIdx i ∧ q.1.tot = s.tot ∧ q.1.fctx = s.fctx := by
  simp only [stepT, if_true, hr, hn]
  simp only [Bool.false_eq_true, if_false, report]
  split <;> simp

/-- A root with a child 1 and a grandchild 2. -/
def exTree : Tree := ⟨fun o => o - 1, fun o h => by omega⟩
example : ((step exTree {} (.raise 2 1)).1.total 0, (stepT true exTree {} (.raise 2 1)).1.total 0) = (1, 0) := by decide
example : (stepT true exTree {} (.raise 2 3)).2 = [.message 2 3 3 3, .exception] := by decide
example : let s := (stepT false exTree {} (.raise 2 1)).1
    (s.tot 2).isSome = true ∧ (1 : Int) ≤ s.total 2 ∧ (stepT true exTree s (.drop 2 1)).1.total 2 = 0 := by decide

/-! ## C298: displaying -/

/-- C298. The name in a line is what follows the last dot of the full name, and the indentation grows with the number of dots. -/
theorem C298_leaf_and_depth (s : Str) :
    (∃ pre, s = pre ++ leafName s ∧ '.' ∉ leafName s ∧ (pre = [] ∨ pre.getLast? = some '.')) ∧ nameDepth s = s.count '.' := by
  constructor
  · refine ⟨(s.reverse.dropWhile (· != '.')).reverse, ?_, ?_, ?_⟩
    · rw [leafName, ← List.reverse_append, List.takeWhile_append_dropWhile, List.reverse_reverse]
    · intro h
      rw [leafName, List.mem_reverse] at h
      have : ∀ l : Str, '.' ∉ l.takeWhile (· != '.') := by
        intro l
        induction l with
        | nil => simp
        | cons c cs ih =>
          rw [List.takeWhile_cons]
          split
          · next hc => simp only [bne_iff_ne, ne_eq] at hc; simp [ih, Ne.symm hc]
          · simp
      exact this _ h
    · cases hd : s.reverse.dropWhile (· != '.') with
      | nil => exact .inl rfl
      | cons c cs =>
        refine .inr ?_
        have := List.head?_dropWhile_not (· != '.') s.reverse
        rw [hd] at this
        simp at this
        simp [this]
  · induction s with
    | nil => rfl
    | cons c cs ih =>
      simp only [nameDepth, List.count_cons, ih]
      by_cases h : c = '.' <;> simp [h]

theorem assign_new (k : Str) (o : Nat) : ∀ l : List (Str × Nat), (∀ x ∈ l, x.1 ≠ k) → assign k o l = l ++ [(k, o)]
  | [], _ => rfl
  | (k', o') :: l, h => by
    have h1 : ¬ k' = k := h (k', o') (by simp)
    simp only [assign, h1, if_false, List.cons_append]
    rw [assign_new k o l fun x hx => h x (by simp [hx])]

theorem pool_fold (v : View) : ∀ (l : List (Nat × Int)) (acc : List (Str × Nat)), (l.map fun x => v.name x.1).Nodup →
    (∀ x ∈ l, ∀ y ∈ acc, y.1 ≠ v.name x.1) →
    l.foldl (fun a x => assign (v.name x.1) x.1 a) acc = acc ++ l.map fun x => (v.name x.1, x.1)
  | [], acc, _, _ => by simp
  | x :: l, acc, hn, hd => by
    simp only [List.map_cons, List.nodup_cons] at hn
    rw [List.foldl_cons, assign_new _ _ _ (hd x (by simp)), pool_fold v l _ hn.2]
    · simp
    · intro z hz y hy
      simp only [List.mem_append, List.mem_singleton] at hy
      rcases hy with hy | rfl
      · exact hd z (by simp [hz]) y hy
      · exact fun e => hn.1 (List.mem_map.2 ⟨z, hz, Eq.symm e⟩)

/-- The line that should be shown for an object with its total. -/
def lineOf (v : View) (x : Nat × Int) : Row where
  src := (v.src x.1).getD 0
  tot := x.2
  depth := if x.1 = 0 then 0 else (v.name x.1).count '.' + 1
  name := if x.1 = 0 then "uvm_top".toList else leafName (v.name x.1)

/-- Objects have distinct full names, only the root has the empty one, and the dictionary has one entry for each object. -/
structure Proper (v : View) : Prop where
  keys : (v.tot.map (·.1)).Nodup
  names : ∀ x ∈ v.tot, ∀ y ∈ v.tot, v.name x.1 = v.name y.1 → x.1 = y.1
  root : ∀ o, v.name o = [] ↔ o = 0

theorem nodup_map_of {α β : Type} (f : α → β) : ∀ l : List α, l.Nodup → (∀ x ∈ l, ∀ y ∈ l, f x = f y → x = y) → (l.map f).Nodup
  | [], _, _ => by simp
  | a :: l, hn, hi => by
    simp only [List.nodup_cons] at hn
    simp only [List.map_cons, List.nodup_cons, List.mem_map, not_exists, not_and]
    refine ⟨fun x hx e => hn.1 (hi x (by simp [hx]) a (by simp) e ▸ hx), nodup_map_of f l hn.2 fun x hx y hy => hi x (by simp [hx]) y (by simp [hy])⟩

theorem nodup_of_map {α β : Type} (f : α → β) : ∀ l : List α, (l.map f).Nodup → l.Nodup
  | [], _ => by simp
  | a :: l, h => by
    simp only [List.map_cons, List.nodup_cons] at h
    exact List.nodup_cons.2 ⟨fun hm => h.1 (List.mem_map.2 ⟨a, hm, rfl⟩), nodup_of_map f l h.2⟩

theorem find_total {l : List (Nat × Int)} (h : (l.map (·.1)).Nodup) : ∀ {x : Nat × Int}, x ∈ l → l.find? (·.1 == x.1) = some x := by
  induction l with
  | nil => simp
  | cons a l ih =>
    intro x hx
    simp only [List.map_cons, List.nodup_cons] at h
    rcases List.mem_cons.1 hx with rfl | hx
    · simp
    · have : ¬ a.1 = x.1 := fun e => h.1 (e ▸ List.mem_map.2 ⟨x, hx, rfl⟩)
      simp [this, ih h.2 hx]

theorem pool_eq (v : View) (h : Proper v) : pool v = (v.tot.filter (fun x => x.2 > 0)).map fun x => (v.name x.1, x.1) := by
  have hk : (v.tot.filter (fun x => decide (x.2 > 0))).Nodup := (nodup_of_map (·.1) v.tot h.keys).sublist List.filter_sublist
  rw [pool, pool_fold v _ [] ?_ (by simp)]
  · simp
  · apply nodup_map_of _ _ hk
    intro x hx y hy e
    have hx' := (List.mem_filter.1 hx).1
    have hy' := (List.mem_filter.1 hy).1
    have e2 := h.names x hx' y hy' e
    have fx := find_total h.keys hx'
    have fy := find_total h.keys hy'
    rw [e2] at fx
    exact Option.some.inj (fx.symm.trans fy)

theorem row_line (v : View) (h : Proper v) (x : Nat × Int) (hx : x ∈ v.tot) : row v (v.name x.1) x.1 = lineOf v x := by
  have hd := (C298_leaf_and_depth (v.name x.1)).2
  by_cases h0 : x.1 = 0
  · have hn := (h.root x.1).2 h0
    have hf := find_total h.keys hx
    rw [h0] at hf hn
    simp [row, lineOf, View.total, hf, hn, h0, nameDepth]
  · have hn : ¬ v.name x.1 = [] := fun e => h0 ((h.root x.1).1 e)
    simp [row, lineOf, View.total, find_total h.keys hx, hn, h0, hd]

theorem pool_find (v : View) (h : Proper v) (x : Nat × Int) (hx : x ∈ v.tot) (hp : x.2 > 0) :
    (pool v).find? (·.1 == v.name x.1) = some (v.name x.1, x.1) := by
  have hm : (v.name x.1, x.1) ∈ pool v := by
    rw [pool_eq v h]
    exact List.mem_map.2 ⟨x, List.mem_filter.2 ⟨hx, by simpa using hp⟩, rfl⟩
  have hs : ((pool v).find? (·.1 == v.name x.1)).isSome := by
    rw [List.find?_isSome]; exact ⟨_, hm, by simp⟩
  obtain ⟨y, hy⟩ := Option.isSome_iff_exists.1 hs
  have hy1 := List.mem_of_find?_eq_some hy
  have hy2 := List.find?_some hy
  rw [pool_eq v h] at hy1
  obtain ⟨z, hz, rfl⟩ := List.mem_map.1 hy1
  simp only [beq_iff_eq] at hy2
  have := h.names z (List.mem_filter.1 hz).1 x hx hy2
  rw [hy, this]

theorem rows_root (v : View) (h : Proper v) : ∀ (ks : List (Nat × Int)) (c : Nat × Int), (∀ x ∈ c :: ks, x ∈ v.tot ∧ x.2 > 0) →
    rows v (pool v) [] (v.name c.1) (ks.map fun x => v.name x.1) = some ((c :: ks).map (lineOf v))
  | [], c, hc => by
    obtain ⟨h1, h2⟩ := hc c (by simp)
    simp [rows, pool_find v h c h1 h2, row_line v h c h1]
  | k :: ks, c, hc => by
    obtain ⟨h1, h2⟩ := hc c (by simp)
    simp only [List.map_cons, rows, pool_find v h c h1 h2]
    simp [rows_root v h ks k (fun x hx => hc x (List.mem_cons_of_mem _ hx)), row_line v h c h1]

/-- C298 (partial): displaying the objections of the root shows its total and, after a first line for the root, one line for every
object with a positive total, in the order in which the objects came to have one, with source count, total count, depth and name.
Missing: the root has two lines (`C298_root_twice_fails`), other objects than the root (`C298_subtree_fails`). -/
theorem C298_root_partial (v : View) (h : Proper v) (n : Int) (hr : (0, n) ∈ v.tot) (hn : n > 0) :
    display v 0 = some (n, lineOf v (0, n) :: (v.tot.filter (fun x => x.2 > 0)).map (lineOf v)) := by
  have ht : v.total 0 = n := by simp [View.total, find_total h.keys hr]
  have h0 : v.name 0 = [] := (h.root 0).2 rfl
  have hne : ¬ n = 0 := by omega
  have := rows_root v h (v.tot.filter (fun x => x.2 > 0)) (0, n) (by
    intro x hx
    rcases List.mem_cons.1 hx with rfl | hx
    · exact ⟨hr, hn⟩
    · exact ⟨(List.mem_filter.1 hx).1, by simpa using (List.mem_filter.1 hx).2⟩)
  rw [display, ht, if_neg hne, h0]
  simp only [h0] at this
  have hk : (pool v).map (·.1) = (v.tot.filter (fun x => decide (x.2 > 0))).map fun x => v.name x.1 := by
    rw [pool_eq v h, List.map_map]; rfl
  rw [hk, this]
  rfl

/-- C298. Without objections nothing but the total 0 is shown. -/
theorem C298_none (v : View) (o : Nat) (h : v.total o = 0) : display v o = some (0, []) := by simp [display, h]

/-- C298 fails in the code: whenever the root has objections its line appears (at least) twice. -/
theorem C298_root_twice_fails (v : View) (h : Proper v) (n : Int) (hr : (0, n) ∈ v.tot) (hn : n > 0) :
    ∃ rs, display v 0 = some (n, rs) ∧ 2 ≤ rs.count (lineOf v (0, n)) := by
  refine ⟨_, C298_root_partial v h n hr hn, ?_⟩
  have hm : lineOf v (0, n) ∈ (v.tot.filter (fun x => x.2 > 0)).map (lineOf v) :=
    List.mem_map.2 ⟨_, List.mem_filter.2 ⟨hr, by simpa using hn⟩, rfl⟩
  have := List.count_pos_iff.2 hm
  rw [List.count_cons_self]
  omega

/-- Components `a`, `a.x` and `b`; `b` raised first, then `a.x`. -/
def exView : View where
  tot := [(3, 1), (0, 2), (2, 1), (1, 1)]
  src := fun o => if o = 3 ∨ o = 2 then some 1 else none
  name := fun o => if o = 0 then [] else if o = 1 then ['a'] else if o = 2 then ['a', '.', 'x'] else if o = 3 then ['b'] else ['c']

example : (exView.tot.map (·.1)).Nodup := by decide
example : Proper exView := ⟨by decide, by decide, by
  intro o
  simp only [exView]
  by_cases h0 : o = 0
  · simp [h0]
  · by_cases h1 : o = 1
    · simp [h1]
    · by_cases h2 : o = 2
      · simp [h2]
      · by_cases h3 : o = 3 <;> simp [h0, h1, h2, h3]⟩

/-- C298 fails in the code for other objects than the root: an object below that has objections may be missing, and one outside may be
shown. -/
theorem C298_subtree_fails : ∃ (v : View) (o : Nat), (2, 1) ∈ v.tot ∧ v.name 2 = v.name o ++ ".x".toList ∧
    ∃ rs, display v o = some (1, rs) ∧ lineOf v (2, 1) ∉ rs ∧ lineOf v (3, 1) ∈ rs ∧ v.name 3 = ['b'] :=
  ⟨exView, 1, by decide, by decide, [⟨0, 1, 1, ['a']⟩, ⟨1, 1, 1, ['b']⟩], by decide, by decide, by decide, by decide⟩

/-- C298 fails in the code for objects with the same full name (sequences): they share one line, in the place of the first and with the
counts of the last. -/
theorem C298_same_name_fails : display ⟨[(1, 5), (0, 8), (2, 3)], fun o => if o = 1 then some 5 else if o = 2 then some 3 else none,
    fun o => if o = 0 then [] else ['s']⟩ 0 =
    some (8, [⟨0, 8, 0, "uvm_top".toList⟩, ⟨3, 3, 1, ['s']⟩, ⟨0, 8, 0, "uvm_top".toList⟩]) := by decide

/-! ## C299: waiting -/

/-- What holds after every history. -/
structure Inv (s : WState) : Prop where
  nodup : (s.inside.map (·.task)).Nodup
  entry : s.inside ≠ [] → ∃ e, s.entry = some e ∧ s.inside.length ≤ e.waiters
  ready : ∀ e, s.entry = some e → ∀ w ∈ s.inside, w.ready = e.flags w.kind

theorem find_task {l : List Waiter} (h : (l.map (·.task)).Nodup) : ∀ {w : Waiter}, w ∈ l → l.find? (·.task == w.task) = some w := by
  induction l with
  | nil => simp
  | cons a l ih =>
    intro w hw
    simp only [List.map_cons, List.nodup_cons] at h
    rcases List.mem_cons.1 hw with rfl | hw
    · simp
    · have : ¬ a.task = w.task := fun e => h.1 (e ▸ List.mem_map.2 ⟨w, hw, rfl⟩)
      simp [this, ih h.2 hw]

theorem map_task (l : List Waiter) (k : Kind) :
    (l.map fun w => if w.kind = k then { w with ready := true } else w).map (·.task) = l.map (·.task) := by
  rw [List.map_map]
  apply List.map_congr_left
  intro w _
  simp only [Function.comp]
  split <;> rfl

theorem inv_erase (s : WState) (h : Inv s) (t : Nat) : ((s.inside.eraseP (·.task == t)).map (·.task)).Nodup :=
  h.nodup.sublist ((List.eraseP_sublist).map _)

theorem inv_step (s : WState) (h : Inv s) (op : WOp) : Inv (wstep s op).1 := by
  cases op with
  | fire k =>
    simp only [wstep]
    cases he : s.entry with
    | none => exact h
    | some e =>
      refine ⟨by rw [map_task]; exact h.nodup, ?_, ?_⟩
      · intro hne
        have : s.inside ≠ [] := by rintro e'; simp [e'] at hne
        obtain ⟨e', h1, h2⟩ := h.entry this
        rw [he] at h1
        obtain rfl := Option.some.inj h1
        exact ⟨_, rfl, by simpa using h2⟩
      · intro e' he' w hw
        obtain rfl := Option.some.inj he'
        obtain ⟨w0, hw0, rfl⟩ := List.mem_map.1 hw
        have := h.ready e he w0 hw0
        by_cases hk : w0.kind = k <;> simp [hk, this]
  | call t k =>
    simp only [wstep]
    split
    · exact h
    · next ht =>
      refine ⟨?_, ?_, ?_⟩
      · simp only [List.map_append, List.map_cons, List.map_nil]
        rw [List.nodup_append]
        refine ⟨h.nodup, by simp, ?_⟩
        intro a ha b hb e
        simp only [List.mem_singleton] at hb
        apply ht
        obtain ⟨w, hw, e2⟩ := List.mem_map.1 ha
        exact List.any_eq_true.2 ⟨w, hw, by simp [e2, e, hb]⟩
      · intro _
        refine ⟨_, rfl, ?_⟩
        simp only [List.length_append, List.length_cons, List.length_nil]
        by_cases hne : s.inside = []
        · simp [hne]
        · obtain ⟨e, h1, h2⟩ := h.entry hne
          simp [h1]; omega
      · intro e' he' w hw
        obtain rfl := Option.some.inj he'
        rcases List.mem_append.1 hw with hw | hw
        · have hne : s.inside ≠ [] := by rintro e; simp [e] at hw
          obtain ⟨e, h1, -⟩ := h.entry hne
          simp [h1, h.ready e h1 w hw]
        · simp only [List.mem_singleton] at hw
          simp [hw]
  | resume t =>
    simp only [wstep]
    cases hf : s.inside.find? (·.task == t) with
    | none => exact h
    | some w =>
      dsimp only
      split
      · refine ⟨inv_erase s h t, ?_, ?_⟩
        · intro hne
          have hm : w ∈ s.inside := List.mem_of_find?_eq_some hf
          obtain ⟨e, h1, h2⟩ := h.entry (by rintro e; simp [e] at hm)
          have hl : (s.inside.eraseP (·.task == t)).length = s.inside.length - 1 :=
            List.length_eraseP_of_mem hm (by simpa using List.find?_some hf)
          have hpos : 0 < (s.inside.eraseP (·.task == t)).length := List.length_pos_iff.2 hne
          simp only [h1]
          rw [if_neg (by omega)]
          exact ⟨_, rfl, by show _ ≤ e.waiters - 1; omega⟩
        · intro e' he' w' hw'
          cases he : s.entry with
          | none => simp [he] at he'
          | some e =>
            simp only [he] at he'
            split at he'
            · cases he'
            · obtain rfl := Option.some.inj he'
              exact h.ready e he w' (List.mem_of_mem_eraseP hw')
      · exact h
  | kill t =>
    refine ⟨inv_erase s h t, ?_, ?_⟩
    · intro hne
      have : s.inside ≠ [] := by rintro e; simp [wstep, e] at hne
      obtain ⟨e, h1, h2⟩ := h.entry this
      refine ⟨e, h1, Nat.le_trans ?_ h2⟩
      exact List.Sublist.length_le List.eraseP_sublist
    · intro e he w hw
      exact h.ready e he w (List.mem_of_mem_eraseP hw)

theorem inv_run : ∀ (ops : List WOp) (s : WState), Inv s → Inv (wrun s ops).1
  | [], _, h => h
  | op :: ops, s, h => inv_run ops _ (inv_step s h op)

theorem inv_init : Inv {} := ⟨by simp, by simp, by simp⟩

/-- Task `t` waits for `k`. -/
def Waits (s : WState) (t : Nat) (k : Kind) : Prop := ∃ w ∈ s.inside, w.task = t ∧ w.kind = k

/-- Task `t` waits for `k` and can be resumed. -/
def Ready (s : WState) (t : Nat) (k : Kind) : Prop := ∃ w ∈ s.inside, w.task = t ∧ w.kind = k ∧ w.ready = true

theorem mem_eraseP_ne {l : List Waiter} {w : Waiter} {u : Nat} (hw : w ∈ l) (h : w.task ≠ u) : w ∈ l.eraseP (·.task == u) := by
  induction l with
  | nil => cases hw
  | cons a l ih =>
    by_cases ha : a.task = u
    · rcases List.mem_cons.1 hw with rfl | hw
      · exact absurd ha h
      · simp [List.eraseP_cons, ha, hw]
    · rcases List.mem_cons.1 hw with rfl | hw
      · simp [List.eraseP_cons, ha]
      · simp [List.eraseP_cons, ha, ih hw]

theorem ready_step (s : WState) (t : Nat) (k : Kind) (hr : Ready s t k) (op : WOp) (h1 : op ≠ .resume t) (h2 : op ≠ .kill t) :
    Ready (wstep s op).1 t k := by
  obtain ⟨w, hw, ht, hk, hready⟩ := hr
  cases op with
  | fire j =>
    simp only [wstep]
    cases s.entry with
    | none => exact ⟨w, hw, ht, hk, hready⟩
    | some e =>
      refine ⟨if w.kind = j then { w with ready := true } else w, List.mem_map.2 ⟨w, hw, rfl⟩, ?_⟩
      split <;> simp [ht, hk, hready]
  | call u j =>
    simp only [wstep]
    split
    · exact ⟨w, hw, ht, hk, hready⟩
    · exact ⟨w, List.mem_append_left _ hw, ht, hk, hready⟩
  | resume u =>
    have hu : w.task ≠ u := fun e => h1 (by rw [← ht, e])
    simp only [wstep]
    cases s.inside.find? (·.task == u) with
    | none => exact ⟨w, hw, ht, hk, hready⟩
    | some x =>
      dsimp only
      split
      · exact ⟨w, mem_eraseP_ne hw hu, ht, hk, hready⟩
      · exact ⟨w, hw, ht, hk, hready⟩
  | kill u =>
    have hu : w.task ≠ u := fun e => h2 (by rw [← ht, e])
    exact ⟨w, mem_eraseP_ne hw hu, ht, hk, hready⟩

theorem ready_run : ∀ (ops : List WOp) (s : WState) (t : Nat) (k : Kind), Ready s t k → (∀ op ∈ ops, op ≠ .resume t ∧ op ≠ .kill t) →
    Ready (wrun s ops).1 t k
  | [], _, _, _, h, _ => h
  | op :: ops, s, t, k, h, ho =>
    ready_run ops _ t k (ready_step s t k h op (ho op (by simp)).1 (ho op (by simp)).2) fun o hm => ho o (by simp [hm])

/-- C299. No wake-up is lost: after any history, if the event happens, every task waiting for it returns when the scheduler next
resumes it, whatever happens in between. -/
theorem C299_wakes (ops more : List WOp) (t : Nat) (k : Kind) (hw : Waits (wrun {} ops).1 t k)
    (hm : ∀ op ∈ more, op ≠ .resume t ∧ op ≠ .kill t) :
    (wstep (wrun (wstep (wrun {} ops).1 (.fire k)).1 more).1 (.resume t)).2 = some t := by
  have hi := inv_run ops {} inv_init
  generalize (wrun {} ops).1 = s at hw hi
  have hr : Ready (wstep s (.fire k)).1 t k := by
    obtain ⟨w, hw, ht, hk⟩ := hw
    obtain ⟨e, he, -⟩ := hi.entry (by rintro e; simp [e] at hw)
    simp only [wstep, he]
    exact ⟨{ w with ready := true }, List.mem_map.2 ⟨w, hw, by simp [hk]⟩, ht, hk, rfl⟩
  have hj := inv_run more _ (inv_step s hi (.fire k))
  have hq := ready_run more _ t k hr hm
  generalize (wrun (wstep s (.fire k)).1 more).1 = q at hj hq
  obtain ⟨w, hw, ht, -, hrd⟩ := hq
  simp only [wstep, ← ht, find_task hj.nodup hw, hrd, if_true]

/-- Without kills the number of waiters is exact, and there is no entry when nobody waits. -/
structure Exact (s : WState) : Prop extends Inv s where
  count : ∀ e, s.entry = some e → s.inside.length = e.waiters
  gone : s.inside = [] → s.entry = none

theorem exact_step (s : WState) (h : Exact s) (op : WOp) (hk : ∀ t, op ≠ .kill t) : Exact (wstep s op).1 := by
  have hi := inv_step s h.toInv op
  refine ⟨hi, ?_, ?_⟩
  · intro e' he'
    cases op with
    | kill t => exact absurd rfl (hk t)
    | fire k =>
      simp only [wstep] at he' ⊢
      cases he : s.entry with
      | none => simp [he] at he'
      | some e =>
        simp only [he, Option.some.injEq] at he' ⊢
        subst he'
        simpa using h.count e he
    | call t k =>
      simp only [wstep] at he' ⊢
      split at he'
      · next hc => rw [if_pos hc]; exact h.count e' he'
      · next hc =>
        rw [if_neg hc]
        obtain rfl := Option.some.inj he'
        simp only [List.length_append, List.length_cons, List.length_nil]
        cases he : s.entry with
        | none =>
          have : s.inside = [] := Classical.byContradiction fun hne => by
            obtain ⟨e, h1, -⟩ := h.entry hne
            rw [he] at h1; cases h1
          simp [this]
        | some e => simp [h.count e he]
    | resume t =>
      simp only [wstep] at he' ⊢
      cases hf : s.inside.find? (·.task == t) with
      | none => simp only [hf] at he' ⊢; exact h.count e' he'
      | some w =>
        simp only [hf] at he' ⊢
        split at he'
        · next hr =>
          rw [if_pos hr]
          have hm : w ∈ s.inside := List.mem_of_find?_eq_some hf
          have hl : (s.inside.eraseP (·.task == t)).length = s.inside.length - 1 :=
            List.length_eraseP_of_mem hm (by simpa using List.find?_some hf)
          cases he : s.entry with
          | none => simp [he] at he'
          | some e =>
            simp only [he] at he'
            split at he'
            · cases he'
            · obtain rfl := Option.some.inj he'
              show _ = e.waiters - 1
              rw [hl, h.count e he]
        · next hr => rw [if_neg hr]; exact h.count e' he'
  · intro hn
    cases op with
    | kill t => exact absurd rfl (hk t)
    | fire k =>
      simp only [wstep] at hn ⊢
      cases he : s.entry with
      | none => exact he
      | some e =>
        simp only [he, List.map_eq_nil_iff] at hn
        rw [h.gone hn] at he; cases he
    | call t k =>
      simp only [wstep] at hn ⊢
      split at hn
      · next hc => rw [if_pos hc]; exact h.gone hn
      · simp at hn
    | resume t =>
      simp only [wstep] at hn ⊢
      cases hf : s.inside.find? (·.task == t) with
      | none => simp only [hf] at hn ⊢; exact h.gone hn
      | some w =>
        simp only [hf] at hn ⊢
        split at hn
        · next hr =>
          rw [if_pos hr]
          have hm : w ∈ s.inside := List.mem_of_find?_eq_some hf
          have hl : (s.inside.eraseP (·.task == t)).length = s.inside.length - 1 :=
            List.length_eraseP_of_mem hm (by simpa using List.find?_some hf)
          have hn' : s.inside.eraseP (·.task == t) = [] := hn
          rw [hn'] at hl
          cases he : s.entry with
          | none => rfl
          | some e =>
            have := h.count e he
            simp only [List.length_nil] at hl
            show (if e.waiters - 1 = 0 then none else _) = none
            rw [if_pos (by omega)]
        · next hr => rw [if_neg hr]; exact h.gone hn

theorem exact_run : ∀ (ops : List WOp) (s : WState), Exact s → (∀ op ∈ ops, ∀ t, op ≠ .kill t) → Exact (wrun s ops).1
  | [], _, h, _ => h
  | op :: ops, s, h, hk => exact_run ops _ (exact_step s h op (hk op (by simp))) fun o ho => hk o (by simp [ho])

/-- Task `t` waits for `k`, cannot be resumed, and the event has not happened for the current entry. -/
def Asleep (s : WState) (t : Nat) (k : Kind) : Prop :=
  Inv s ∧ ∃ e, s.entry = some e ∧ e.flags k = false ∧ ∃ w ∈ s.inside, w.task = t ∧ w.kind = k

theorem asleep_step (s : WState) (t : Nat) (k : Kind) (h : Asleep s t k) (op : WOp) (h1 : op ≠ .fire k) (h2 : op ≠ .kill t) :
    Asleep (wstep s op).1 t k ∧ (wstep s op).2 ≠ some t := by
  obtain ⟨hi, e, he, hf, w, hw, ht, hk⟩ := h
  have hi' := inv_step s hi op
  have hnr : w.ready = false := by rw [hi.ready e he w hw, hk, hf]
  cases op with
  | fire j =>
    refine ⟨⟨hi', ?_⟩, ?_⟩
    · have hj : k ≠ j := fun e => h1 (by rw [e])
      simp only [wstep, he]
      refine ⟨_, rfl, by simp [hj, hf], w, List.mem_map.2 ⟨w, hw, ?_⟩, ht, hk⟩
      simp [hk, hj]
    · simp [wstep, he]
  | call u j =>
    refine ⟨⟨hi', ?_⟩, ?_⟩
    · simp only [wstep]
      split
      · exact ⟨e, he, hf, w, hw, ht, hk⟩
      · exact ⟨_, rfl, by simp [he, hf], w, List.mem_append_left _ hw, ht, hk⟩
    · simp only [wstep]; split <;> simp
  | resume u =>
    by_cases hu : w.task = u
    · have : wstep s (.resume u) = (s, none) := by
        simp only [wstep, ← hu, find_task hi.nodup hw, hnr]
        simp
      rw [this]
      exact ⟨⟨hi, e, he, hf, w, hw, ht, hk⟩, by simp⟩
    · simp only [wstep] at hi' ⊢
      cases hfd : s.inside.find? (·.task == u) with
      | none => exact ⟨⟨hi, e, he, hf, w, hw, ht, hk⟩, by simp⟩
      | some x =>
        simp only [hfd] at hi' ⊢
        by_cases hx : x.ready = true
        · simp only [hx, if_true] at hi' ⊢
          refine ⟨⟨hi', ?_⟩, ?_⟩
          · have hm : x ∈ s.inside := List.mem_of_find?_eq_some hfd
            have hmem := mem_eraseP_ne hw hu
            obtain ⟨e2, he2, hl⟩ := hi'.entry (List.ne_nil_of_mem hmem)
            refine ⟨e2, he2, ?_, w, hmem, ht, hk⟩
            simp only [he] at he2
            split at he2
            · cases he2
            · obtain rfl := Option.some.inj he2; exact hf
          · intro e2; exact hu (ht.trans (Option.some.inj e2).symm)
        · simp only [hx] at hi' ⊢
          exact ⟨⟨hi, e, he, hf, w, hw, ht, hk⟩, by simp⟩
  | kill u =>
    have hu : w.task ≠ u := fun e => h2 (by rw [← ht, e])
    exact ⟨⟨hi', e, he, hf, w, mem_eraseP_ne hw hu, ht, hk⟩, by simp [wstep]⟩

theorem asleep_run : ∀ (ops : List WOp) (s : WState) (t : Nat) (k : Kind), Asleep s t k → (∀ op ∈ ops, op ≠ .fire k ∧ op ≠ .kill t) →
    t ∉ (wrun s ops).2
  | [], _, _, _, _, _ => by simp [wrun]
  | op :: ops, s, t, k, h, ho => by
    obtain ⟨h1, h2⟩ := asleep_step s t k h op (ho op (by simp)).1 (ho op (by simp)).2
    simp only [wrun, List.mem_append, not_or]
    refine ⟨fun hm => h2 ?_, asleep_run ops _ t k h1 fun o hm => ho o (by simp [hm])⟩
    cases hc : (wstep s op).2 with
    | none => simp [hc] at hm
    | some u => simp [hc] at hm; rw [hm]

/-- C299 (partial): after a history without killed tasks, a task that calls `wait_for` while no other task waits for the object does not
return before the event happens, whatever else happens.  Missing: other tasks waiting for the object at the time of the call, or killed
tasks (`C299_stale_fails`). -/
theorem C299_only_after_event_partial (ops more : List WOp) (t : Nat) (k : Kind) (hk : ∀ op ∈ ops, ∀ u, op ≠ .kill u)
    (hi : (wrun {} ops).1.inside = []) (hm : ∀ op ∈ more, op ≠ .fire k ∧ op ≠ .kill t) :
    t ∉ (wrun (wstep (wrun {} ops).1 (.call t k)).1 more).2 := by
  have hx := exact_run ops {} ⟨inv_init, by simp, by simp⟩ hk
  generalize (wrun {} ops).1 = s at hi hx
  have he := hx.gone hi
  refine asleep_run more _ t k ⟨inv_step s hx.toInv _, ?_⟩ hm
  simp [wstep, hi, he]

/-- C299 fails in the code: while another task waits for the object, an event that happened before the call is taken for a new one.
Here task 1 waits for a drop, task 2 waits for and gets a raise, and task 3 then waits for a raise and returns although nothing was
raised since; the same after a killed task. -/
theorem C299_stale_fails :
    (wrun (wstep (wrun {} [.call 1 .dropped, .call 2 .raised, .fire .raised, .resume 2]).1 (.call 3 .raised)).1 [.resume 3]).2 = [3] ∧
    (wrun (wstep (wrun {} [.call 1 .raised, .fire .raised, .kill 1]).1 (.call 3 .raised)).1 [.resume 3]).2 = [3] := by decide

example : Waits (wrun {} [.call 1 .dropped, .call 2 .raised, .fire .dropped]).1 2 .raised := ⟨⟨2, .raised, false⟩, by decide, rfl, rfl⟩
example : (wrun {} [.call 1 .dropped, .fire .dropped, .resume 1]).1.inside = [] := by decide

end Verif.ObjTrace
