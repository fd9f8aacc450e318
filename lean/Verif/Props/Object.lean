import Verif.Lemmas.ObjectCompare
/-! # C73: copying objects; C74: comparing objects; C75: a clone compares equal to its original -/
namespace Verif.Object

variable {C : Nat → Cls} {K : Knobs}

theorem and_pow (m k : Nat) : (m &&& 2 ^ k = 0) ↔ m.testBit k = false := by
  constructor
  · intro h
    have := congrArg (fun x => x.testBit k) h
    simpa [Nat.testBit_and, Nat.testBit_two_pow_self] using this
  · intro h
    apply Nat.eq_of_testBit_eq
    intro i
    rw [Nat.testBit_and, Nat.testBit_two_pow, Nat.zero_testBit]
    by_cases e : k = i
    · subst e; simp [h]
    · simp [e]

/-- C73: a field takes part in copying when it is registered with the flag `UVM_COPY` (bit 0) and without `UVM_NOCOPY`
(bit 1). -/
theorem C73_flags (mask : Nat) : copies mask = (mask.testBit 0 && !mask.testBit 1) := by
  have h1 : (mask &&& 1 = 0) ↔ mask.testBit 0 = false :=
    and_pow mask 0
  have h2 : (mask &&& 2 = 0) ↔ mask.testBit 1 = false :=
    and_pow mask 1
  unfold copies
  cases e1 : mask.testBit 0 <;> cases e2 : mask.testBit 1 <;> simp_all

/-- C74: a field takes part in comparing when it is registered with the flag `UVM_COMPARE` (bit 2) and without
`UVM_NOCOMPARE` (bit 3). -/
theorem C74_flags (mask : Nat) : compares mask = (mask.testBit 2 && !mask.testBit 3) := by
  have h1 : (mask &&& 4 = 0) ↔ mask.testBit 2 = false :=
    and_pow mask 2
  have h2 : (mask &&& 8 = 0) ↔ mask.testBit 3 = false :=
    and_pow mask 3
  unfold compares
  cases e1 : mask.testBit 2 <;> cases e2 : mask.testBit 3 <;> simp_all

/-- C73, the part that holds: copying an object whose sub-objects form no cycle, onto an object of the same class that
is not part of it, succeeds; every registered field of the target becomes a deep copy (plain values equal, sub-objects new
objects), other attributes of the target and all other existing objects are unchanged, and the next copy starts afresh.
Missing: cyclic structures (`C73_cycle_fails`, `C73_recursion_fails`). -/
theorem C73_copy_partial (s : State) (dst src : Nat) (rank : Nat → Nat) (n : Nat)
    (hA : Acyclic (copyList C) s.heap s.next src rank) (hn : rank src < n) (hm : s.map = []) (hd : dst < s.next)
    (ha : ¬ Reach (copyList C) s.heap src dst) (hc : (s.heap dst).cls = (s.heap src).cls) :
    (copyN C n dst src s).2 = true ∧
    (∀ f ∈ copyList C (s.heap src).cls, ∃ v v', (s.heap src).vals f = some v ∧
      ((copyN C n dst src s).1.heap dst).vals f = some v' ∧
      DeepCopy C s.heap (copyN C n dst src s).1.heap s.next v v') ∧
    (∀ f, f ∉ copyList C (s.heap src).cls →
      ((copyN C n dst src s).1.heap dst).vals f = (s.heap dst).vals f) ∧
    (∀ i, i < s.next → i ≠ dst → (copyN C n dst src s).1.heap i = s.heap i) ∧
    (copyN C n dst src s).1.map = [] := by
  have hp := copyN_post (C := C) (h0 := s.heap) (rank := rank) n dst src s.next s hA hn
    ⟨fun _ _ => rfl, hA.alloc, ha, hd, hc, by simp [hm]⟩
  refine ⟨hp.ok, fun f hf => ?_, hp.rest, hp.frame, hp.map⟩
  obtain ⟨v, v', e1, e2, e3⟩ := hp.copied f hf
  exact ⟨v, v', e1, e2, e3.deep⟩

theorem clone_pre {s : State} {src : Nat} {rank : Nat → Nat} (hA : Acyclic (copyList C) s.heap s.next src rank)
    (hm : s.map = []) : Pre C s.heap s.next src (alloc C s (s.heap src).cls) where
  agree := fun i hi => alloc_lt _ _ (hA.alloc i hi)
  below := fun i hi => Nat.lt_succ_of_lt (hA.alloc i hi)
  apart := fun hi => absurd (hA.alloc _ hi) (Nat.lt_irrefl _)
  dstLt := Nat.lt_succ_self _
  cls := by rw [alloc_new]
  map := fun x hx => by have hx : x ∈ s.map := hx; rw [hm] at hx; cases hx

/-- What the lemmas about copying give for a clone. -/
theorem clone_dc {s : State} {src n : Nat} {rank : Nat → Nat} (hA : Acyclic (copyList C) s.heap s.next src rank)
    (hn : rank src < n) (hm : s.map = []) :
    (clone C n src s).2 = true ∧ (∀ i, i < s.next → (clone C n src s).1.heap i = s.heap i) ∧
    DC C s.heap (clone C n src s).1.heap s.next (clone C n src s).1.next (.obj src) (.obj s.next) ∧
    (clone C n src s).1.map = [] := by
  have hp := copyN_post (C := C) (h0 := s.heap) (rank := rank) n s.next src s.next _ hA hn (clone_pre hA hm)
  have hp : Post C s.heap s.next src (alloc C s (s.heap src).cls) (clone C n src s) := hp
  have hnx : s.next + 1 ≤ (clone C n src s).1.next := hp.next
  refine ⟨hp.ok, ?_, ?_, hp.map⟩
  · intro i hi
    rw [hp.frame i (Nat.lt_succ_of_lt hi) (by omega), alloc_lt _ _ hi]
  · have hc := hp.copied
    refine .obj src s.next (fun f => ((s.heap src).vals f).getD .none)
      (fun f => (((clone C n src s).1.heap s.next).vals f).getD .none) (Nat.le_refl _) (by omega) ?_ ?_ ?_ ?_
    · rw [hp.cls, alloc_new]
    all_goals
      intro f hf
      obtain ⟨v, v', e1, e2, e3⟩ := hc f hf
      simp only [e1, e2, Option.getD_some]
      try exact e3.mono (fun _ _ _ => rfl) (by simp only [alloc]; omega) (Nat.le_refl _)

/-- C73, the part that holds for `clone`: the result is a new object that is a deep copy, and no existing object
changes. -/
theorem C73_clone_partial (s : State) (src : Nat) (rank : Nat → Nat) (n : Nat)
    (hA : Acyclic (copyList C) s.heap s.next src rank) (hn : rank src < n) (hm : s.map = []) :
    (clone C n src s).2 = true ∧
    DeepCopy C s.heap (clone C n src s).1.heap s.next (.obj src) (.obj s.next) ∧
    (∀ i, i < s.next → (clone C n src s).1.heap i = s.heap i) ∧ (clone C n src s).1.map = [] := by
  obtain ⟨h1, h2, h3, h4⟩ := clone_dc hA hn hm
  exact ⟨h1, h3.deep, h2, h4⟩

/-- A class with one object field (7) and one integer field (8), both registered for everything. -/
def nodeCls : Cls := ⟨1, [(7, 5), (8, 5)], fun f => if f = 7 then some .none else if f = 8 then some (.int 0) else none⟩

/-- Object 0 refers to itself and holds 5; object 1 is new. -/
def loopState : State :=
  ⟨fun i => ⟨0, fun f => if f = 7 then some (if i = 0 then .obj 0 else .none) else if f = 8 then
    some (.int (if i = 0 then 5 else 0)) else none⟩, 2, [], 0⟩

/-- C73 fails for cycles: copying an object that refers to itself gives a reference to a new object that was not
copied at all, and from then on copying from that object silently does nothing. -/
theorem C73_cycle_fails :
    let r := copyN (fun _ => nodeCls) 10 1 0 loopState
    let r2 := clone (fun _ => nodeCls) 10 0 r.1
    r.2 = true ∧ (r.1.heap 1).vals 7 = some (.obj 2) ∧ (r.1.heap 2).vals 8 = some (.int 0) ∧
    (loopState.heap 0).vals 8 = some (.int 5) ∧ r.1.map = [0] ∧
    r2.2 = true ∧ (r2.1.heap 3).vals 8 = some (.int 0) := by decide

/-- A class whose second object field refers back. -/
def backCls : Cls := ⟨1, [(7, 5), (9, 5)], fun _ => some .none⟩

/-- Object 0: field 7 holds the plain object 1, field 9 holds object 0 itself. -/
def backHeap (i : Nat) : Obj :=
  ⟨0, fun f => some (if i = 0 then (if f = 7 then .obj 1 else if f = 9 then .obj 0 else .none) else .none)⟩

/-- C73 fails for cycles: with a plain sub-object before the back reference, copying never ends, whatever the recursion
limit. -/
theorem C73_recursion_fails (n : Nat) (next : Nat) (dst : Nat) (hd : 1 < dst) (hn : dst < next) :
    ∀ (s : State), s.map = [] → s.next = next → s.heap 0 = backHeap 0 → s.heap 1 = backHeap 1 → (s.heap dst).cls = 0 →
      (copyN (fun _ => backCls) n dst 0 s).2 = false := by
  induction n generalizing next dst with
  | zero => intro s _ _ _ _ _; rfl
  | succ n ih =>
    intro s hm hnx h0 h1 hc
    have hv7 : (s.heap 0).vals 7 = some (.obj 1) := by rw [h0]; rfl
    obtain _ | n := n
    · simp [copyN, hm, hc, copyFields, backCls, copies, hv7]
    -- the plain sub-object is copied, and that empties the map
    have hnext : next = s.next := hnx.symm
    subst hnext
    have hr1 : ∀ (s1 : State), s1.next = s.next + 1 → (∀ i, i < s.next → s1.heap i = s.heap i) →
        (s1.heap s.next).cls = 0 → 1 ∉ s1.map →
        ∃ s2, copyN (fun _ => backCls) (n + 1) s.next 1 s1 = (s2, true) ∧ s2.map = [] ∧ s2.next = s.next + 1 ∧
          (∀ i, i < s.next → s2.heap i = s.heap i) := by
      intro s1 e1 e2 e3 e4
      have hw7 : ∀ (t : State), t.heap 1 = s.heap 1 → (t.heap 1).vals 7 = some .none ∧ (t.heap 1).vals 9 = some .none := by
        intro t ht; rw [ht, h1]; exact ⟨rfl, rfl⟩
      have hne : (1 : Nat) ≠ s.next := by omega
      have a1 := hw7 s1 (e2 1 (by omega))
      simp only [copyN, e4, if_false, e3, backCls, copyFields, copies, a1.1]
      simp only [setAttr_ne _ _ _ _ hne, a1.2]
      refine ⟨_, rfl, rfl, e1, ?_⟩
      intro i hi
      have hne : i ≠ s.next := by omega
      exact ((setAttr_ne _ _ _ _ hne).trans (setAttr_ne _ _ _ _ hne)).trans (e2 i hi)
    have hcls1 : (s.heap 1).cls = 0 := by rw [h1]; rfl
    have hcls0 : (s.heap 0).cls = 0 := by rw [h0]; rfl
    obtain ⟨s2, q1, q2, q3, q4⟩ := hr1 (alloc (fun _ => backCls) { s with map := [0], depth := 1 } 0) rfl
      (fun i hi => alloc_lt _ _ hi) (by rw [show s.next = ({ s with map := [0], depth := 1 } : State).next from rfl, alloc_new])
      (by simp [alloc])
    have hdst0 : (0 : Nat) ≠ dst := by omega
    have hdst1 : (1 : Nat) ≠ dst := by omega
    have hv9 : ((setAttr s2 dst 7 (.obj s.next)).heap 0).vals 9 = some (.obj 0) := by
      rw [setAttr_ne _ _ _ _ hdst0, q4 0 (by omega), h0]; rfl
    have hcls : ((setAttr s2 dst 7 (.obj s.next)).heap 0).cls = 0 := by
      rw [setAttr_ne _ _ _ _ hdst0, q4 0 (by omega), h0]; rfl
    have hI := ih (s.next + 2) (s.next + 1) (by omega) (by omega)
      (alloc (fun _ => backCls) (setAttr s2 dst 7 (.obj s.next)) 0) (by exact q2) (by show s2.next + 1 = _; omega)
      (by
        have : 0 < (setAttr s2 dst 7 (.obj s.next)).next := by show 0 < s2.next; omega
        rw [alloc_lt _ _ this, setAttr_ne _ _ _ _ hdst0, q4 0 (by omega)]; exact h0)
      (by
        have : 1 < (setAttr s2 dst 7 (.obj s.next)).next := by show 1 < s2.next; omega
        rw [alloc_lt _ _ this, setAttr_ne _ _ _ _ hdst1, q4 1 (by omega)]; exact h1)
      (by
        have : (setAttr s2 dst 7 (.obj s.next)).next = s.next + 1 := q3
        rw [← this, alloc_new])
    have hnx2 : (setAttr s2 dst 7 (.obj s.next)).next = s.next + 1 := q3
    have e : copyN (fun _ => backCls) (n + 1 + 1) dst 0 s =
        copyFields (fun _ => backCls) (copyN (fun _ => backCls) (n + 1)) dst 0 backCls.auto { s with map := [0], depth := 1 } := by
      have hmem : (0 : Nat) ∉ s.map := by simp [hm]
      have : (copyFields (fun _ => backCls) (copyN (fun _ => backCls) (n + 1)) dst 0 backCls.auto
          { s with map := [0], depth := 1 }).2 = false := by
        simp only [backCls, copyFields, copies, hv7, hcls1]
        simp only [backCls] at q1
        simp only [q1]
        simp only [hv9, hcls, hnx2]
        simp only [backCls] at hI
        simp only [hI]
        rfl
      rw [copyN]
      simp only [hmem, if_false, hm]
      rw [show (0 : Int) + 1 = 1 from rfl, this]
      rfl
    rw [e]
    simp only [backCls, copyFields, copies, hv7, hcls1]
    simp only [backCls] at q1
    simp only [q1]
    simp only [hv9, hcls, hnx2]
    simp only [backCls] at hI
    simp only [hI]
    rfl

/-- C74, the part that holds: for objects whose registered fields hold values of the same kind at corresponding
positions (integers, objects, or equal values), where the right-hand side is a tree, a comparison started afresh answers
whether the two are structurally equal, and the next one starts afresh again.
Missing: different strings, `None` and other values (`C74_string_fails`, `C74_ignored_fails`), shared and cyclic
right-hand sides (`C74_shared_fails`), comparisons after an exception (`C74_after_exception_fails`). -/
theorem C74_compare_partial (h : Nat → Obj) (l r N : Nat) (rank : Nat → Nat) (n : Nat) (s : CState)
    (hA : Acyclic (cmpList C) h N r rank) (hn : rank r < n) (hU : Unshared (cmpList C) h r) (hL : Alike C h l r)
    (hs : s.depth = 0) :
    ∃ b, (cmpN C K h n l r s).2 = some b ∧ (b = true ↔ Equal C K h (.obj l) (.obj r)) ∧
      (cmpN C K h n l r s).1.depth = 0 :=
  cmpN_top n l r s hA hn hU hL hs

theorem cmpFields_same (h : Nat → Obj) (rec : Nat → Nat → CState → CState × Option Bool) (l : Nat) (fs : List (Nat × Nat))
    (hf : ∀ f ∈ cmpNames fs, ∃ v, (h l).vals f = some v) (s : CState) : cmpFields K h rec l l fs s = (s, true) := by
  induction fs with
  | nil => rfl
  | cons fm fs ih =>
    obtain ⟨f, m⟩ := fm
    rw [cmpNames_cons] at hf
    by_cases hm : compares m = true
    · rw [if_pos hm] at hf
      obtain ⟨v, hv⟩ := hf f List.mem_cons_self
      simp only [cmpFields, hm, if_true, hv]
      exact ih (fun g hg => hf g (List.mem_cons_of_mem _ hg))
    · rw [if_neg hm] at hf
      simp only [cmpFields, hm]
      exact ih hf

/-- C74. Every object (also in a cyclic structure) compares equal to itself. -/
theorem C74_reflexive (h : Nat → Obj) (l n : Nat) (s : CState) (hs : s.depth = 0)
    (hf : ∀ f ∈ cmpList C (h l).cls, ∃ v, (h l).vals f = some v) :
    (cmpN C K h (n + 1) l l s).2 = some true := by
  simp only [cmpN, if_pos hs, List.lookup_nil, bne_self_eq_false, Bool.and_false]
  rw [cmpFields_same h _ l _ hf]
  rfl

/-- A class with one field 7, registered for everything. -/
def oneCls : Cls := ⟨1, [(7, 5)], fun _ => some .none⟩
/-- A heap of `oneCls` objects given by the value of field 7. -/
def oneHeap (vs : Nat → Val) (i : Nat) : Obj := ⟨0, fun f => if f = 7 then some (vs i) else none⟩

/-- C74 fails for strings: comparing objects that differ in a string field raises `TypeError`. -/
theorem C74_string_fails (K : Knobs) :
    (cmpN (fun _ => oneCls) K (oneHeap (fun i => .str i)) 10 0 1 cinit).2 = none := by
  cases K with
  | mk a b => cases b <;> rfl

/-- C74 fails for `None` and for values such as lists on the left: they are equal to everything, although comparing the
other way round finds the difference. -/
theorem C74_ignored_fails (K : Knobs) :
    (cmpN (fun _ => oneCls) K (oneHeap (fun i => if i = 0 then .none else .obj 0)) 10 0 1 cinit).2 = some true ∧
    (cmpN (fun _ => oneCls) K (oneHeap (fun i => if i = 0 then .none else .obj 0)) 10 1 0 cinit).2 = some false ∧
    (cmpN (fun _ => oneCls) K (oneHeap (fun i => .other i)) 10 0 1 cinit).2 = some true := by
  obtain ⟨a, b⟩ := K
  refine ⟨?_, ?_, ?_⟩
  · cases b <;> rfl
  · by_cases ha : a ≤ 1
    · cases b <;> (have : a = 0 ∨ a = 1 := by omega) <;> rcases this with rfl | rfl <;> decide
    · obtain _ | _ | a := a
      · omega
      · omega
      · cases b <;> rfl
  · cases b <;> rfl

/-- Two fields 7 and 9, registered for everything. -/
def twoCls : Cls := ⟨1, [(7, 5), (9, 5)], fun _ => some .none⟩
/-- Object 0 refers to the plain object 2 twice; object 1 refers to the plain objects 3 and 4. -/
def shareHeap (i : Nat) : Obj :=
  ⟨0, fun f => some (if i = 0 then (if f = 7 ∨ f = 9 then .obj 2 else .none)
    else if i = 1 then (if f = 7 then .obj 3 else if f = 9 then .obj 4 else .none) else .none)⟩

/-- C74 fails when the right-hand side uses an object twice: structurally equal objects are found different, one way
round only. -/
theorem C74_shared_fails :
    (cmpN (fun _ => twoCls) ⟨1, true⟩ shareHeap 10 1 0 cinit).2 = some false ∧
    (cmpN (fun _ => twoCls) ⟨1, true⟩ shareHeap 10 0 1 cinit).2 = some true ∧
    Equal (fun _ => twoCls) ⟨1, true⟩ shareHeap (.obj 1) (.obj 0) := by
  refine ⟨by decide, by decide, ?_⟩
  have leaf : ∀ a b : Nat, 2 ≤ a → 2 ≤ b → Equal (fun _ => twoCls) ⟨1, true⟩ shareHeap (.obj a) (.obj b) := by
    intro a b ha hb
    refine .obj a b (fun _ => .none) (fun _ => .none) (fun _ => rfl) ?_ ?_ (fun f _ => .same _) <;>
    · intro f _
      simp only [shareHeap]
      rw [if_neg (by omega), if_neg (by omega)]
  refine .obj 1 0 (fun f => if f = 7 then .obj 3 else .obj 4) (fun _ => .obj 2) (fun _ => rfl) ?_ ?_ ?_
  · intro f hf
    have hf : f = 7 ∨ f = 9 := by simpa [cmpList, twoCls, shareHeap, compares] using hf
    rcases hf with rfl | rfl <;> rfl
  · intro f hf
    have hf : f = 7 ∨ f = 9 := by simpa [cmpList, twoCls, shareHeap, compares] using hf
    rcases hf with rfl | rfl <;> rfl
  · intro f _
    by_cases e : f = 7
    · simp only [if_pos e]; exact leaf 3 2 (by omega) (by omega)
    · simp only [if_neg e]; exact leaf 4 2 (by omega) (by omega)

/-- C74 fails after an exception: when a comparison raised, the next comparison of the same two objects answers
`False` even if they have become equal. -/
theorem C74_after_exception_fails :
    let c1 := cmpN (fun _ => oneCls) ⟨1, true⟩ (oneHeap (fun i => .str i)) 10 0 1 cinit
    let c2 := cmpN (fun _ => oneCls) ⟨1, true⟩ (oneHeap (fun _ => .str 0)) 10 0 1 c1.1
    c1.2 = none ∧ c2.2 = some false ∧
    (cmpN (fun _ => oneCls) ⟨1, true⟩ (oneHeap (fun _ => .str 0)) 10 0 1 cinit).2 = some true := by decide

/-- C74 fails for `compare(None)`: it raises for every object with a field registered for comparison. -/
theorem C74_none_fails (h : Nat → Obj) (l : Nat) (s : CState) (hf : cmpList C (h l).cls ≠ []) :
    (cmpNone C h l s).2 = none := by
  have : (C (h l).cls).auto.any (fun p => compares p.2) = true := by
    rw [List.any_eq_true]
    cases he : (C (h l).cls).auto.filter (fun p => compares p.2) with
    | nil => exact absurd (by simp [cmpList, he]) hf
    | cons a as =>
      have : a ∈ (C (h l).cls).auto.filter (fun p => compares p.2) := by rw [he]; exact List.mem_cons_self
      rw [List.mem_filter] at this
      exact ⟨a, this⟩
  simp only [cmpNone, this, if_true]

/-! ## C75 -/

theorem dc_obj_inv {h h' : Nat → Obj} {n m o k : Nat} (d : DC C h h' n m (.obj o) (.obj k)) :
    n ≤ k ∧ k < m ∧ (h' k).cls = (h o).cls ∧ ∀ f ∈ copyList C (h o).cls, ∃ v v', (h o).vals f = some v ∧
      (h' k).vals f = some v' ∧ DC C h h' n m v v' := by
  generalize hv : Val.obj o = a at d
  generalize hw : Val.obj k = b at d
  cases d with
  | plain v hp => exact absurd hv.symm (hp o)
  | obj o' k' g g' hn hm hc hg hg' hd =>
    simp only [Val.obj.injEq] at hv hw
    subst hv hw
    exact ⟨hn, hm, hc, fun f hf => ⟨g f, g' f, hg f hf, hg' f hf, hd f hf⟩⟩

theorem dc_right_obj {h h' : Nat → Obj} {n m k : Nat} {v : Val} (d : DC C h h' n m v (.obj k)) : ∃ o, v = .obj o := by
  generalize hw : Val.obj k = b at d
  cases d with
  | plain v hp => exact absurd hw.symm (hp k)
  | obj o' k' => exact ⟨o', rfl⟩

theorem dc_left_obj {h h' : Nat → Obj} {n m o : Nat} {v : Val} (d : DC C h h' n m (.obj o) v) : ∃ k, v = .obj k := by
  generalize hw : Val.obj o = b at d
  cases d with
  | plain v hp => exact absurd hw.symm (hp o)
  | obj o' k' => exact ⟨k', rfl⟩

theorem dc_sameKind {h h' : Nat → Obj} {n m : Nat} {v w : Val} (d : DC C h h' n m v w) :
    sameKind v w = true ∧ sameKind w v = true := by
  cases d with
  | plain v hp => cases v <;> simp [sameKind]
  | obj => simp [sameKind]

theorem dc_equal {h h' : Nat → Obj} {n m src : Nat} (hL : ∀ c, cmpList C c = copyList C c)
    (he : ∀ i, Reach (copyList C) h src i → h' i = h i) {v w : Val} (d : DC C h h' n m v w)
    (hr : ∀ o, v = .obj o → Reach (copyList C) h src o) : Equal C K h' v w ∧ Equal C K h' w v := by
  induction d with
  | plain v hp => exact ⟨.same v, .same v⟩
  | obj o k g g' hn hm hc hg hg' hd ih =>
    have ho := hr o rfl
    have e := he o ho
    have hch : ∀ f ∈ copyList C (h o).cls, ∀ p, g f = .obj p → Reach (copyList C) h src p := by
      intro f hf p hp
      exact .step ho hf (by rw [hg f hf, hp])
    constructor
    · refine .obj o k g g' (fun _ => by rw [e, hc]) ?_ ?_ ?_ <;> intro f hf <;> rw [hL, e] at hf
      · rw [e]; exact hg f hf
      · exact hg' f hf
      · exact (ih f hf (hch f hf)).1
    · refine .obj k o g' g (fun _ => by rw [e, hc]) ?_ ?_ ?_ <;> intro f hf <;> rw [hL, hc] at hf
      · exact hg' f hf
      · rw [e]; exact hg f hf
      · exact (ih f hf (hch f hf)).2

theorem reach_agree {L : Nat → List Nat} {h h' : Nat → Obj} {src : Nat} (he : ∀ i, Reach L h src i → h' i = h i) {o : Nat}
    (hr : Reach L h' src o) : Reach L h src o := by
  induction hr with
  | refl => exact .refl
  | step _ hf hv ih => rw [he _ ih] at hf hv; exact .step ih hf hv

theorem pair_dc {h h' : Nat → Obj} {n m src k : Nat} (hL : ∀ c, cmpList C c = copyList C c)
    (he : ∀ i, Reach (copyList C) h src i → h' i = h i) (d : DC C h h' n m (.obj src) (.obj k)) :
    (∀ l r, Pair C h' src k l r → Reach (copyList C) h src l ∧ DC C h h' n m (.obj l) (.obj r)) ∧
    (∀ l r, Pair C h' k src l r → Reach (copyList C) h src r ∧ DC C h h' n m (.obj r) (.obj l)) := by
  constructor
  · intro l r hp
    induction hp with
    | refl => exact ⟨.refl, d⟩
    | @step l r f l' r' _ hf hl hr _ ih =>
      obtain ⟨ho, hd⟩ := ih
      rw [hL, he l ho] at hf
      rw [he l ho] at hl
      obtain ⟨_, _, _, hcp⟩ := dc_obj_inv hd
      obtain ⟨v, v', e1, e2, e3⟩ := hcp f hf
      rw [hl] at e1; rw [hr] at e2
      cases e1; cases e2
      exact ⟨.step ho hf hl, e3⟩
  · intro l r hp
    induction hp with
    | refl => exact ⟨.refl, d⟩
    | @step l r f l' r' _ hf hl hr _ ih =>
      obtain ⟨ho, hd⟩ := ih
      obtain ⟨_, _, hc, hcp⟩ := dc_obj_inv hd
      rw [hL, hc] at hf
      rw [he r ho] at hr
      obtain ⟨v, v', e1, e2, e3⟩ := hcp f hf
      rw [hr] at e1; rw [hl] at e2
      cases e1; cases e2
      exact ⟨.step ho hf hr, e3⟩

/-- C75. The original compares equal to its clone, for every object whose sub-objects form no cycle (shared or not),
when the same fields are registered once for copying and for comparing and constructors make no sub-objects. -/
theorem C75_original_equals_clone_partial (s : State) (src : Nat) (rank : Nat → Nat) (n n' : Nat) (c : CState)
    (hL : ∀ c, cmpList C c = copyList C c) (ho : ∀ c, (cmpList C c).Nodup)
    (hd0 : ∀ c f o, (C c).dflt f ≠ some (.obj o))
    (hA : Acyclic (copyList C) s.heap s.next src rank) (hn : rank src < n) (hm : s.map = [])
    (hn' : (clone C n src s).1.next < n') (hc : c.depth = 0) :
    (clone C n src s).2 = true ∧ (cmpN C K (clone C n src s).1.heap n' src s.next c).2 = some true := by
  obtain ⟨h1, h2, h3, h4⟩ := clone_dc hA hn hm
  have ht : Tree (s.next + 1) s.next (clone C n src s).1 :=
    copyN_tree (h0 := s.heap) (rank := rank) hd0 n s.next src s.next (alloc C s (s.heap src).cls) hA hn (clone_pre hA hm)
      (by intro f p; rw [alloc_new]; exact hd0 _ f p)
  refine ⟨h1, ?_⟩
  generalize (clone C n src s).1 = s' at *
  have he : ∀ i, Reach (copyList C) s.heap src i → s'.heap i = s.heap i := fun i hi => h2 i (hA.alloc i hi)
  have hfun : cmpList C = copyList C := funext hL
  -- objects below the clone
  have hin : ∀ o, Reach (cmpList C) s'.heap s.next o → (o = s.next ∨ (s.next + 1 ≤ o ∧ o < s'.next)) ∧
      ∃ x, DC C s.heap s'.heap s.next s'.next (.obj x) (.obj o) := by
    intro o hr
    induction hr with
    | refl => exact ⟨.inl rfl, src, h3⟩
    | @step o f p _ hf hv ih =>
      obtain ⟨hi, x, hx⟩ := ih
      have := ht.val o f p hi hv
      obtain ⟨_, _, hcl, hcp⟩ := dc_obj_inv hx
      rw [hL, hcl] at hf
      obtain ⟨v, v', _, e2, e3⟩ := hcp f hf
      rw [hv] at e2; cases e2
      obtain ⟨y, rfl⟩ := dc_right_obj e3
      exact ⟨.inr (by omega), y, e3⟩
  have hA' : Acyclic (cmpList C) s'.heap s'.next s.next (fun o => s'.next - o) := by
    refine ⟨?_, ?_, ?_⟩
    · intro o ho
      obtain ⟨_, x, hx⟩ := hin o ho
      exact (dc_obj_inv hx).2.1
    · intro o ho f hf
      obtain ⟨_, x, hx⟩ := hin o ho
      obtain ⟨_, _, hcl, hcp⟩ := dc_obj_inv hx
      rw [hL, hcl] at hf
      obtain ⟨_, v', _, e2, _⟩ := hcp f hf
      exact ⟨v', e2⟩
    · intro o ho f _ p hv
      have := ht.val o f p (hin o ho).1 hv
      show s'.next - p < s'.next - o
      omega
  have hU : Unshared (cmpList C) s'.heap s.next := fun o o' f f' p ho ho' _ _ hv hv' =>
    ht.uniq o o' f f' p (hin o ho).1 (hin o' ho').1 hv hv'
  obtain ⟨hp1, _⟩ := pair_dc hL he h3
  have hAl : Alike C s'.heap src s.next := by
    refine ⟨?_, ?_, ?_⟩
    · intro l r hp
      obtain ⟨hr, hd⟩ := hp1 l r hp
      rw [(dc_obj_inv hd).2.2.1, he l hr]
    · intro l r _; exact ho _
    · intro l r hp f hf
      obtain ⟨hr, hd⟩ := hp1 l r hp
      rw [hL, he l hr] at hf
      obtain ⟨_, _, _, hcp⟩ := dc_obj_inv hd
      obtain ⟨v, v', e1, e2, e3⟩ := hcp f hf
      exact ⟨v, v', by rw [he l hr]; exact e1, e2, (dc_sameKind e3).1⟩
  obtain ⟨b, hb, hiff, _⟩ := cmpN_top (K := K) n' src s.next c hA' (by show s'.next - s.next < n'; omega) hU hAl hc
  rw [hb, hiff.mpr (dc_equal hL he h3 (fun o e => by cases e; exact .refl)).1]

/-- C75, the part that holds in the other direction: the clone compares equal to the original when the original is a
tree. Missing: originals that use an object twice (`C75_shared_fails`). -/
theorem C75_clone_equals_original_partial (s : State) (src : Nat) (rank : Nat → Nat) (n n' : Nat) (c : CState)
    (hL : ∀ c, cmpList C c = copyList C c) (ho : ∀ c, (cmpList C c).Nodup)
    (hA : Acyclic (copyList C) s.heap s.next src rank) (hn : rank src < n) (hm : s.map = [])
    (hU : Unshared (copyList C) s.heap src) (hn' : rank src < n') (hc : c.depth = 0) :
    (cmpN C K (clone C n src s).1.heap n' s.next src c).2 = some true := by
  obtain ⟨_, h2, h3, _⟩ := clone_dc hA hn hm
  generalize (clone C n src s).1 = s' at *
  have he : ∀ i, Reach (copyList C) s.heap src i → s'.heap i = s.heap i := fun i hi => h2 i (hA.alloc i hi)
  have hfun : cmpList C = copyList C := funext hL
  have hback : ∀ o, Reach (cmpList C) s'.heap src o → Reach (copyList C) s.heap src o := by
    intro o hr; rw [hfun] at hr; exact reach_agree he hr
  have hA' : Acyclic (cmpList C) s'.heap s.next src rank := by
    refine ⟨fun o hr => hA.alloc o (hback o hr), fun o hr f hf => ?_, fun o hr f hf p hv => ?_⟩
    · rw [hL, he o (hback o hr)] at hf
      rw [he o (hback o hr)]; exact hA.has o (hback o hr) f hf
    · rw [hL, he o (hback o hr)] at hf
      rw [he o (hback o hr)] at hv; exact hA.down o (hback o hr) f hf p hv
  have hU' : Unshared (cmpList C) s'.heap src := by
    intro o o' f f' p hr hr' hf hf' hv hv'
    rw [hL, he o (hback o hr)] at hf
    rw [hL, he o' (hback o' hr')] at hf'
    rw [he o (hback o hr)] at hv
    rw [he o' (hback o' hr')] at hv'
    exact hU o o' f f' p (hback o hr) (hback o' hr') hf hf' hv hv'
  obtain ⟨_, hp2⟩ := pair_dc hL he h3
  have hAl : Alike C s'.heap s.next src := by
    refine ⟨?_, ?_, ?_⟩
    · intro l r hp
      obtain ⟨hr, hd⟩ := hp2 l r hp
      rw [(dc_obj_inv hd).2.2.1, he r hr]
    · intro l r _; exact ho _
    · intro l r hp f hf
      obtain ⟨hr, hd⟩ := hp2 l r hp
      obtain ⟨_, _, hcl, hcp⟩ := dc_obj_inv hd
      rw [hL, hcl] at hf
      obtain ⟨v, v', e1, e2, e3⟩ := hcp f hf
      exact ⟨v', v, e2, by rw [he r hr]; exact e1, (dc_sameKind e3).2⟩
  obtain ⟨b, hb, hiff, _⟩ := cmpN_top (K := K) n' s.next src c hA' hn' hU' hAl hc
  rw [hb, hiff.mpr (dc_equal hL he h3 (fun o e => by cases e; exact .refl)).2]

/-- Object 0 refers to the plain object 2 twice. -/
def shareState : State := ⟨shareHeap, 5, [], 0⟩

/-- C75 fails for an object that uses a sub-object twice: its clone does not compare equal to it. -/
theorem C75_shared_fails :
    let r := clone (fun _ => twoCls) 10 0 shareState
    r.2 = true ∧ (cmpN (fun _ => twoCls) ⟨1, true⟩ r.1.heap 10 5 0 cinit).2 = some false ∧
    (cmpN (fun _ => twoCls) ⟨1, true⟩ r.1.heap 10 0 5 cinit).2 = some true := by decide

/-- C75 fails for an object that refers to itself: neither compares equal to the other. -/
theorem C75_cycle_fails :
    let r := clone (fun _ => nodeCls) 10 0 loopState
    r.2 = true ∧ (cmpN (fun _ => nodeCls) ⟨1, true⟩ r.1.heap 10 2 0 cinit).2 = some false ∧
    (cmpN (fun _ => nodeCls) ⟨1, true⟩ r.1.heap 10 0 2 cinit).2 = some false := by decide

-- Non-vacuity: object 1 of `shareHeap` has two plain sub-objects
theorem share_reach {o : Nat} (h : Reach (copyList (fun _ => twoCls)) shareHeap 1 o) : o = 1 ∨ o = 3 ∨ o = 4 := by
  induction h with
  | refl => exact .inl rfl
  | @step o f p _ hf hv ih =>
    have hf' : f = 7 ∨ f = 9 := by
      have : copyList (fun _ => twoCls) 0 = [7, 9] := by decide
      have hf : f ∈ copyList (fun _ => twoCls) 0 := hf
      simpa [this] using hf
    rcases ih with rfl | rfl | rfl <;> rcases hf' with rfl | rfl <;> simp [shareHeap] at hv <;> simp [← hv]

example : Acyclic (copyList (fun _ => twoCls)) shareState.heap shareState.next 1 (fun o => if o = 1 then 1 else 0) := by
  refine ⟨fun o h => ?_, fun o h f _ => ⟨_, rfl⟩, fun o h f hf p hv => ?_⟩
  · rcases share_reach h with rfl | rfl | rfl <;> decide
  · have hf' : f = 7 ∨ f = 9 := by
      have : copyList (fun _ => twoCls) 0 = [7, 9] := by decide
      have hf : f ∈ copyList (fun _ => twoCls) 0 := hf
      simpa [this] using hf
    have hv' : (shareHeap o).vals f = some (.obj p) := hv
    rcases share_reach h with rfl | rfl | rfl <;> rcases hf' with rfl | rfl <;> simp [shareHeap] at hv' <;> simp [← hv']

example : (clone (fun _ => twoCls) 10 1 shareState).2 = true ∧
    (cmpN (fun _ => twoCls) ⟨1, true⟩ (clone (fun _ => twoCls) 10 1 shareState).1.heap 10 1 5 cinit).2 = some true := by
  decide
example : (cmpN (fun _ => oneCls) ⟨1, true⟩ (oneHeap (fun i => .int i)) 10 0 1 cinit).2 = some false := by decide

end Verif.Object
