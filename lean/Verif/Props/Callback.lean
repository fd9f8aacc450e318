import Verif.Lemmas.Callback
/-! # C41: callback queues -/
namespace Verif.Callback

/-- C41. After every history of calls, running the callbacks of class `k` on an object runs, in queue order, the enabled
callbacks of that class among those kept for it: its own ones once it has one, else the type-wide ones. -/
theorem C41_run (isa : Nat → Nat → Bool) (b : Bool) (ops : List Op) (o k : Nat) :
    doCallbacks isa (runS step (init b) ops) (some o) (some k) =
      (kept ops o).filter (fun c => isa c k && isEnabled ops c) := by
  rw [doCallbacks_eq, getQ_eq]
  congr 1
  funext c
  simp [accepts, enabled_eq]

/-- C41. Each callback runs at most once, and only if it was added. -/
theorem C41_once (isa : Nat → Nat → Bool) (b : Bool) (ops : List Op) (o k : Nat) :
    (doCallbacks isa (runS step (init b) ops) (some o) (some k)).Nodup ∧
    ∀ c ∈ doCallbacks isa (runS step (init b) ops) (some o) (some k),
      isa c k = true ∧ isEnabled ops c = true ∧ ∃ a, .addType c a ∈ ops ∨ .addInst o c a ∈ ops := by
  rw [C41_run]
  refine ⟨List.Nodup.sublist List.filter_sublist ?_, ?_⟩
  · unfold kept; split <;> exact nodup_queueOf _
  · intro c hc
    rw [List.mem_filter] at hc
    obtain ⟨h1, h2⟩ := hc
    simp only [Bool.and_eq_true] at h2
    refine ⟨h2.1, h2.2, ?_⟩
    unfold kept at h1
    split at h1
    · rw [mem_queueOf, List.mem_map] at h1
      obtain ⟨⟨d, a⟩, h3, rfl⟩ := h1
      rw [List.mem_filterMap] at h3
      obtain ⟨x, hx, hx2⟩ := h3
      cases x <;> simp [typeAdd] at hx2
      obtain ⟨rfl, rfl⟩ := hx2
      exact ⟨_, .inl hx⟩
    · rw [mem_queueOf, List.mem_map] at h1
      obtain ⟨⟨d, a⟩, h3, rfl⟩ := h1
      rw [List.mem_filterMap] at h3
      obtain ⟨x, hx, hx2⟩ := h3
      cases x <;> simp [instAdd] at hx2
      obtain ⟨rfl, rfl, rfl⟩ := hx2
      exact ⟨_, .inr hx⟩

/-- C126 fails for an object with its own and type-wide callbacks: the type-wide ones no longer run for it. -/
theorem C126_merge_fails : ∃ ops o, (∀ c, isEnabled ops c = true) ∧
    doCallbacks (fun _ _ => true) (runS step (init false) ops) (some o) (some 0) = [2] ∧ merged ops o = [1, 2] :=
  ⟨[.addType 1 true, .addInst 7 2 true], 7, fun _ => rfl, by decide, by decide⟩

/-- C126 for objects that have only type-wide callbacks, or only their own: exactly the documented queue.  What is missing is
the mixture (`C126_merge_fails`) and deletion (`C126_delete_fails`). -/
theorem C126_merge_partial (isa : Nat → Nat → Bool) (b : Bool) (ops : List Op) (o k : Nat)
    (h : ops.filterMap (instAdd o) = [] ∨ ops.filterMap typeAdd = []) :
    doCallbacks isa (runS step (init b) ops) (some o) (some k) =
      (merged ops o).filter (fun c => isa c k && isEnabled ops c) := by
  rw [C41_run]
  congr 1
  unfold kept merged
  rcases h with h | h
  · rw [if_pos h]
    congr 1
    clear b isa
    induction ops with
    | nil => rfl
    | cons x ops ih =>
      cases x with
      | addType c a => simp [typeAdd, anyAdd]; exact ih (by simpa [instAdd] using h)
      | addInst o' c a =>
        by_cases ho : o' = o
        · rw [List.filterMap_cons_some (b := (c, a)) (by simp [instAdd, ho])] at h
          cases h
        · rw [List.filterMap_cons_none (by simp [instAdd, ho])] at h
          rw [List.filterMap_cons_none rfl, List.filterMap_cons_none (by simp [anyAdd, ho])]
          exact ih h
      | delete o' c => rw [List.filterMap_cons_none rfl] at h ⊢; rw [List.filterMap_cons_none rfl]; exact ih h
      | mode c on => rw [List.filterMap_cons_none rfl] at h ⊢; rw [List.filterMap_cons_none rfl]; exact ih h
  · have : ops.filterMap (instAdd o) = ops.filterMap (anyAdd o) := by
      clear b isa
      induction ops with
      | nil => rfl
      | cons x ops ih =>
        cases x with
        | addType c a => rw [List.filterMap_cons_some (f := typeAdd) (a := .addType c a) rfl] at h; cases h
        | addInst o' c a =>
          rw [List.filterMap_cons_none rfl] at h
          by_cases ho : o' = o
          · rw [List.filterMap_cons_some (b := (c, a)) (by simp [instAdd, ho]),
              List.filterMap_cons_some (b := (c, a)) (by simp [anyAdd, ho]), ih h]
          · rw [List.filterMap_cons_none (by simp [instAdd, ho]), List.filterMap_cons_none (by simp [anyAdd, ho]), ih h]
        | delete o' c =>
          rw [List.filterMap_cons_none rfl] at h ⊢
          rw [List.filterMap_cons_none rfl]; exact ih h
        | mode c on =>
          rw [List.filterMap_cons_none rfl] at h ⊢
          rw [List.filterMap_cons_none rfl]; exact ih h
    rw [h, this]
    split
    · rename_i he; rw [he]
    · rfl

example : doCallbacks (fun c _ => c ≠ 5) (runS step (init true) [.addInst 7 1 true, .addInst 8 9 true, .addInst 7 2 false,
      .addInst 7 1 false, .addInst 7 3 true, .addInst 7 4 true, .addInst 7 5 true, .mode 3 0]) (some 7) (some 0) = [2, 1, 4] := by
  decide

/-- C126 fails for deletion: the call raises and the callback still runs. -/
theorem C126_delete_fails : ∃ ops : List Op, (run step (init false) ops).2.getLast? = some .raised ∧
    doCallbacks (fun _ _ => true) (runS step (init false) ops) (some 7) (some 0) = [1] :=
  ⟨[.addInst 7 1 true, .delete (some 7) 1], by decide, by decide⟩

/-- C126 fails in general: as soon as any callback was added to an object, no type-wide callback that was not also added to the object itself
runs for it, whatever the order of the calls, although the documented queue contains it. -/
theorem C126_typewide_lost_fails (isa : Nat → Nat → Bool) (b : Bool) (ops : List Op) (o c : Nat) (k : Option Nat)
    (h : ∃ d a, Op.addInst o d a ∈ ops) (ht : ∃ a, Op.addType c a ∈ ops) (hc : ∀ a, Op.addInst o c a ∉ ops) :
    c ∈ merged ops o ∧ c ∉ doCallbacks isa (runS step (init b) ops) (some o) k := by
  obtain ⟨d, a, hd⟩ := h
  obtain ⟨a', ht⟩ := ht
  refine ⟨(mem_queueOf _ _).2 (List.mem_map.2 ⟨(c, a'), List.mem_filterMap.2 ⟨_, ht, rfl⟩, rfl⟩), ?_⟩
  rw [doCallbacks_eq, getQ_eq]
  intro hm
  have hm := (List.mem_filter.1 hm).1
  have hne : ops.filterMap (instAdd o) ≠ [] := List.ne_nil_of_mem (a := (d, a)) (List.mem_filterMap.2 ⟨_, hd, by simp [instAdd]⟩)
  unfold kept at hm
  rw [if_neg hne] at hm
  obtain ⟨⟨c', a2⟩, hx, rfl⟩ := List.mem_map.1 ((mem_queueOf _ _).1 hm)
  obtain ⟨x, hxm, he⟩ := List.mem_filterMap.1 hx
  cases x with
  | addInst o' c2 a3 =>
    simp only [instAdd] at he
    split at he
    · rename_i ho
      simp only [Option.some.injEq, Prod.mk.injEq] at he
      obtain ⟨rfl, rfl⟩ := he
      subst ho
      exact hc _ hxm
    · cases he
  | addType => simp [instAdd] at he
  | delete => simp [instAdd] at he
  | mode => simp [instAdd] at he

example : (∃ d a, Op.addInst 7 d a ∈ [Op.addType 1 true, .addInst 7 2 true]) ∧ (∃ a, Op.addType 1 a ∈ [Op.addType 1 true, .addInst 7 2 true]) ∧
    ∀ a, Op.addInst 7 1 a ∉ [Op.addType 1 true, .addInst 7 2 true] := ⟨⟨2, true, by decide⟩, ⟨true, by decide⟩, by decide⟩

/-- C126 fails in general for deletion: every call raises and changes nothing that later callbacks or calls could show. -/
theorem C126_delete_never_fails (s : State) (o : Option Nat) (c : Nat) : step s (.delete o c) = (s, .raised) := rfl

/-- C126 fails in general for iteration without a class: what is returned does not depend on which callbacks are enabled. -/
theorem C126_no_class_ignores_mode_fails (isa : Nat → Nat → Bool) (b : Bool) (ops : List Op) (o : Nat) (c : Nat) (on : Int) :
    doCallbacks isa (runS step (init b) (ops ++ [.mode c on])) (some o) none = doCallbacks isa (runS step (init b) ops) (some o) none ∧
    doCallbacks isa (runS step (init b) ops) (some o) none = kept ops o := by
  have hk : kept (ops ++ [.mode c on]) o = kept ops o := by
    unfold kept
    rw [fm_none (by rfl), fm_none (by rfl)]
  have hf : ∀ ops, doCallbacks isa (runS step (init b) ops) (some o) none = kept ops o := by
    intro ops
    rw [doCallbacks_eq, getQ_eq, List.filter_eq_self]
    intros; rfl
  exact ⟨by rw [hf, hf, hk], hf ops⟩

/-- C126 fails for callbacks run without an object: type-wide callbacks never run, whatever was added. -/
theorem C126_no_object_fails (isa : Nat → Nat → Bool) (b : Bool) (ops : List Op) (k : Option Nat) :
    doCallbacks isa (runS step (init b) ops) none k = [] := by
  rw [doCallbacks_eq]; rfl

/-- C126 fails for iteration without a class: disabled callbacks are returned too. -/
theorem C126_no_class_fails : ∃ ops : List Op, isEnabled ops 1 = false ∧
    doCallbacks (fun _ _ => true) (runS step (init false) ops) (some 7) none = [1] :=
  ⟨[.addInst 7 1 true, .mode 1 0], by decide, by decide⟩

/-- C126 fails for a type-wide addition after an instance one, if a report was processed before the first callback was
added: the addition takes effect, and AttributeError is raised. -/
theorem C126_typewide_after_instance_fails : ∃ ops : List Op, (run step (init true) ops).2.getLast? = some .raised ∧
    doCallbacks (fun _ _ => true) (runS step (init true) ops) (some 8) (some 0) = [2] :=
  ⟨[.addInst 7 1 true, .addType 2 true], by decide, by decide⟩

/-- C41. Where reports came first, a type-wide addition raises exactly if some callback was added to an object before. -/
theorem C41_add_type (ops : List Op) (c : Nat) (a : Bool) :
    (step (runS step (init true) ops) (.addType c a)).2 = .raised ↔ ∃ o d b, Op.addInst o d b ∈ ops := by
  have key : (runS step (init true) ops).shared = true ∧ ((runS step (init true) ops).anyInst = true ↔ ∃ o d b, Op.addInst o d b ∈ ops) := by
    refine snoc_ind (P := fun ops => (runS step (init true) ops).shared = true ∧ ((runS step (init true) ops).anyInst = true ↔ ∃ o d b, Op.addInst o d b ∈ ops)) ?_ ?_ ops
    · exact ⟨rfl, by simp [runS, run, init]⟩
    · intro ops x ih
      rw [runS_snoc]
      generalize runS step (init true) ops = s at ih ⊢
      cases x with
      | addType c a => simp only [step, addType, classQ, List.not_mem_nil, if_false]; simpa using ih
      | addInst o' c a => exact ⟨ih.1, ⟨fun _ => ⟨o', c, a, by simp⟩, fun _ => rfl⟩⟩
      | delete o' c => simpa [step] using ih
      | mode c on =>
        have e : (setMode s c on).shared = s.shared ∧ (setMode s c on).anyInst = s.anyInst := by
          simp only [setMode]; split; exact ⟨rfl, rfl⟩; split <;> exact ⟨rfl, rfl⟩
        simp only [step, e.1, e.2]; simpa using ih
  rw [← key.2]
  cases h : (runS step (init true) ops).anyInst <;> simp [step, addType, classQ, key.1, h]

example : ∃ o d b, Op.addInst o d b ∈ [Op.addInst 7 1 true, .addType 2 true] := ⟨7, 1, true, by simp⟩

/-- C41. Adding never raises in the other case. -/
theorem C41_add_ok (ops : List Op) (o : Op) (h : ∀ x c, o ≠ .delete x c) :
    (step (runS step (init false) ops) o).2 ≠ .raised := by
  have hs : (runS step (init false) ops).shared = false :=
    runS_inv (step := step) (I := fun s => s.shared = false) (fun s x hx => by
      cases x with
      | addType c a => simp only [step, addType]; split <;> exact hx
      | addInst o' c a => exact hx
      | delete o' c => exact hx
      | mode c on => simp only [step, setMode]; split; exact hx; split <;> exact hx) rfl ops
  cases o with
  | addType c a => simp [step, addType, hs, classQ]
  | addInst o' c a => simp [step]
  | delete x c => exact absurd rfl (h x c)
  | mode c on => simp [step]

/-- C41. `uvm_do_callbacks_exit_on` calls the callbacks of the run in order up to the first that returns the value, and
returns the value exactly when there is one, otherwise one minus the value. -/
theorem C41_exit_on (isa : Nat → Nat → Bool) (ret : Nat → Int) (v : Int) (s : State) (o k : Option Nat) :
    doExitOn isa ret v s o k =
      (upTo (fun c => ret c = v) (doCallbacks isa s o k),
        if ∃ c ∈ doCallbacks isa s o k, ret c = v then v else 1 - v) := by
  unfold doExitOn doCallbacks
  rw [exitLoop_of_doLoop]
  congr 1
  by_cases h : ∃ c ∈ doLoop isa s o k ((getQ s o).length + 1) (getFirst isa s o k 0), ret c = v
  · rw [if_pos h, if_pos (by simpa using h)]
  · rw [if_neg h, if_neg (by simpa using h)]

example : doExitOn (fun _ _ => true) (fun c => if c = 2 then 1 else 0) 1
    (runS step (init false) [.addInst 7 1 true, .addInst 7 2 true, .addInst 7 3 true]) (some 7) (some 0) = ([1, 2], 1) := by decide

/-- C41. `first` and `last` give the ends of the run. -/
theorem C41_first_last (isa : Nat → Nat → Bool) (s : State) (o k : Option Nat) (mi : Nat) :
    (getFirst isa s o k mi).1 = (doCallbacks isa s o k).head? ∧
    (getLast isa s o k mi).1 = (doCallbacks isa s o k).getLast? := by
  rw [doCallbacks_eq]
  refine ⟨?_, ?_⟩
  · unfold getFirst; rw [(scanUp_spec _ _ _ _).1, List.head?_filter]
  · unfold getLast
    rw [scanDown_spec, List.getLast?_eq_head?_reverse, ← List.filter_reverse, List.head?_filter]

/-- C41. Stepping with `next` after `first` (or with `prev` after `last`) goes to the neighbour in the run: the accepted
callbacks right of (left of) the current position. -/
theorem C41_next_prev (isa : Nat → Nat → Bool) (s : State) (o k : Option Nat) (mi : Nat) :
    (getNext isa s o k mi).1 = (((getQ s o).drop (mi + 1)).filter (accepts isa s k)).head? ∧
    (getPrev isa s o k mi).1 = (((getQ s o).take mi).filter (accepts isa s k)).getLast? := by
  refine ⟨?_, ?_⟩
  · unfold getNext; rw [(scanUp_spec _ _ _ _).1, List.head?_filter]
  · unfold getPrev; rw [scanDown_spec, List.getLast?_eq_head?_reverse, ← List.filter_reverse, List.head?_filter]

/-- C41. Going from `last` with `prev` visits the callbacks of the run in the opposite order. -/
theorem C41_backwards (isa : Nat → Nat → Bool) (s : State) (o k : Option Nat) (mi : Nat) :
    backLoop isa s o k ((getQ s o).length + 1) (getLast isa s o k mi) = (doCallbacks isa s o k).reverse := by
  have := backLoop_spec isa s o k ((getQ s o).length + 1) (getQ s o).length mi (by omega) (by omega)
  rw [doCallbacks_eq]
  simpa [getLast] using this

example : backLoop (fun _ _ => true) (runS step (init false) [.addInst 7 1 true, .addInst 7 2 true, .addInst 7 3 true, .mode 2 0])
    (some 7) (some 0) 4 (getLast (fun _ _ => true) (runS step (init false) [.addInst 7 1 true, .addInst 7 2 true,
      .addInst 7 3 true, .mode 2 0]) (some 7) (some 0) 0) = [3, 1] := by decide

/-- C41. `callback_mode` returns the mode before the call; 0 and 1 set it, any other argument leaves everything as it was. -/
theorem C41_mode (b : Bool) (ops : List Op) (c : Nat) (on : Int) :
    (step (runS step (init b) ops) (.mode c on)).2 = .mode (isEnabled ops c) ∧
    isEnabled (ops ++ [.mode c on]) c = (if on = 0 then false else if on = 1 then true else isEnabled ops c) ∧
    ∀ d, d ≠ c → isEnabled (ops ++ [.mode c on]) d = isEnabled ops d := by
  refine ⟨by rw [← enabled_eq b]; rfl, ?_, ?_⟩
  · rw [← enabled_eq b, ← enabled_eq b, runS_snoc]
    simp only [step, setMode]
    split
    · simp [upd]
    · split
      · simp [upd]
      · rfl
  · intro d hd
    rw [← enabled_eq b, ← enabled_eq b, runS_snoc]
    simp only [step, setMode]
    split
    · simp [upd, hd]
    · split
      · simp [upd, hd]
      · rfl

end Verif.Callback
