import Verif.Spec.Callback
/-! # Lemmas about callback queues -/
namespace Verif.Callback

theorem mem_firstAdds_fst (l : List (Nat × Bool)) (c : Nat) : c ∈ (firstAdds l).map (·.1) ↔ c ∈ l.map (·.1) := by
  induction l with
  | nil => simp [firstAdds]
  | cons x l ih =>
    obtain ⟨d, b⟩ := x
    simp only [firstAdds, List.map_cons, List.mem_cons]
    by_cases h : c = d
    · simp [h]
    · simp only [h, false_or]
      rw [← ih]
      simp only [List.mem_map, List.mem_filter]
      constructor
      · rintro ⟨y, ⟨hy, _⟩, rfl⟩; exact ⟨y, hy, rfl⟩
      · rintro ⟨y, hy, rfl⟩; exact ⟨y, ⟨hy, by simpa using h⟩, rfl⟩

theorem firstAdds_snoc (l : List (Nat × Bool)) (c : Nat) (a : Bool) :
    firstAdds (l ++ [(c, a)]) = if c ∈ l.map (·.1) then firstAdds l else firstAdds l ++ [(c, a)] := by
  induction l with
  | nil => simp [firstAdds]
  | cons x l ih =>
    obtain ⟨d, b⟩ := x
    simp only [List.cons_append, firstAdds, ih, List.map_cons, List.mem_cons]
    by_cases h : c = d
    · subst h
      by_cases h2 : c ∈ l.map (·.1)
      · simp [h2]
      · simp [h2]
    · by_cases h2 : c ∈ l.map (·.1)
      · simp [h, h2]
      · simp [h, h2]

theorem mem_queueOf (l : List (Nat × Bool)) (c : Nat) : c ∈ queueOf l ↔ c ∈ l.map (·.1) := by
  rw [← mem_firstAdds_fst]
  unfold queueOf
  simp only [List.mem_append, List.mem_map, List.mem_reverse, List.mem_filter]
  constructor
  · rintro (⟨y, ⟨hy, _⟩, rfl⟩ | ⟨y, ⟨hy, _⟩, rfl⟩) <;> exact ⟨y, hy, rfl⟩
  · rintro ⟨y, hy, rfl⟩
    cases hb : y.2
    · exact .inl ⟨y, ⟨hy, by simp [hb]⟩, rfl⟩
    · exact .inr ⟨y, ⟨hy, by simp [hb]⟩, rfl⟩

theorem queueOf_snoc (l : List (Nat × Bool)) (c : Nat) (a : Bool) :
    queueOf (l ++ [(c, a)]) = if c ∈ queueOf l then queueOf l else insert a (queueOf l) c := by
  have hm := mem_queueOf l c
  by_cases h : c ∈ l.map (·.1)
  · rw [if_pos (hm.2 h)]
    unfold queueOf
    rw [firstAdds_snoc, if_pos h]
  · rw [if_neg (fun h' => h (hm.1 h'))]
    unfold queueOf insert
    rw [firstAdds_snoc, if_neg h]
    cases a <;> simp [List.filter_append]

theorem queueOf_nil : queueOf [] = [] := rfl

theorem queueOf_eq_nil (l : List (Nat × Bool)) : queueOf l = [] ↔ l = [] := by
  constructor
  · intro h
    cases l with
    | nil => rfl
    | cons x l => exact absurd ((mem_queueOf (x :: l) x.1).2 (by simp)) (by rw [h]; simp)
  · rintro rfl; rfl

theorem nodup_queueOf (l : List (Nat × Bool)) : (queueOf l).Nodup := by
  have snoc : ∀ (l : List (Nat × Bool)), (queueOf l.reverse).Nodup := by
    intro l
    induction l with
    | nil => simp [queueOf, firstAdds]
    | cons x l ih =>
      rw [List.reverse_cons, queueOf_snoc]
      split
      · exact ih
      · rename_i h
        unfold insert
        split
        · rw [List.nodup_append]
          refine ⟨ih, by simp, ?_⟩
          intro a ha b hb
          simp at hb
          subst hb
          rintro rfl
          exact h ha
        · exact List.nodup_cons.2 ⟨h, ih⟩
  have := snoc l.reverse
  rwa [List.reverse_reverse] at this

theorem runS_snoc {S O R : Type} (step : S → O → S × R) (s : S) (os : List O) (o : O) :
    runS step s (os ++ [o]) = (step (runS step s os) o).1 := by
  rw [runS_append]; rfl

theorem snoc_ind {α : Type} {P : List α → Prop} (h0 : P []) (h1 : ∀ l a, P l → P (l ++ [a])) : ∀ l, P l := by
  intro l
  rw [← List.reverse_reverse l]
  induction l.reverse with
  | nil => exact h0
  | cons o l ih => rw [List.reverse_cons]; exact h1 _ _ ih

theorem fm_none {α β : Type} {f : α → Option β} {a : α} (h : f a = none) (l : List α) :
    (l ++ [a]).filterMap f = l.filterMap f := by simp [h]

theorem fm_some {α β : Type} {f : α → Option β} {a : α} {b : β} (h : f a = some b) (l : List α) :
    (l ++ [a]).filterMap f = l.filterMap f ++ [b] := by simp [h]

theorem tw_eq (b : Bool) (ops : List Op) : (runS step (init b) ops).tw = queueOf (ops.filterMap typeAdd) := by
  induction ops using snoc_ind with
  | h0 => rfl
  | h1 ops o ih =>
    rw [runS_snoc]
    cases o with
    | addType c a =>
      rw [fm_some (f := typeAdd) (a := .addType c a) rfl, queueOf_snoc, ← ih]
      simp only [step, addType, classQ, List.not_mem_nil, if_false]
    | addInst o c a => rw [fm_none rfl]; exact ih
    | delete o c => rw [fm_none rfl]; exact ih
    | mode c on =>
      have : (setMode (runS step (init b) ops) c on).tw = (runS step (init b) ops).tw := by
        unfold setMode; split; rfl; split <;> rfl
      rw [fm_none rfl, ← ih]; exact this

/-- The queue of an object with the given additions. -/
def poolOf (l : List (Nat × Bool)) : Option (List Nat) := if l = [] then none else some (queueOf l)

theorem poolOf_snoc (l : List (Nat × Bool)) (c : Nat) (a : Bool) :
    poolOf (l ++ [(c, a)]) = some (if c ∈ queueOf l then queueOf l else insert a (queueOf l) c) := by
  unfold poolOf
  rw [if_neg (by simp), queueOf_snoc]

theorem instQ_of (s : State) (o : Nat) (l : List (Nat × Bool)) (h : s.pool o = poolOf l) : instQ s o = queueOf l := by
  unfold instQ
  rw [h]
  unfold poolOf
  by_cases he : l = []
  · rw [if_pos he, he]; rfl
  · rw [if_neg he]
    split
    · rename_i heq; injection heq with heq; exact absurd ((queueOf_eq_nil _).1 heq) he
    · rename_i heq; injection heq with heq; exact heq.symm
    · rename_i heq; injection heq

theorem pool_eq (b : Bool) (ops : List Op) (o : Nat) :
    (runS step (init b) ops).pool o = poolOf (ops.filterMap (instAdd o)) := by
  induction ops using snoc_ind with
  | h0 => rfl
  | h1 ops x ih =>
    rw [runS_snoc]
    cases x with
    | addType c a =>
      rw [fm_none rfl]
      simp only [step, addType, classQ, List.not_mem_nil, if_false]
      exact ih
    | addInst o' c a =>
      by_cases h : o = o'
      · subst h
        rw [fm_some (b := (c, a)) (by simp [instAdd]), poolOf_snoc]
        simp only [step, addInst, upd, if_true, instQ_of _ _ _ ih]
      · rw [fm_none (by simp [instAdd, Ne.symm h])]
        simp only [step, addInst, upd, if_neg h]
        exact ih
    | delete o c => rw [fm_none rfl]; exact ih
    | mode c on =>
      have : (setMode (runS step (init b) ops) c on).pool = (runS step (init b) ops).pool := by
        unfold setMode; split; rfl; split <;> rfl
      rw [fm_none rfl, ← ih]; exact congrFun this o

theorem enabled_eq (b : Bool) (ops : List Op) (c : Nat) :
    (runS step (init b) ops).enabled c = isEnabled ops c := by
  unfold isEnabled
  induction ops using snoc_ind with
  | h0 => rfl
  | h1 ops x ih =>
    rw [runS_snoc, List.filterMap_append]
    cases x with
    | addType d a =>
      simp only [step, addType, classQ, List.not_mem_nil, if_false, List.filterMap_cons, modeSet, List.filterMap_nil,
        List.append_nil]
      exact ih
    | addInst o' d a => simpa [step, addInst, modeSet] using ih
    | delete o d => simpa [step, modeSet] using ih
    | mode d on =>
      simp only [step, setMode, List.filterMap_cons, modeSet, List.filterMap_nil]
      by_cases h : c = d
      · subst h
        by_cases h0 : on = 0
        · simp [h0, upd]
        · by_cases h1 : on = 1
          · simp [h1, upd]
          · simpa [h0, h1] using ih
      · by_cases h0 : on = 0
        · simpa [h0, upd, h, Ne.symm h] using ih
        · by_cases h1 : on = 1
          · simpa [h1, upd, h, Ne.symm h] using ih
          · simpa [h0, h1, h, Ne.symm h] using ih

theorem getQ_eq (b : Bool) (ops : List Op) (o : Nat) : getQ (runS step (init b) ops) (some o) = kept ops o := by
  unfold getQ kept
  simp only [pool_eq, tw_eq, poolOf]
  by_cases h : ops.filterMap (instAdd o) = [] <;> simp [h]

/-! ## Iterating -/

/-- Scanning a list whose entries have indices `i, i+1, …`: the result is the first accepted entry. -/
theorem scanUp_spec (p : Nat → Bool) (q : List Nat) (i last : Nat) :
    (scanUp p q i last).1 = q.find? p ∧
    ∀ c, (scanUp p q i last).1 = some c →
      i ≤ (scanUp p q i last).2 ∧ q.drop ((scanUp p q i last).2 - i) = c :: q.drop ((scanUp p q i last).2 - i + 1) ∧
      (q.take ((scanUp p q i last).2 - i)).filter p = [] := by
  induction q generalizing i last with
  | nil => simp [scanUp]
  | cons d q ih =>
    unfold scanUp
    cases hp : p d with
    | true => simp [hp]
    | false =>
      obtain ⟨h1, h2⟩ := ih (i + 1) i
      refine ⟨by simp [hp, h1], ?_⟩
      intro c hc
      simp only [Bool.false_eq_true, if_false] at hc ⊢
      obtain ⟨h3, h4, h5⟩ := h2 c hc
      have e : (scanUp p q (i + 1) i).2 - i = ((scanUp p q (i + 1) i).2 - (i + 1)) + 1 := by omega
      refine ⟨by omega, ?_, ?_⟩
      · rw [e, List.drop_succ_cons, List.drop_succ_cons]; exact h4
      · rw [e, List.take_succ_cons, List.filter_cons]; simp [hp, h5]

theorem doLoop_spec (isa : Nat → Nat → Bool) (s : State) (o k : Option Nat) (n j last : Nat)
    (hn : ((getQ s o).drop j).length < n) :
    doLoop isa s o k n (scanUp (accepts isa s k) ((getQ s o).drop j) j last) =
      ((getQ s o).drop j).filter (accepts isa s k) := by
  induction n generalizing j last with
  | zero => omega
  | succ n ih =>
    obtain ⟨h1, h2⟩ := scanUp_spec (accepts isa s k) ((getQ s o).drop j) j last
    cases hs : scanUp (accepts isa s k) ((getQ s o).drop j) j last with
    | mk r i =>
      rw [hs] at h1 h2
      cases r with
      | none =>
        simp only [doLoop]
        symm
        rw [List.filter_eq_nil_iff]
        intro a ha
        have := (List.find?_eq_none.1 h1.symm) a ha
        simpa using this
      | some c =>
        obtain ⟨h3, h4, h5⟩ := h2 c rfl
        simp only [doLoop, getNext]
        simp only at h3 h4 h5
        have hd : (getQ s o).drop i = c :: (getQ s o).drop (i + 1) := by
          rw [List.drop_drop, List.drop_drop] at h4
          have e1 : j + (i - j) = i := by omega
          have e2 : j + (i - j + 1) = i + 1 := by omega
          rw [e1, e2] at h4; exact h4
        have hlt : i < (getQ s o).length := by
          apply Decidable.byContradiction
          intro hge
          rw [List.drop_eq_nil_of_le (by omega)] at hd
          simp at hd
        rw [ih (i + 1) i (by simp only [List.length_drop] at hn ⊢; omega)]
        have hsplit : (getQ s o).drop j = ((getQ s o).drop j).take (i - j) ++ (c :: (getQ s o).drop (i + 1)) := by
          rw [← hd]
          have := (List.take_append_drop (i - j) ((getQ s o).drop j)).symm
          rw [List.drop_drop] at this
          have e1 : j + (i - j) = i := by omega
          rw [e1] at this; exact this
        have hc : accepts isa s k c = true := by
          have := List.find?_some h1.symm; exact this
        rw [hsplit, List.filter_append, h5, List.nil_append, List.filter_cons_of_pos hc]

theorem doCallbacks_eq (isa : Nat → Nat → Bool) (s : State) (o k : Option Nat) :
    doCallbacks isa s o k = (getQ s o).filter (accepts isa s k) := by
  unfold doCallbacks getFirst
  have := doLoop_spec isa s o k ((getQ s o).length + 1) 0 0 (by simp)
  simpa using this

/-- The part of a list up to and including the first element with a property. -/
def upTo (p : Nat → Bool) : List Nat → List Nat
  | [] => []
  | c :: l => if p c then [c] else c :: upTo p l

theorem exitLoop_of_doLoop (isa : Nat → Nat → Bool) (ret : Nat → Int) (v : Int) (s : State) (o k : Option Nat) (n : Nat)
    (x : Option Nat × Nat) :
    exitLoop isa ret v s o k n x =
      (upTo (fun c => ret c = v) (doLoop isa s o k n x), if (doLoop isa s o k n x).any (fun c => ret c = v) then v else 1 - v) := by
  induction n generalizing x with
  | zero => simp [exitLoop, doLoop, upTo]
  | succ n ih =>
    obtain ⟨r, i⟩ := x
    cases r with
    | none => simp [exitLoop, doLoop, upTo]
    | some c =>
      unfold exitLoop doLoop
      by_cases h : ret c = v
      · simp [h, upTo]
      · simp only [h, if_false, ih]
        simp [upTo, h]

theorem scanDown_spec (p : Nat → Bool) (q : List Nat) (i last : Nat) : (scanDown p q i last).1 = q.find? p := by
  induction q generalizing i last with
  | nil => rfl
  | cons d q ih =>
    unfold scanDown
    cases hp : p d <;> simp [hp, ih]

/-- Scanning the first `j` entries of `q` downwards finds the last accepted one, at its own index. -/
theorem scanDown_take (p : Nat → Bool) (q : List Nat) (j last : Nat) (hj : j ≤ q.length) (c i : Nat)
    (h : scanDown p (q.take j).reverse (j - 1) last = (some c, i)) :
    i < j ∧ (q.take j).filter p = (q.take i).filter p ++ [c] := by
  induction j generalizing last with
  | zero => simp [scanDown] at h
  | succ j ih =>
    have e : q.take (j + 1) = q.take j ++ [q[j]] := by
      rw [List.take_succ_eq_append_getElem (by omega)]
    rw [e, List.reverse_append, List.reverse_singleton, List.singleton_append, scanDown] at h
    rw [e, List.filter_append]
    by_cases hp : p q[j] = true
    · rw [if_pos hp] at h
      injection h with h1 h2
      injection h1 with h1
      have : i = j := by omega
      subst this
      refine ⟨by omega, ?_⟩
      rw [h1] at hp; simp [hp, h1]
    · rw [if_neg hp] at h
      obtain ⟨h1, h2⟩ := ih (j + 1 - 1) (by omega) h
      refine ⟨by omega, ?_⟩
      simp [hp, h2]

theorem backLoop_spec (isa : Nat → Nat → Bool) (s : State) (o k : Option Nat) (n j last : Nat) (hj : j ≤ (getQ s o).length)
    (hn : j < n) :
    backLoop isa s o k n (scanDown (accepts isa s k) ((getQ s o).take j).reverse (j - 1) last) =
      (((getQ s o).take j).filter (accepts isa s k)).reverse := by
  induction n generalizing j last with
  | zero => omega
  | succ n ih =>
    have h1 := scanDown_spec (accepts isa s k) ((getQ s o).take j).reverse (j - 1) last
    cases hs : scanDown (accepts isa s k) ((getQ s o).take j).reverse (j - 1) last with
    | mk r i =>
      rw [hs] at h1
      cases r with
      | none =>
        simp only [backLoop]
        symm
        rw [List.reverse_eq_nil_iff, List.filter_eq_nil_iff]
        intro a ha
        have := (List.find?_eq_none.1 h1.symm) a (by simpa using ha)
        simpa using this
      | some c =>
        obtain ⟨h3, h4⟩ := scanDown_take _ _ _ _ hj _ _ hs
        simp only [backLoop, getPrev]
        rw [ih i i (by omega) (by omega), h4, List.reverse_append]
        rfl

end Verif.Callback
