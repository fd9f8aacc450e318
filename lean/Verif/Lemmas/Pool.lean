import Verif.Spec.Pool
import Verif.Util.Machine
namespace Verif.Pool
variable {K V : Type} [DecidableEq K]

theorem lookup_assign (l : List (K × V)) (k k' : K) (v : V) :
    lookup (assign l k' v) k = if k = k' then some v else lookup l k := by
  induction l with
  | nil => simp [assign, lookup]
  | cons p l ih =>
    obtain ⟨a, b⟩ := p
    simp only [assign]
    split
    · next h => subst h; simp only [lookup]; split <;> rfl
    · next h =>
      simp only [lookup, ih]
      split
      · next h2 => subst h2; rw [if_neg (fun e => h e.symm)]
      · rfl

theorem lookup_isSome (l : List (K × V)) (k : K) : (lookup l k).isSome ↔ k ∈ keys l := by
  induction l with
  | nil => simp [lookup, keys]
  | cons p l ih =>
    obtain ⟨a, b⟩ := p
    simp only [lookup, keys, List.map_cons, List.mem_cons]
    split
    · next h => simp [h]
    · next h => simp only [ih, keys]; simp [h]

theorem lookup_eq_none (l : List (K × V)) (k : K) : lookup l k = none ↔ k ∉ keys l := by
  rw [← lookup_isSome]; cases lookup l k <;> simp

theorem keys_assign (l : List (K × V)) (k : K) (v : V) :
    keys (assign l k v) = if k ∈ keys l then keys l else keys l ++ [k] := by
  induction l with
  | nil => simp [assign, keys]
  | cons p l ih =>
    obtain ⟨a, b⟩ := p
    simp only [assign]
    split
    · next h => simp [keys, h]
    · next h =>
      have e : keys ((a, b) :: assign l k v) = a :: keys (assign l k v) := rfl
      have e2 : keys ((a, b) :: l) = a :: keys l := rfl
      rw [e, e2, ih]
      simp only [List.mem_cons, h, false_or]
      split <;> simp

theorem keys_erase (l : List (K × V)) (k : K) (hn : (keys l).Nodup) :
    keys (erase l k) = (keys l).filter (· ≠ k) := by
  induction l with
  | nil => simp [erase, keys]
  | cons p l ih =>
    obtain ⟨a, b⟩ := p
    have e2 : keys ((a, b) :: l) = a :: keys l := rfl
    rw [e2, List.nodup_cons] at hn
    simp only [erase]
    split
    · next h =>
      subst h
      rw [e2, List.filter_cons_of_neg (by simp)]
      rw [List.filter_eq_self.2]
      intro x hx; simp; rintro rfl; exact hn.1 hx
    · next h =>
      have e : keys ((a, b) :: erase l k) = a :: keys (erase l k) := rfl
      rw [e, e2, ih hn.2, List.filter_cons_of_pos (by simpa using fun e => h e.symm)]

theorem lookup_erase (l : List (K × V)) (k k' : K) (hn : (keys l).Nodup) :
    lookup (erase l k') k = if k = k' then none else lookup l k := by
  induction l with
  | nil => simp [erase, lookup]
  | cons p l ih =>
    obtain ⟨a, b⟩ := p
    have e2 : keys ((a, b) :: l) = a :: keys l := rfl
    rw [e2, List.nodup_cons] at hn
    simp only [erase]
    split
    · next h =>
      subst h
      simp only [lookup]
      split
      · next h2 => subst h2; exact (lookup_eq_none _ _).2 hn.1
      · rfl
    · next h =>
      simp only [lookup, ih hn.2]
      split
      · next h2 => subst h2; rw [if_neg (fun e => h e.symm)]
      · rfl

/-- The pool agrees with the history `h` (most recent first). -/
structure Agrees (mk : Option V) (s : State K V) (h : List (Op K V)) : Prop where
  nodup : (keys s.items).Nodup
  value : ∀ k, lookup s.items k = valueOf mk h k
  order : keys s.items = orderOf mk h

theorem agrees_init (mk : Option V) : Agrees (K := K) mk init [] :=
  ⟨by simp [init, keys], by simp [init, lookup, valueOf], by simp [init, keys, orderOf]⟩

theorem nodup_assign {l : List (K × V)} (k : K) (v : V) (h : (keys l).Nodup) :
    (keys (assign l k v)).Nodup := by
  rw [keys_assign]
  split
  · exact h
  · next hk =>
    rw [List.nodup_append]
    refine ⟨h, by simp, ?_⟩
    intro a ha b hb
    simp at hb; subst hb; rintro rfl; exact hk ha

theorem valueOf_isSome_iff {mk : Option V} {s : State K V} {h : List (Op K V)} (ha : Agrees mk s h) (k : K) :
    (valueOf mk h k).isSome ↔ k ∈ keys s.items := by
  rw [← ha.value, lookup_isSome]

theorem agrees_assign {mk : Option V} {s : State K V} {h : List (Op K V)} (ha : Agrees mk s h)
    (k : K) (v : V) (p : Int) (op : Op K V)
    (hv : ∀ k', valueOf mk (op :: h) k' = if k' = k then some v else valueOf mk h k')
    (ho : orderOf mk (op :: h) = if (valueOf mk h k).isSome then orderOf mk h else orderOf mk h ++ [k]) :
    Agrees mk ⟨assign s.items k v, p⟩ (op :: h) := by
  refine ⟨nodup_assign k v ha.nodup, ?_, ?_⟩
  · intro k'; rw [lookup_assign, hv, ha.value]
  · rw [keys_assign, ho, ← ha.order]
    simp only [valueOf_isSome_iff ha]

theorem agrees_ptr {mk : Option V} {s : State K V} {h : List (Op K V)} (ha : Agrees mk s h) (p : Int) :
    Agrees mk { s with ptr := p } h := ⟨ha.nodup, ha.value, ha.order⟩

theorem agrees_noop {mk : Option V} {s : State K V} {h : List (Op K V)} (ha : Agrees mk s h) (op : Op K V)
    (hv : ∀ k', valueOf mk (op :: h) k' = valueOf mk h k') (ho : orderOf mk (op :: h) = orderOf mk h) :
    Agrees mk s (op :: h) := ⟨ha.nodup, fun k => by rw [hv, ha.value], by rw [ho, ha.order]⟩

theorem agrees_step {mk : Option V} {s : State K V} {h : List (Op K V)} (ha : Agrees mk s h) (op : Op K V) :
    Agrees mk (step mk s op).1 (op :: h) := by
  cases op with
  | get k =>
    simp only [step, get]
    cases hl : lookup s.items k with
    | some v =>
      have hk := ha.value k
      rw [hl] at hk
      refine agrees_noop ha _ ?_ ?_
      · intro k'
        simp only [valueOf]
        split
        · next e => subst e; rw [← hk]
        · rfl
      · simp [orderOf, ← hk]
    | none =>
      have hk := ha.value k
      rw [hl] at hk
      cases mk with
      | none =>
        refine agrees_noop ha _ ?_ ?_
        · intro k'
          simp only [valueOf]
          split
          · next e => subst e; rw [← hk]
          · rfl
        · simp [orderOf]
      | some v =>
        refine agrees_assign ha k v s.ptr _ ?_ ?_
        · intro k'
          simp only [valueOf]
          split
          · next e => subst e; rw [← hk]
          · rfl
        · simp [orderOf, ← hk]
  | add k v => exact agrees_assign ha k v s.ptr _ (fun _ => rfl) rfl
  | setItem k v => exact agrees_assign ha k v s.ptr _ (fun _ => rfl) rfl
  | num => exact agrees_noop ha _ (fun _ => rfl) rfl
  | keyList => exact agrees_noop ha _ (fun _ => rfl) rfl
  | delete k =>
    simp only [step, delete]
    cases hl : lookup s.items k with
    | some v =>
      refine ⟨?_, ?_, ?_⟩
      · simp only [keys_erase _ _ ha.nodup]; exact ha.nodup.filter _
      · intro k'; simp only [lookup_erase _ _ _ ha.nodup, valueOf, ha.value]
      · simp only [keys_erase _ _ ha.nodup, orderOf, ha.order]
    | none =>
      have hk := (lookup_eq_none _ _).1 hl
      refine ⟨ha.nodup, ?_, ?_⟩
      · intro k'
        simp only [valueOf]
        split
        · next e => subst e; exact hl
        · exact ha.value k'
      · simp only [orderOf, ← ha.order]
        rw [List.filter_eq_self.2]
        intro x hx; simp; rintro rfl; exact hk hx
  | clear => exact ⟨by simp [step, keys], by simp [step, lookup, valueOf], by simp [step, keys, orderOf]⟩
  | exists_ k => exact agrees_noop ha _ (fun _ => rfl) rfl
  | first =>
    have : (step mk s .first).1.items = s.items := by simp only [step, first]; split <;> rfl
    have h2 := agrees_noop ha .first (fun _ => rfl) rfl
    exact ⟨by rw [this]; exact h2.nodup, by rw [this]; exact h2.value, by rw [this]; exact h2.order⟩
  | last =>
    have : (step mk s .last).1.items = s.items := by simp only [step, last]; split <;> rfl
    have h2 := agrees_noop ha .last (fun _ => rfl) rfl
    exact ⟨by rw [this]; exact h2.nodup, by rw [this]; exact h2.value, by rw [this]; exact h2.order⟩
  | next =>
    have : (step mk s .next).1.items = s.items := by simp only [step, next]; split <;> rfl
    have h2 := agrees_noop ha .next (fun _ => rfl) rfl
    exact ⟨by rw [this]; exact h2.nodup, by rw [this]; exact h2.value, by rw [this]; exact h2.order⟩
  | prev =>
    have : (step mk s .prev).1.items = s.items := by simp only [step, prev]; split <;> rfl
    have h2 := agrees_noop ha .prev (fun _ => rfl) rfl
    exact ⟨by rw [this]; exact h2.nodup, by rw [this]; exact h2.value, by rw [this]; exact h2.order⟩
  | getItem k => exact agrees_noop ha _ (fun _ => rfl) rfl

theorem agrees_run {mk : Option V} {s : State K V} {h : List (Op K V)} (ha : Agrees mk s h)
    (ops : List (Op K V)) : Agrees mk (runS (step mk) s ops) (ops.reverse ++ h) := by
  induction ops generalizing s h with
  | nil => simpa using ha
  | cons o os ih => simpa using ih (agrees_step ha o)

omit [DecidableEq K] in
theorem keys_length (l : List (K × V)) : (keys l).length = l.length := by simp [keys]

/-- From pointer `i` (a valid position), calling `next` repeatedly yields the following keys, then None. -/
theorem run_next (mk : Option V) (items : List (K × V)) (i n : Nat) (h : i + n + 1 = items.length) :
    run (step mk) ⟨items, i⟩ (List.replicate n .next ++ [.next]) =
      (⟨items, (i + n : Nat)⟩, ((keys items).drop (i + 1)).map .key ++ [.nothing]) := by
  induction n generalizing i with
  | zero =>
    have : (keys items).drop (i + 1) = [] := List.drop_of_length_le (by rw [keys_length]; omega)
    simp only [List.replicate_zero, List.nil_append, run, step, next, this]
    rw [if_neg (by simp; omega)]
    simp
  | succ n ih =>
    have hlt : i + 1 < (keys items).length := by rw [keys_length]; omega
    simp only [List.replicate_succ, List.cons_append, run, step, next]
    rw [if_pos (by omega)]
    have e : ((i : Int) + 1) = ((i + 1 : Nat) : Int) := by omega
    simp only [e]
    rw [ih (i + 1) (by omega)]
    have hk : keyAt (⟨items, ((i + 1 : Nat) : Int)⟩ : State K V) ((i + 1 : Nat) : Int) = .key (keys items)[i + 1] := by
      simp only [keyAt]
      rw [if_pos (by omega)]
      simp only [Int.toNat_natCast, List.getElem?_eq_getElem hlt]
    simp only [hk]
    rw [List.drop_eq_getElem_cons hlt]
    have e3 : i + 1 + n = i + (n + 1) := by omega
    rw [e3]; rfl

theorem run_prev (mk : Option V) (items : List (K × V)) (i : Nat) (h : i < items.length) :
    run (step mk) ⟨items, i⟩ (List.replicate i .prev ++ [.prev]) =
      (⟨items, 0⟩, (((keys items).take i).reverse).map .key ++ [.nothing]) := by
  induction i with
  | zero => simp [run, step, prev]
  | succ i ih =>
    have hlt : i < (keys items).length := by rw [keys_length]; omega
    simp only [List.replicate_succ, List.cons_append, run, step, prev]
    rw [if_pos (by omega)]
    have e : (((i + 1 : Nat) : Int) - 1) = (i : Int) := by omega
    simp only [e]
    rw [ih (by omega)]
    have hk : keyAt (⟨items, (i : Int)⟩ : State K V) (i : Int) = .key (keys items)[i] := by
      simp only [keyAt]
      rw [if_pos (by omega)]
      simp only [Int.toNat_natCast, List.getElem?_eq_getElem hlt]
    simp only [hk]
    rw [List.take_succ_eq_append_getElem hlt, List.reverse_append]
    rfl

end Verif.Pool
