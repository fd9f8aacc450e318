import Verif.Lemmas.Pool
/-! # C02: UVMPool is a finite map in insertion order -/
namespace Verif.Pool
variable {K V : Type} [DecidableEq K]

/-- C02. After every history of calls, `exists`, `get` and `[]` report exactly the value the
history stored (`valueOf`), for typed (`mk = some _`) and untyped pools. -/
theorem C02_pool_reports_last_store (mk : Option V) (ops : List (Op K V)) (k : K) :
    let s := runS (step mk) init ops
    let stored := valueOf mk ops.reverse k
    (step mk s (.exists_ k)).2 = .bool stored.isSome ∧
    (step mk s (.get k)).2 = (match stored, mk with
      | some v, _ => .val v
      | none, some v => .val v
      | none, none => .nothing) ∧
    (step mk s (.getItem k)).2 = (match stored with | some v => .val v | none => .raised) := by
  have ha := agrees_run (agrees_init (K := K) mk) ops
  simp only [List.append_nil] at ha
  have hv := ha.value k
  refine ⟨?_, ?_, ?_⟩
  · simp only [step, hv]
  · simp only [step, get, hv]
    cases valueOf mk ops.reverse k <;> cases mk <;> rfl
  · simp only [step, hv]
    cases valueOf mk ops.reverse k <;> rfl

/-- C02. `num()` counts the live keys, each once, and `key_list()` lists exactly the live keys,
without duplicates, in insertion order. -/
theorem C02_pool_keys_in_insertion_order (mk : Option V) (ops : List (Op K V)) :
    let s := runS (step mk) init ops
    ∃ l : List K, (step mk s .keyList).2 = .keys l ∧ (step mk s .num).2 = .nat l.length ∧ l.Nodup ∧
      l = orderOf mk ops.reverse ∧ ∀ k, k ∈ l ↔ (valueOf mk ops.reverse k).isSome := by
  have ha := agrees_run (agrees_init (K := K) mk) ops
  simp only [List.append_nil] at ha
  exact ⟨_, rfl, rfl, ha.nodup, ha.order, fun k => (valueOf_isSome_iff ha k).symm⟩

/-- C02. After every history that leaves `n + 1` keys, `first()` followed by `next()` calls
enumerates every live key exactly once in insertion order and then reports the end. -/
theorem C02_pool_first_next_enumerates (mk : Option V) (ops : List (Op K V)) (n : Nat)
    (hn : (orderOf mk ops.reverse).length = n + 1) :
    (run (step mk) (runS (step mk) init ops) (.first :: (List.replicate n .next ++ [.next]))).2 =
      (orderOf mk ops.reverse).map .key ++ [.nothing] := by
  have ha := agrees_run (agrees_init (K := K) mk) ops
  simp only [List.append_nil] at ha
  rw [← ha.order] at hn ⊢
  generalize runS (step mk) init ops = s at ha hn ⊢
  obtain ⟨items, ptr⟩ := s
  cases items with
  | nil => simp [keys] at hn
  | cons p items =>
    obtain ⟨a, b⟩ := p
    have h0 := run_next mk ((a, b) :: items) 0 n (by rw [keys_length] at hn; simp at hn ⊢; omega)
    have hf : step mk (⟨(a, b) :: items, ptr⟩ : State K V) .first = (⟨(a, b) :: items, ((0 : Nat) : Int)⟩, .key a) := rfl
    simp only [run, hf, h0]
    simp [keys]

/-- C02. Symmetrically `last()` followed by `prev()` calls enumerates the keys in reverse order. -/
theorem C02_pool_last_prev_enumerates (mk : Option V) (ops : List (Op K V)) (n : Nat)
    (hn : (orderOf mk ops.reverse).length = n + 1) :
    (run (step mk) (runS (step mk) init ops) (.last :: (List.replicate n .prev ++ [.prev]))).2 =
      (orderOf mk ops.reverse).reverse.map .key ++ [.nothing] := by
  have ha := agrees_run (agrees_init (K := K) mk) ops
  simp only [List.append_nil] at ha
  rw [← ha.order] at hn ⊢
  generalize runS (step mk) init ops = s at ha hn ⊢
  obtain ⟨items, ptr⟩ := s
  simp only at hn ⊢
  have hl : items.length = n + 1 := by rw [keys_length] at hn; exact hn
  have hlt : n < (keys items).length := by rw [keys_length]; omega
  have h0 := run_prev mk items n (by omega)
  have hg : (keys items).getLast? = some (keys items)[n] := by
    rw [List.getLast?_eq_getElem?, hn]; simp [hlt]
  have hf : step mk (⟨items, ptr⟩ : State K V) .last = (⟨items, (n : Int)⟩, .key (keys items)[n]) := by
    simp only [step, last, hg, hl]; simp
  simp only [run, hf, h0]
  have : keys items = (keys items).take n ++ [(keys items)[n]] := by
    rw [← List.take_succ_eq_append_getElem hlt, List.take_of_length_le (by omega)]
  conv => rhs; rw [this, List.reverse_append]
  rfl

/-- C02. `first()`/`last()` on an empty pool report False and do not touch the pool. -/
theorem C02_pool_empty_enumeration (mk : Option V) (ptr : Int) :
    step mk (⟨[], ptr⟩ : State K V) .first = (⟨[], ptr⟩, .false) ∧
    step mk (⟨[], ptr⟩ : State K V) .last = (⟨[], ptr⟩, .false) := ⟨rfl, rfl⟩

/-- C85 fails for `UVMObjectStringPool.delete`: deleting a key that exists never completes, whatever
recursion depth is available (the method calls itself), so the entry cannot be deleted. -/
theorem C85_string_pool_delete_fails (s : State K V) (k : K) (hk : k ∈ keys s.items) (fuel : Nat) :
    sdelete fuel s k = none := by
  have h : (lookup s.items k).isSome := (lookup_isSome _ _).2 hk
  obtain ⟨v, hv⟩ := Option.isSome_iff_exists.1 h
  induction fuel with
  | zero => rfl
  | succ n ih => simp [sdelete, hv, ih]

/-- C85. Getting a key from a `UVMObjectStringPool` always yields an object, the same one on every later get. -/
theorem C85_string_pool_get_stable (mk : K → V) (s : State K V) (k : K) :
    ∃ v, (sget mk s k).2 = .val v ∧ sget mk (sget mk s k).1 k = ((sget mk s k).1, .val v) ∧
      (∀ w, lookup s.items k = some w → v = w) ∧
      lookup (sget mk s k).1.items k = some v ∧
      (∀ k', k' ≠ k → lookup (sget mk s k).1.items k' = lookup s.items k') := by
  cases hl : lookup s.items k with
  | some v => exact ⟨v, by simp [sget, hl], by simp [sget, hl], by simp, by simp [sget, hl], by simp [sget, hl]⟩
  | none =>
    refine ⟨mk k, by simp [sget, hl], ?_, by simp, ?_, ?_⟩
    · simp [sget, hl, lookup_assign]
    · simp [sget, hl, lookup_assign]
    · intro k' hk'; simp [sget, hl, lookup_assign, hk']

-- Non-vacuity.
def sampleOps : List (Op Nat String) :=
  [.add 3 "a", .add 1 "b", .setItem 3 "c", .add 2 "d", .delete 1, .get 7, .add 1 "e", .next]

example : orderOf none sampleOps.reverse = [3, 2, 1] ∧ valueOf none sampleOps.reverse 3 = some "c" := by decide
example : (orderOf none sampleOps.reverse).length = 2 + 1 := by decide
example : (run (step none) (runS (step none) init sampleOps) [.first, .next, .next, .next]).2 =
    [.key 3, .key 2, .key 1, .nothing] := by decide
example : orderOf (some "x") sampleOps.reverse = [3, 2, 7, 1] := by decide
example : 3 ∈ keys (runS (step none) init sampleOps).items := by decide

/-- Observation (not a guarantee the pool gives): deleting the current key while
iterating skips the following key. -/
theorem C02_pool_delete_during_iteration_skips :
    (run (step (none : Option Nat)) (runS (step none) init [.add 1 0, .add 2 0, .add 3 0])
      [.first, .delete 1, .next]).2 = [.key 1, .unit, .key 3] := by decide

end Verif.Pool
