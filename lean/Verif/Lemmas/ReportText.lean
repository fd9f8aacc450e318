import Verif.Spec.ReportText
import Verif.Lemmas.Pool
/-!
# Lemmas: splitting texts, the pointer of a pool
-/
namespace Verif.ReportText
open Verif.Pool (keys lookup assign)

/-- A text is split at the first place of a character in one way. -/
theorem split_first {c : Char} : ∀ {a a' b b' : Txt}, c ∉ a → c ∉ a' → a ++ c :: b = a' ++ c :: b' → a = a' ∧ b = b'
  | [], [], _, _, _, _, h => ⟨rfl, by simpa using h⟩
  | [], x :: a', b, b', _, h2, h => by
    simp only [List.nil_append, List.cons_append, List.cons.injEq] at h
    exact absurd (h.1 ▸ List.mem_cons_self) h2
  | x :: a, [], b, b', h1, _, h => by
    simp only [List.nil_append, List.cons_append, List.cons.injEq] at h
    exact absurd (h.1 ▸ List.mem_cons_self) h1
  | x :: a, y :: a', b, b', h1, h2, h => by
    simp only [List.cons_append, List.cons.injEq] at h
    obtain ⟨e1, e2⟩ := split_first (fun hm => h1 (List.mem_cons_of_mem _ hm)) (fun hm => h2 (List.mem_cons_of_mem _ hm)) h.2
    exact ⟨by rw [h.1, e1], e2⟩

variable {K : Type} [DecidableEq K]

theorem next_at (items : List (K × Nat)) (k : Nat) (h : k < items.length) :
    Pool.next ⟨items, (k : Int) - 1⟩ = (⟨items, (k : Int)⟩, .key ((keys items)[k]'(by simp [keys, h]))) := by
  have h1 : ((k : Int) - 1) < (items.length : Int) - 1 := by omega
  have h2 : (k : Int) - 1 + 1 = k := by omega
  have h3 : (keys items)[k]? = some ((keys items)[k]'(by simp [keys, h])) := List.getElem?_eq_getElem _
  simp only [Pool.next, if_pos h1, Pool.keyAt, h2]
  rw [if_pos (by omega), Int.toNat_natCast, h3]

/-- The loop gives what is behind the pointer, and leaves the pointer at the end. -/
theorem collect_spec (items : List (K × Nat)) : ∀ (n k : Nat), k ≤ items.length → items.length - k < n →
    collect n ⟨items, (k : Int) - 1⟩ = (⟨items, (items.length : Int) - 1⟩, (keys items).drop k) := by
  intro n
  induction n with
  | zero => intro k _ h; omega
  | succ n ih =>
    intro k hk hn
    by_cases h : k < items.length
    · have hl : k < (keys items).length := by simp [keys, h]
      have e := ih (k + 1) h (by omega)
      have e' : ((k + 1 : Nat) : Int) - 1 = (k : Int) := by omega
      rw [e'] at e
      simp only [collect, next_at items k h, e]
      rw [List.drop_eq_getElem_cons hl]
    · have hk' : k = items.length := by omega
      subst hk'
      have : Pool.next (⟨items, (items.length : Int) - 1⟩ : Pool.State K Nat) = (⟨items, (items.length : Int) - 1⟩, .nothing) := by
        simp [Pool.next]
      simp only [collect, this]
      simp [keys]

theorem getSet_spec (items : List (K × Nat)) (k : Nat) (hk : k ≤ items.length) :
    getSet ⟨items, (k : Int) - 1⟩ = (⟨items, (items.length : Int) - 1⟩, (keys items).drop k) :=
  collect_spec items _ k hk (by show items.length - k < items.length + 1; omega)

theorem keys_incr (p : Pool.State K Nat) (k : K) : keys (incr p k).items = if k ∈ keys p.items then keys p.items else keys p.items ++ [k] := by
  unfold incr
  split <;> exact Pool.keys_assign _ _ _

theorem ptr_incr (p : Pool.State K Nat) (k : K) : (incr p k).ptr = p.ptr := by
  unfold incr; split <;> rfl

theorem lookup_incr (p : Pool.State K Nat) (k x : K) :
    (lookup (incr p k).items x).getD 0 = (lookup p.items x).getD 0 + (if k = x then 1 else 0) := by
  unfold incr
  split
  · rename_i v h
    rw [Pool.lookup_assign]
    by_cases hx : x = k
    · subst hx; simp [h]
    · simp [hx, Ne.symm hx]
  · rename_i h
    rw [Pool.lookup_assign]
    by_cases hx : x = k
    · subst hx; simp [h]
    · simp [hx, Ne.symm hx]

theorem length_incr (p : Pool.State K Nat) (k : K) : p.items.length ≤ (incr p k).items.length := by
  have h := keys_incr p k
  have e1 : (keys (incr p k).items).length = (incr p k).items.length := by simp [keys]
  have e2 : (keys p.items).length = p.items.length := by simp [keys]
  rw [← e1, ← e2, h]
  by_cases hk : k ∈ keys p.items
  · rw [if_pos hk]; exact Nat.le_refl _
  · rw [if_neg hk]; simp

theorem nodup_incr (p : Pool.State K Nat) (k : K) (h : (keys p.items).Nodup) : (keys (incr p k).items).Nodup := by
  unfold incr; split <;> exact Pool.nodup_assign _ _ h

/-- The first keys do not change. -/
theorem take_incr (p : Pool.State K Nat) (k : K) (n : Nat) (h : n ≤ p.items.length) : (keys (incr p k).items).take n = (keys p.items).take n := by
  rw [keys_incr]
  split
  · rfl
  · rw [List.take_append_of_le_length (by simpa [keys] using h)]

end Verif.ReportText
