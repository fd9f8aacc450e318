import Verif.Spec.MemTests
import Verif.Props.Mem
import Verif.Props.RegTests
namespace Verif.MemTests
open Verif

theorem perform_append {σ} (d : Plain σ) (n : Nat) (s : σ) (l1 l2 : List Step) :
    perform d n s (l1 ++ l2) = ((perform d n (perform d n s l1).1 l2).1, (perform d n s l1).2 ++ (perform d n (perform d n s l1).1 l2).2) := by
  induction l1 generalizing s with
  | nil => rfl
  | cons x l ih =>
    cases x with
    | write k v => simp only [List.cons_append, perform]; exact ih _
    | expect k =>
      simp only [List.cons_append, perform, ih]
      split <;> rfl

/-- The steps of one round. -/
def round (size k : Nat) : List Step :=
  [.write k (-(k : Int) - 1)] ++
    (if k = 0 then [] else [.expect (k - 1), .write (k - 1) ((k : Int) - 1)]) ++
    (if k + 1 = size then [.expect k] else [])

theorem walkFirst_plain {σ} (d : Plain σ) (size n k : Nat) (t : σ × List Rep) :
    walkFirst (d.mem size n) k t = some ((perform d n t.1 [.write k (-(k : Int) - 1)]).1, t.2 ++ (perform d n t.1 [.write k (-(k : Int) - 1)]).2) := by
  simp [walkFirst, Plain.mem, perform, inv]

theorem walkRead_plain {σ} (d : Plain σ) (size n k : Nat) (t : σ × List Rep) :
    walkRead (d.mem size n) k t = some ((perform d n t.1 [.expect k]).1, t.2 ++ (perform d n t.1 [.expect k]).2) := by
  simp only [walkRead, Plain.mem, perform, expected, inv]
  by_cases h : (d.read t.1 k).2 = (-(k : Int) - 1) % 2 ^ n <;> simp [h]

theorem walkSecond_plain {σ} (d : Plain σ) (size n k : Nat) (t : σ × List Rep) :
    walkSecond (d.mem size n) k t = some ((perform d n t.1 [.write k (k : Int)]).1, t.2 ++ (perform d n t.1 [.write k (k : Int)]).2) := by
  simp [walkSecond, Plain.mem, perform]

theorem walkWord_plain {σ} (d : Plain σ) (size n k : Nat) (t : σ × List Rep) :
    walkWord (d.mem size n) k t = some ((perform d n t.1 (round size k)).1, t.2 ++ (perform d n t.1 (round size k)).2) := by
  have hb : ∀ t : σ × List Rep, walkBefore (d.mem size n) t k =
      some ((perform d n t.1 (if k = 0 then [] else [.expect (k - 1), .write (k - 1) ((k : Int) - 1)])).1,
        t.2 ++ (perform d n t.1 (if k = 0 then [] else [.expect (k - 1), .write (k - 1) ((k : Int) - 1)])).2) := by
    intro t
    cases k with
    | zero => simp [walkBefore, perform]
    | succ j =>
      have e : [Step.expect j, .write j (j : Int)] = [Step.expect j] ++ [.write j (j : Int)] := rfl
      simp only [walkBefore, walkRead_plain, Option.bind_eq_bind, Option.bind_some, walkSecond_plain]
      rw [if_neg (by omega)]
      simp only [Nat.add_sub_cancel, show ((j + 1 : Nat) : Int) - 1 = (j : Int) by omega]
      rw [e, perform_append]
      simp
  simp only [walkWord, walkFirst_plain, Option.bind_eq_bind, Option.bind_some, hb, round, perform_append]
  by_cases h : k + 1 = size
  · rw [if_pos (by exact h), if_pos h, walkRead_plain]; simp
  · rw [if_neg (by exact h), if_neg h]; simp [perform]

theorem walkTo_plain {σ} (d : Plain σ) (size n m : Nat) (t : σ × List Rep) :
    walkTo (d.mem size n) t m = some ((perform d n t.1 ((List.range m).flatMap (round size))).1,
      t.2 ++ (perform d n t.1 ((List.range m).flatMap (round size))).2) := by
  induction m with
  | zero => simp [walkTo, perform]
  | succ m ih =>
    rw [walkTo, ih]
    simp only [Option.bind_eq_bind, Option.bind_some, walkWord_plain, List.range_succ, List.flatMap_append, perform_append]
    simp [List.flatMap_cons]

/-- C160. On any memory whose accesses complete, the walk test performs exactly the accesses its documentation lists, in that order, and
reports exactly those reads that did not give the value expected there. -/
theorem C160_walk {σ} (d : Plain σ) (size n : Nat) (s : σ) (reps : List Rep) :
    walk (d.mem size n) (s, reps) = some ((perform d n s (documented size)).1, reps ++ (perform d n s (documented size)).2) :=
  walkTo_plain d size n size (s, reps)

example : documented 3 = [.write 0 (-1), .write 1 (-2), .expect 0, .write 0 0, .write 2 (-3), .expect 1, .write 1 1, .expect 2] := by decide

/-! ## Sound memories -/

theorem walkFirst_sound {σ} {m : MemIf σ} {holds : σ → Nat → Int → Prop} (M : Sound m holds) (k : Nat) (hk : k < m.size) (s : σ) (reps : List Rep) :
    ∃ s', walkFirst m k (s, reps) = some (s', reps) ∧ holds s' k (expected m.nBits k) ∧
      ∀ j u, j < m.size → j ≠ k → holds s j u → holds s' j u := by
  obtain ⟨s', e, h1, h2⟩ := M.write s k (inv k) hk
  exact ⟨s', by simp [walkFirst, e], h1, h2⟩

theorem walkRead_sound {σ} {m : MemIf σ} {holds : σ → Nat → Int → Prop} (M : Sound m holds) (k : Nat) (hk : k < m.size) (s : σ) (reps : List Rep)
    (h : holds s k (expected m.nBits k)) :
    ∃ s', walkRead m k (s, reps) = some (s', reps) ∧ ∀ j u, j < m.size → holds s j u → holds s' j u := by
  obtain ⟨s', e, h1⟩ := M.read s k _ hk h
  exact ⟨s', by simp [walkRead, e], h1⟩

theorem walkSecond_sound {σ} {m : MemIf σ} {holds : σ → Nat → Int → Prop} (M : Sound m holds) (k : Nat) (hk : k < m.size) (s : σ) (reps : List Rep) :
    ∃ s', walkSecond m k (s, reps) = some (s', reps) ∧ holds s' k ((k : Int) % 2 ^ m.nBits) ∧
      ∀ j u, j < m.size → j ≠ k → holds s j u → holds s' j u := by
  obtain ⟨s', e, h1, h2⟩ := M.write s k k hk
  exact ⟨s', by simp [walkSecond, e], h1, h2⟩

theorem walkTo_sound {σ} {m : MemIf σ} {holds : σ → Nat → Int → Prop} (M : Sound m holds) (s : σ) (reps : List Rep) (i : Nat) (hi : i < m.size) :
    ∃ s', walkTo m (s, reps) (i + 1) = some (s', reps) ∧ holds s' i (expected m.nBits i) ∧
      ∀ j, j < i → holds s' j ((j : Int) % 2 ^ m.nBits) := by
  have last : ∀ s1 i, i < m.size → holds s1 i (expected m.nBits i) → ∃ s2, (if i + 1 = m.size then walkRead m i (s1, reps) else return (s1, reps)) =
      some (s2, reps) ∧ ∀ j u, j < m.size → holds s1 j u → holds s2 j u := by
    intro s1 i hi h
    split
    · exact walkRead_sound M i hi s1 reps h
    · exact ⟨s1, rfl, fun _ _ _ h => h⟩
  induction i with
  | zero =>
    obtain ⟨s1, e1, h1, -⟩ := walkFirst_sound M 0 hi s reps
    obtain ⟨s2, e2, k2⟩ := last s1 0 hi h1
    refine ⟨s2, ?_, k2 _ _ hi h1, by omega⟩
    simp only [walkTo, Option.bind_eq_bind, Option.bind_some, walkWord, e1, walkBefore]
    exact e2
  | succ i ih =>
    obtain ⟨s0, e0, h0, l0⟩ := ih (by omega)
    obtain ⟨s1, e1, h1, k1⟩ := walkFirst_sound M (i + 1) hi s0 reps
    obtain ⟨s2, e2, k2⟩ := walkRead_sound M i (by omega) s1 reps (k1 _ _ (by omega) (by omega) h0)
    obtain ⟨s3, e3, h3, k3⟩ := walkSecond_sound M i (by omega) s2 reps
    have h4 : holds s3 (i + 1) (expected m.nBits (i + 1)) := k3 _ _ hi (by omega) (k2 _ _ hi h1)
    obtain ⟨s4, e4, k4⟩ := last s3 (i + 1) hi h4
    refine ⟨s4, ?_, k4 _ _ hi h4, ?_⟩
    · rw [walkTo, e0]
      simp only [Option.bind_eq_bind, Option.bind_some, walkWord, e1, walkBefore, e2, e3]
      exact e4
    · intro j hj
      apply k4 _ _ (by omega)
      by_cases hji : j = i
      · subst hji; exact h3
      · exact k3 _ _ (by omega) hji (k2 _ _ (by omega) (k1 _ _ (by omega) (by omega) (l0 j (by omega))))

/-- C160. No false alarm: on every memory that keeps what is written to it (whatever else it does), the walk test reports
nothing, and leaves `k` in every word but the last, which holds `~k`. -/
theorem C160_sound {σ} (m : MemIf σ) (holds : σ → Nat → Int → Prop) (M : Sound m holds) (hs : 0 < m.size) (s : σ) (reps : List Rep) :
    ∃ s', walk m (s, reps) = some (s', reps) ∧ holds s' (m.size - 1) ((-((m.size - 1 : Nat) : Int) - 1) % 2 ^ m.nBits) ∧
      ∀ k, k + 1 < m.size → holds s' k ((k : Int) % 2 ^ m.nBits) := by
  obtain ⟨s', e, h1, h2⟩ := walkTo_sound M s reps (m.size - 1) (by omega)
  rw [show m.size - 1 + 1 = m.size by omega] at e
  exact ⟨s', e, h1, fun k hk => h2 k (by omega)⟩

/-- A memory of the register model, mapped and with words that fill its bus words, in a device that stores bus words, is sound. -/
theorem ofEnv_sound (c : RegMap.Cfg) (b off n : Nat) (e : Mem.Env (Nat → Nat)) (l : Mem.Local (Nat → Nat)) (M : Mem.Mapped c b off n e l)
    (hw : e.nBits = l.info.1.length * (l.w * 8)) :
    Sound (ofEnv e l) fun s k v => ∃ u : Nat, v = u ∧ u < 2 ^ e.nBits ∧ Mem.Holds l.info.1 l.info.2 l.w s k u := by
  have hn : 1 ≤ n := by have := M.bytes; omega
  obtain ⟨hap, hne, -⟩ := Mem.apart_root c b off e.size n hn M.size M.pos M.endian l.info.1 l.info.2 M.info
  have hp : Mem.resolve e .front = .front := by simp [Mem.resolve]
  constructor
  · intro s k v hk
    obtain ⟨s', e1, e2, e3⟩ := Mem.doWrite_front M.bus M.order M.loc M.fd M.mapped hne hap s
      (vs := [(v % 2 ^ (l.info.1.length * (l.w * 8))).toNat]) (by simp) hk hp (.inl (by simp))
    have hpos : (0 : Int) < 2 ^ (l.info.1.length * (l.w * 8)) := Int.pow_pos (by decide)
    refine ⟨s', by simp [ofEnv, Mem.write, e1], ⟨(v % 2 ^ (l.info.1.length * (l.w * 8))).toNat, ?_, ?_, by simpa using e2 0 (by simp)⟩, ?_⟩
    · show v % 2 ^ e.nBits = _
      rw [hw, Int.toNat_of_nonneg (Int.emod_nonneg _ (by omega))]
    · rw [hw]
      have h1 := Int.emod_lt_of_pos v hpos
      have h2 := Int.emod_nonneg v (show (2 : Int) ^ (l.info.1.length * (l.w * 8)) ≠ 0 by omega)
      have : ((v % 2 ^ (l.info.1.length * (l.w * 8))).toNat : Int) < ((2 ^ (l.info.1.length * (l.w * 8)) : Nat) : Int) := by
        rw [Int.toNat_of_nonneg h2]; simpa using h1
      exact_mod_cast this
    · rintro j u hj hjk ⟨u', rfl, hu, hh⟩
      refine ⟨u', rfl, hu, ?_⟩
      intro i hi
      rw [e3, hh i hi]
      intro i' x hi' hx
      have hx0 : x = 0 := by simpa using hx
      subst hx0
      intro heq
      have := (hap i i' j (k + 0) hi hi' heq).2
      omega
  · rintro s k u hk ⟨u', rfl, hu, hh⟩
    obtain ⟨v, sm, f1, f2⟩ := Mem.read_front M.bus M.order M.loc M.fd M.mapped (by rw [M.width]; exact M.pos) hne s hk hp
    refine ⟨s, ?_, fun _ _ _ h => h⟩
    rw [hw] at hu
    have := f2 u' hu hh
    subst this
    simp [ofEnv, f1]

/-- C160. So the walk test passes on every memory of the register model that is mapped in a root map, on every bus width and in both byte orders,
with any order of the bus accesses, whatever its contents were. -/
theorem C160_mapped (c : RegMap.Cfg) (b off n : Nat) (e : Mem.Env (Nat → Nat)) (l : Mem.Local (Nat → Nat)) (M : Mem.Mapped c b off n e l)
    (hw : e.nBits = l.info.1.length * (l.w * 8)) (s : Nat → Nat) : ∃ s', walk (ofEnv e l) (s, []) = some (s', []) := by
  obtain ⟨s', h, -⟩ := C160_sound _ _ (ofEnv_sound c b off n e l M hw) (by have := M.size; exact Nat.lt_of_lt_of_le (by decide) this) s []
  exact ⟨s', h⟩

example : Mem.env4.nBits = Mem.loc4.info.1.length * (Mem.loc4.w * 8) := by decide

/-! ## Faulty memories -/

/-- One cell changed. -/
def set (s : Nat → Int) (i : Nat) (v : Int) : Nat → Int := fun c => if c = i then v else s c

section
variable (size n : Nat) (a b : Nat → Nat) (f : Nat → Int → Int)

theorem first_array (k : Nat) (t : (Nat → Int) × List Rep) :
    walkFirst (array size n a b f) k t = some (set t.1 (a k) (f (a k) (expected n k)), t.2) := rfl

/-- What a read of word `k` that gives `v` is reported with. -/
def judge (k : Nat) (v : Int) : List Rep := if v = expected n k then [] else [.mismatch k v (expected n k)]

theorem read_array (k : Nat) (t : (Nat → Int) × List Rep) :
    walkRead (array size n a b f) k t = some (t.1, t.2 ++ judge n k (t.1 (a k))) := by
  simp only [walkRead, array, judge]
  by_cases h : t.1 (a k) = expected n k <;> simp [h]

theorem second_array (k : Nat) (t : (Nat → Int) × List Rep) :
    walkSecond (array size n a b f) k t = some (set t.1 (a k) (f (a k) ((k : Int) % 2 ^ n)), t.2) := rfl

theorem word_zero (t : (Nat → Int) × List Rep) :
    walkWord (array size n a b f) 0 t =
      let s1 := set t.1 (a 0) (f (a 0) (expected n 0))
      some (s1, t.2 ++ if 1 = size then judge n 0 (s1 (a 0)) else []) := by
  simp only [walkWord, first_array, Option.bind_eq_bind, Option.bind_some, walkBefore, read_array]
  by_cases h : 1 = size
  · rw [if_pos (by exact h), if_pos h]
  · rw [if_neg (by exact h), if_neg h]; simp

theorem word_succ (j : Nat) (t : (Nat → Int) × List Rep) :
    walkWord (array size n a b f) (j + 1) t =
      let s1 := set t.1 (a (j + 1)) (f (a (j + 1)) (expected n (j + 1)))
      let s2 := set s1 (a j) (f (a j) ((j : Int) % 2 ^ n))
      some (s2, t.2 ++ judge n j (s1 (a j)) ++ if j + 2 = size then judge n (j + 1) (s2 (a (j + 1))) else []) := by
  simp only [walkWord, first_array, Option.bind_eq_bind, Option.bind_some, walkBefore, read_array, second_array]
  by_cases h : j + 2 = size
  · rw [if_pos (by exact h), if_pos h]
  · rw [if_neg (by exact h), if_neg h]; simp
end

/-- Words `0 .. m-1` and what each is reported with when its cell makes `f` of what is stored there. -/
def verdicts (n : Nat) (f : Nat → Int → Int) (m : Nat) : List Rep := (List.range m).flatMap fun k => judge n k (f k (expected n k))

theorem verdicts_succ (n : Nat) (f : Nat → Int → Int) (m : Nat) :
    verdicts n f (m + 1) = verdicts n f m ++ judge n m (f m (expected n m)) := by
  simp [verdicts, List.range_succ, List.flatMap_append, List.flatMap_cons]

theorem walk_store (size n : Nat) (b : Nat → Nat) (f : Nat → Int → Int) (s : Nat → Int) (reps : List Rep) (m : Nat) (hm : m < size) :
    ∃ s', walkTo (array size n id b f) (s, reps) (m + 1) =
        some (s', reps ++ verdicts n f (if m + 1 = size then m + 1 else m)) ∧
      s' m = f m (expected n m) ∧ (∀ j, j < m → s' j = f j ((j : Int) % 2 ^ n)) ∧ (∀ c, m < c → s' c = s c) := by
  induction m with
  | zero =>
    refine ⟨set s 0 (f 0 (expected n 0)), ?_, by simp [set], by omega, by intro c hc; simp [set]; omega⟩
    simp only [walkTo, Option.bind_eq_bind, Option.bind_some, word_zero, id]
    by_cases h : 1 = size
    · simp [← h, set, verdicts]
    · simp [h, verdicts]
  | succ m ih =>
    obtain ⟨s', e, h1, h2, h3⟩ := ih (by omega)
    rw [if_neg (by omega)] at e
    refine ⟨set (set s' (m + 1) (f (m + 1) (expected n (m + 1)))) m (f m ((m : Int) % 2 ^ n)), ?_, by simp [set], ?_, ?_⟩
    · rw [walkTo, e]
      simp only [Option.bind_eq_bind, Option.bind_some, word_succ, id]
      have e1 : (set s' (m + 1) (f (m + 1) (expected n (m + 1)))) m = f m (expected n m) := by
        simp [set, h1]
      have e2 : (set (set s' (m + 1) (f (m + 1) (expected n (m + 1)))) m (f m ((m : Int) % 2 ^ n))) (m + 1) = f (m + 1) (expected n (m + 1)) := by
        simp [set]
      rw [e1, e2]
      by_cases h : m + 2 = size
      · rw [if_pos h, if_pos h, verdicts_succ, verdicts_succ]; simp
      · rw [if_neg h, if_neg h, verdicts_succ]; simp
    · intro j hj
      by_cases hjm : j = m
      · subst hjm; simp [set]
      · simp only [set, hjm, if_false]
        rw [if_neg (by omega)]
        exact h2 j (by omega)
    · intro c hc
      simp only [set]
      rw [if_neg (by omega), if_neg (by omega)]
      exact h3 c (by omega)

/-- C160. On a good memory the walk test reports nothing, and leaves `k` in every word but the last, which holds `~k`. -/
theorem C160_good (size n : Nat) (hs : 0 < size) (s : Nat → Int) (reps : List Rep) :
    ∃ s', walk (good size n) (s, reps) = some (s', reps) ∧ (∀ k, k + 1 < size → s' k = (k : Int) % 2 ^ n) ∧
      s' (size - 1) = (-((size - 1 : Nat) : Int) - 1) % 2 ^ n ∧ (∀ c, size ≤ c → s' c = s c) := by
  obtain ⟨m, rfl⟩ : ∃ m, size = m + 1 := ⟨size - 1, by omega⟩
  obtain ⟨s', e, h1, h2, h3⟩ := walk_store (m + 1) n id (fun _ v => v) s reps m (by omega)
  refine ⟨s', ?_, fun k hk => h2 k (by omega), by simpa [expected, inv] using h1, fun c hc => h3 c (by omega)⟩
  have hv : ∀ m, verdicts n (fun _ v => v) m = [] := by intro m; simp [verdicts, judge]
  have : walk (good (m + 1) n) (s, reps) = _ := e
  rw [this, hv]; simp

/-- C160. The same through all maps in which the memory may be read and written: nothing is reported. -/
theorem C160_good_maps (size n : Nat) (hs : 0 < size) (maps : List Bool) (s : Nat → Int) (reps : List Rep) :
    ∃ s', walkMaps (maps.map fun rw => (rw, good size n)) (s, reps) = some (s', reps) := by
  induction maps generalizing s with
  | nil => exact ⟨s, rfl⟩
  | cons x maps ih =>
    cases x with
    | false => simp only [List.map_cons, walkMaps, Bool.false_eq_true, if_false]; exact ih s
    | true =>
      obtain ⟨s', e, -⟩ := C160_good size n hs s reps
      simp only [List.map_cons, walkMaps, if_true, Option.bind_eq_bind, e, Option.bind_some]
      exact ih s'

/-- C160. Through several maps: the reports of all of them, in order; maps without both rights are left out. -/
theorem C160_maps {σ} (maps : List (Bool × Plain σ)) (size n : Nat) (s : σ) (reps : List Rep) :
    walkMaps (maps.map fun p => (p.1, p.2.mem size n)) (s, reps) =
      some ((maps.filter (·.1)).foldl (fun t p => ((perform p.2 n t.1 (documented size)).1, t.2 ++ (perform p.2 n t.1 (documented size)).2)) (s, reps)) := by
  induction maps generalizing s reps with
  | nil => rfl
  | cons p maps ih =>
    obtain ⟨rw, d⟩ := p
    cases rw with
    | false => simp only [List.map_cons, walkMaps, Bool.false_eq_true, if_false, List.filter_cons]; exact ih s reps
    | true =>
      simp only [List.map_cons, walkMaps, if_true, Option.bind_eq_bind, C160_walk, Option.bind_some, List.filter_cons, List.foldl_cons]
      exact ih _ _

example : (walk (good 3 8) (fun _ => 0, [])).map (fun t => (t.1 0, t.1 1, t.1 2, t.2)) = some (0, 1, 253, []) := by decide +kernel

/-- C160. A memory whose cells spoil what is stored (stuck or missing bits, whatever `f` does): the words reported are exactly those
whose cell does not keep `~k`, with the value it made of it. -/
theorem C160_store_faults (size n : Nat) (hs : 0 < size) (b : Nat → Nat) (f : Nat → Int → Int) (s : Nat → Int) :
    ∃ s' reps, walk (array size n id b f) (s, []) = some (s', reps) ∧
      ∀ r, r ∈ reps ↔ ∃ k, k < size ∧ f k ((-(k : Int) - 1) % 2 ^ n) ≠ (-(k : Int) - 1) % 2 ^ n ∧
        r = .mismatch k (f k ((-(k : Int) - 1) % 2 ^ n)) ((-(k : Int) - 1) % 2 ^ n) := by
  obtain ⟨m, rfl⟩ : ∃ m, size = m + 1 := ⟨size - 1, by omega⟩
  obtain ⟨s', e, -⟩ := walk_store (m + 1) n b f s [] m (by omega)
  refine ⟨s', _, e, fun r => ?_⟩
  simp only [if_true, List.nil_append, verdicts, List.mem_flatMap, List.mem_range, judge, expected, inv]
  constructor
  · rintro ⟨k, hk, hr⟩
    by_cases h : f k ((-(k : Int) - 1) % 2 ^ n) = (-(k : Int) - 1) % 2 ^ n
    · simp [h] at hr
    · exact ⟨k, hk, h, by simpa [h] using hr⟩
  · rintro ⟨k, hk, h, rfl⟩
    exact ⟨k, hk, by simp [h]⟩

/-- A memory of 4 words whose bit 2 is stuck at 0 in word 1. -/
example : (walk (array 4 4 id id fun k v => if k = 1 then v - v % 8 / 4 * 4 else v) (fun _ => 0, [])).map (·.2) = some [.mismatch 1 10 14] := by decide +kernel

/-- C161 fails: a bit stuck at the value it has in `~k` is not found: in word 0, where `~0` has all bits set, no bit stuck at 1 is
ever found, in memories of any size and width. -/
theorem C161_stuck_at_one_fails (size n : Nat) (hs : 0 < size) (g : Int → Int) (hg : g (2 ^ n - 1) = 2 ^ n - 1) (s : Nat → Int) :
    ∃ s', walk (array size n id id fun k v => if k = 0 then g v else v) (s, []) = some (s', []) := by
  obtain ⟨s', reps, e, h⟩ := C160_store_faults size n hs id (fun k v => if k = 0 then g v else v) s
  have : reps = [] := by
    cases hr : reps with
    | nil => rfl
    | cons r rs =>
      obtain ⟨k, hk, hne, -⟩ := (h r).1 (by rw [hr]; simp)
      exfalso
      apply hne
      by_cases h0 : k = 0
      · subst h0
        have e1 : (-((0 : Nat) : Int) - 1) % 2 ^ n = 2 ^ n - 1 := by
          have hp : (0 : Int) < 2 ^ n := Int.pow_pos (by decide)
          have : (-((0 : Nat) : Int) - 1) = (2 ^ n - 1) + 2 ^ n * (-1) := by
            rw [Int.mul_neg, Int.mul_one]; simp; omega
          rw [this, Int.add_mul_emod_self_left, Int.emod_eq_of_lt (by omega) (by omega)]
        rw [e1, if_pos rfl]; exact hg
      · simp [h0]
  exact ⟨s', by rw [e, this]⟩

/-- All bits of word 0 stuck at 1: nothing is reported. -/
example : (walk (array 3 8 id id fun k v => if k = 0 then 255 else v) (fun _ => 255, [])).map (·.2) = some [] := by decide +kernel

/-! ## Address faults -/

theorem expected_ne (n k : Nat) (hn : 0 < n) : expected n (k + 1) ≠ expected n k := by
  intro h
  have hd : (2 : Int) ^ n ∣ inv (k + 1 : Nat) - inv k := Int.dvd_of_emod_eq_zero (by
    simp only [expected] at h
    rw [Int.sub_emod, h]; simp)
  have : inv (k + 1 : Nat) - inv k = -1 := by simp only [inv]; omega
  rw [this] at hd
  obtain ⟨q, hq⟩ := hd
  have h2 : (2 : Int) ^ n = 2 * 2 ^ (n - 1) := by
    obtain ⟨m, rfl⟩ : ∃ m, n = m + 1 := ⟨n - 1, by omega⟩
    rw [Nat.add_sub_cancel, Int.pow_succ, Int.mul_comm]
  rw [h2, Int.mul_assoc] at hq
  omega

theorem walk_alias_ok (size n : Nat) (a b : Nat → Nat) (s : Nat → Int) (m : Nat) (hm : m < size)
    (ha : ∀ k, k < m → a k ≠ a (k + 1)) :
    ∃ s', walkTo (array size n a b fun _ v => v) (s, []) (m + 1) = some (s', []) ∧ s' (a m) = expected n m := by
  induction m with
  | zero =>
    refine ⟨set s (a 0) (expected n 0), ?_, by simp [set]⟩
    simp only [walkTo, Option.bind_eq_bind, Option.bind_some, word_zero]
    by_cases h : 1 = size <;> simp [h, set, judge]
  | succ m ih =>
    obtain ⟨s', e, h1⟩ := ih (by omega) fun k hk => ha k (by omega)
    have hne := ha m (by omega)
    refine ⟨set (set s' (a (m + 1)) (expected n (m + 1))) (a m) ((m : Int) % 2 ^ n), ?_, by simp [set, Ne.symm hne]⟩
    rw [walkTo, e]
    simp only [Option.bind_eq_bind, Option.bind_some, word_succ]
    have e1 : (set s' (a (m + 1)) (expected n (m + 1))) (a m) = expected n m := by simp [set, hne, h1]
    have e2 : (set (set s' (a (m + 1)) (expected n (m + 1))) (a m) ((m : Int) % 2 ^ n)) (a (m + 1)) = expected n (m + 1) := by
      simp [set, Ne.symm hne]
    rw [e1, e2]
    simp [judge]

/-- Reports only accumulate. -/
theorem walk_array_grow (size n : Nat) (a b : Nat → Nat) (f : Nat → Int → Int) (t : (Nat → Int) × List Rep) (m : Nat) :
    ∃ s' l, walkTo (array size n a b f) t m = some (s', t.2 ++ l) := by
  induction m with
  | zero => exact ⟨t.1, [], by simp [walkTo]⟩
  | succ m ih =>
    obtain ⟨s', l, e⟩ := ih
    rw [walkTo, e]
    simp only [Option.bind_eq_bind, Option.bind_some]
    cases m with
    | zero => rw [word_zero]; exact ⟨_, _, by simp only [List.append_assoc]; rfl⟩
    | succ j => rw [word_succ]; exact ⟨_, _, by simp only [List.append_assoc]; rfl⟩

theorem walk_alias_bad (size n : Nat) (hn : 0 < n) (a b : Nat → Nat) (s : Nat → Int) (k m : Nat) (hk : a k = a (k + 1)) (hm : k + 2 ≤ m) :
    ∃ s' l r, walkTo (array size n a b fun _ v => v) (s, []) m = some (s', l) ∧ r ∈ l ∧ ∃ v, r = .mismatch k v (expected n k) := by
  induction m with
  | zero => omega
  | succ m ih =>
    by_cases hm' : k + 2 ≤ m
    · obtain ⟨s', l, r, e, hr, hv⟩ := ih hm'
      rw [walkTo, e]
      simp only [Option.bind_eq_bind, Option.bind_some]
      obtain ⟨j, rfl⟩ : ∃ j, m = j + 1 := ⟨m - 1, by omega⟩
      rw [word_succ]
      exact ⟨_, _, r, rfl, by simp [hr], hv⟩
    · have : m = k + 1 := by omega
      subst this
      obtain ⟨s', l, e⟩ := walk_array_grow size n a b (fun _ v => v) (s, []) (k + 1)
      rw [walkTo, e]
      simp only [Option.bind_eq_bind, Option.bind_some, word_succ]
      refine ⟨_, _, .mismatch k (expected n (k + 1)) (expected n k), rfl, ?_, _, rfl⟩
      have e1 : (set s' (a (k + 1)) (expected n (k + 1))) (a k) = expected n (k + 1) := by simp [set, hk]
      rw [e1]
      simp [judge, expected_ne n k hn]

/-- C162, part: address faults.  If the decoder sends word `k` to cell `a k`, the walk test reports something exactly when two
neighbouring words share a cell.  Missing: words further apart (`C162_distant_alias_fails`). -/
theorem C162_neighbours_partial (size n : Nat) (hn : 0 < n) (hs : 0 < size) (a b : Nat → Nat) (s : Nat → Int) :
    ∃ s' reps, walk (array size n a b fun _ v => v) (s, []) = some (s', reps) ∧
      (reps ≠ [] ↔ ∃ k, k + 1 < size ∧ a k = a (k + 1)) := by
  by_cases h : ∃ k, k + 1 < size ∧ a k = a (k + 1)
  · obtain ⟨k, hk, hak⟩ := h
    obtain ⟨s', l, r, e, hr, -⟩ := walk_alias_bad size n hn a b s k size hak (by omega)
    refine ⟨s', l, e, ⟨fun _ => ⟨k, hk, hak⟩, fun _ h0 => ?_⟩⟩
    rw [h0] at hr; simp at hr
  · obtain ⟨m, rfl⟩ : ∃ m, size = m + 1 := ⟨size - 1, by omega⟩
    obtain ⟨s', e, -⟩ := walk_alias_ok (m + 1) n a b s m (by omega) fun k hk hak => h ⟨k, by omega, hak⟩
    exact ⟨s', [], e, ⟨fun h0 => absurd rfl h0, fun h1 => absurd h1 h⟩⟩

example : (walk (array 4 4 (fun k => if k = 2 then 1 else k) id fun _ v => v) (fun _ => 0, [])).map (·.2) =
    some [.mismatch 1 13 14, .mismatch 2 1 13] := by decide +kernel

/-- C162 fails: two words that are not neighbours may share a cell, and the test reports nothing, whatever the size. -/
theorem C162_distant_alias_fails (size n i j : Nat) (hn : 0 < n) (hi : i + 1 < j) (hj : j < size) (s : Nat → Int) :
    ∃ s', walk (array size n (fun k => if k = j then i else k) id fun _ v => v) (s, []) = some (s', []) := by
  obtain ⟨s', reps, e, h⟩ := C162_neighbours_partial size n hn (by omega) (fun k => if k = j then i else k) id s
  have : reps = [] := Classical.byContradiction fun hr => by
    obtain ⟨k, hk, hak⟩ := h.1 hr
    revert hak
    by_cases h1 : k = j
    · subst h1; simp; omega
    · by_cases h2 : k + 1 = j
      · simp [h1, h2]; omega
      · simp [h1, h2]
  exact ⟨s', by rw [e, this]⟩

example : (walk (array 4 4 (fun k => if k = 3 then 0 else k) id fun _ v => v) (fun _ => 0, [])).map (·.2) = some [] := by decide +kernel

/-! ## The access test -/

/-- What the access test reports about one word of an array, `v` being the value written. -/
def accessJudge (n : Nat) (ak bk : Nat) (k : Nat) (s : Nat → Int) (v : Int) : List Rep :=
  let s1 := set s ak (v % 2 ^ n)
  let e2 := inv v % 2 ^ n
  let s2 := set s1 bk (e2 % 2 ^ n)
  (if s1 bk = v then [] else [.mismatch k (s1 bk) v]) ++ (if s2 ak = e2 then [] else [.mismatch k (s2 ak) e2])

theorem accessWord_array (size n : Nat) (a b : Nat → Nat) (k : Nat) (r : Nat × Nat) (t : (Nat → Int) × List Rep) :
    ∃ s', accessWord (array size n a b fun _ v => v) .rw k r t =
      some (s', t.2 ++ accessJudge n (a k) (b k) k t.1 (testValue n r.1 r.2)) := by
  refine ⟨set (set t.1 (a k) (testValue n r.1 r.2 % 2 ^ n)) (b k) (inv (testValue n r.1 r.2) % 2 ^ n % 2 ^ n), ?_⟩
  simp only [accessWord, array, accessJudge]
  simp [set]
  constructor
  · funext c; simp [set]
  · rfl

theorem emod_self (n : Nat) (v : Int) : v % 2 ^ n % 2 ^ n = v % 2 ^ n := Int.emod_emod_of_dvd v (Int.dvd_refl _)

theorem judge_same (n c k : Nat) (s : Nat → Int) (v : Int) :
    accessJudge n c c k s v = if v % 2 ^ n = v then [] else [.mismatch k (v % 2 ^ n) v] := by
  simp [accessJudge, set, emod_self]

theorem inv_ne (n : Nat) (hn : 0 < n) (v : Int) : v % 2 ^ n ≠ inv v % 2 ^ n := by
  intro h
  have hd : (2 : Int) ^ n ∣ v - inv v := Int.dvd_of_emod_eq_zero (by rw [Int.sub_emod, h]; simp)
  have h2 : (2 : Int) ∣ 2 ^ n := by
    obtain ⟨m, rfl⟩ : ∃ m, n = m + 1 := ⟨n - 1, by omega⟩
    exact ⟨2 ^ m, by rw [Int.pow_succ, Int.mul_comm]⟩
  have h3 : (2 : Int) ∣ v - inv v := Int.dvd_trans h2 hd
  simp only [inv] at h3
  omega

theorem judge_other (n ak bk k : Nat) (hn : 0 < n) (h : ak ≠ bk) (s : Nat → Int) (v : Int) : accessJudge n ak bk k s v ≠ [] := by
  simp [accessJudge, set, h, inv_ne n hn v]

theorem accessTo_array (size n : Nat) (a b : Nat → Nat) (rnd : Nat → Nat × Nat) (s : Nat → Int) (m : Nat) :
    ∃ s' reps, accessTo (array size n a b fun _ v => v) .rw rnd (s, []) m = some (s', reps) ∧
      ∃ st : Nat → Nat → Int, reps = (List.range m).flatMap fun k => accessJudge n (a k) (b k) k (st k) (testValue n (rnd k).1 (rnd k).2) := by
  induction m with
  | zero => exact ⟨s, [], rfl, fun _ => s, rfl⟩
  | succ m ih =>
    obtain ⟨s', reps, e, st, hr⟩ := ih
    obtain ⟨s'', e'⟩ := accessWord_array size n a b m (rnd m) (s', reps)
    refine ⟨s'', reps ++ accessJudge n (a m) (b m) m s' (testValue n (rnd m).1 (rnd m).2), ?_, fun k => if k = m then s' else st k, ?_⟩
    · rw [accessTo, e]; exact e'
    · rw [List.range_succ, List.flatMap_append, hr]
      congr 1
      · simp only [List.flatMap_def]
        congr 1
        apply List.map_congr_left
        intro k hk
        have : k ≠ m := by simp at hk; omega
        simp [this]
      · simp [List.flatMap_cons]

/-- C163. What the access test finds on a memory whose front door reaches cell `a k` for word `k` and whose back door reaches cell `b k`:
if the values written fit the words (up to 32 bits they always do), it reports something exactly when the two doors differ for
some word, whatever the random values and the contents before. -/
theorem C163_doors (size n : Nat) (hn : 0 < n) (h32 : n ≤ 32) (a b : Nat → Nat) (rnd : Nat → Nat × Nat) (s : Nat → Int) :
    ∃ s' reps, access (array size n a b fun _ v => v) .rw rnd s = some (s', reps) ∧
      (reps = [] ↔ ∀ k, k < size → a k = b k) := by
  obtain ⟨s', reps, e, st, hr⟩ := accessTo_array size n a b rnd s size
  refine ⟨s', reps, e, ?_⟩
  rw [hr, List.flatMap_eq_nil_iff]
  simp only [List.mem_range]
  constructor
  · intro h k hk
    exact Classical.byContradiction fun hne => judge_other n _ _ k hn hne _ _ (h k hk)
  · intro h k hk
    rw [h k hk, judge_same, if_pos]
    have hv : testValue n (rnd k).1 (rnd k).2 < 2 ^ n := by
      simp only [testValue, if_neg (by omega : ¬ 32 < n)]
      have h1 := Nat.and_le_right (n := (rnd k).1) (m := 2 ^ n - 1)
      have h2 : 0 < 2 ^ n := Nat.pow_pos (by decide)
      omega
    exact Int.emod_eq_of_lt (by omega) (by exact_mod_cast hv)

example : (access (array 3 8 (fun k => k) (fun k => if k = 1 then 2 else k) fun _ v => v) .rw (fun k => (k + 5, 0)) fun _ => 0).map (·.2) =
    some [.mismatch 1 0 6, .mismatch 1 6 249] := by decide +kernel

/-- C163. A memory that may only be written in the map: the test expects the front door to give 0, and reports exactly the
words that give something else. -/
theorem C163_write_only (size n : Nat) (h32 : n ≤ 32) (z : Nat → Int) (rnd : Nat → Nat × Nat) (s : Nat → Int) :
    ∃ s' reps, access (readsAs (good size n) z) .wo rnd s = some (s', reps) ∧
      ∀ r, r ∈ reps ↔ ∃ k, k < size ∧ z k ≠ 0 ∧ r = .mismatch k (z k) 0 := by
  have step : ∀ k t, ∃ s', accessWord (readsAs (good size n) z) .wo k (rnd k) t =
      some (s', t.2 ++ if z k = 0 then [] else [.mismatch k (z k) 0]) := by
    intro k t
    have hv : (testValue n (rnd k).1 (rnd k).2 : Int) % 2 ^ n = testValue n (rnd k).1 (rnd k).2 := by
      have hv : testValue n (rnd k).1 (rnd k).2 < 2 ^ n := by
        simp only [testValue, if_neg (by omega : ¬ 32 < n)]
        have h1 := Nat.and_le_right (n := (rnd k).1) (m := 2 ^ n - 1)
        have h2 : 0 < 2 ^ n := Nat.pow_pos (by decide)
        omega
      exact Int.emod_eq_of_lt (by omega) (by exact_mod_cast hv)
    refine ⟨set (set t.1 k (testValue n (rnd k).1 (rnd k).2)) k (inv (testValue n (rnd k).1 (rnd k).2) % 2 ^ n % 2 ^ n), ?_⟩
    simp [accessWord, readsAs, good, array, hv]
    rfl
  have main : ∀ m, ∃ s', accessTo (readsAs (good size n) z) .wo rnd (s, []) m =
      some (s', (List.range m).flatMap fun k => if z k = 0 then [] else [.mismatch k (z k) 0]) := by
    intro m
    induction m with
    | zero => exact ⟨s, rfl⟩
    | succ m ih =>
      obtain ⟨s', e⟩ := ih
      obtain ⟨s'', e'⟩ := step m (s', (List.range m).flatMap fun k => if z k = 0 then [] else [.mismatch k (z k) 0])
      refine ⟨s'', ?_⟩
      rw [accessTo, e]
      simp only [Option.bind_eq_bind, Option.bind_some, e', List.range_succ, List.flatMap_append]
      simp [List.flatMap_cons]
  obtain ⟨s', e⟩ := main size
  refine ⟨s', _, e, fun r => ?_⟩
  simp only [List.mem_flatMap, List.mem_range]
  constructor
  · rintro ⟨k, hk, hr⟩
    by_cases h : z k = 0
    · simp [h] at hr
    · exact ⟨k, hk, h, by simpa [h] using hr⟩
  · rintro ⟨k, hk, h, rfl⟩
    exact ⟨k, hk, by simp [h]⟩

example : (access (readsAs (good 2 8) fun k => if k = 1 then 7 else 0) .wo (fun _ => (3, 0)) fun _ => 0).map (·.2) =
    some [.mismatch 1 7 0] := by decide +kernel

/-- C164 fails: on a memory with words wider than 32 bits the test writes values that may not fit, and reports a good memory: exactly
those words for which the value drawn is too large. -/
theorem C164_wide_words_fails (size n : Nat) (rnd : Nat → Nat × Nat) (s : Nat → Int) :
    ∃ s' reps, access (good size n) .rw rnd s = some (s', reps) ∧
      (reps = [] ↔ ∀ k, k < size → testValue n (rnd k).1 (rnd k).2 < 2 ^ n) := by
  obtain ⟨s', reps, e, st, hr⟩ := accessTo_array size n id id rnd s size
  refine ⟨s', reps, e, ?_⟩
  rw [hr, List.flatMap_eq_nil_iff]
  simp only [List.mem_range, id, judge_same]
  have key : ∀ v : Nat, ((v : Int) % 2 ^ n = v ↔ v < 2 ^ n) := by
    intro v
    constructor
    · intro h
      have : (v : Int) < 2 ^ n := by rw [← h]; exact Int.emod_lt_of_pos _ (Int.pow_pos (by decide))
      exact_mod_cast this
    · intro h
      exact Int.emod_eq_of_lt (by omega) (by exact_mod_cast h)
  constructor
  · intro h k hk
    have := h k hk
    rw [← key]
    exact Classical.byContradiction fun hne => by simp [hne] at this
  · intro h k hk
    rw [if_pos ((key _).2 (h k hk))]

/-- 40-bit words, a good memory: the first random number is not small enough, the test fails. -/
theorem C164_good_reported_fails :
    (access (good 1 40) .rw (fun _ => (2 ^ 31, 5)) fun _ => 0).map (·.2) = some [.mismatch 0 5 (2 ^ 63 + 5)] := by decide +kernel

/-- C165 fails: on a memory that can only be read in some map the test raises, if it has a word at all. -/
theorem C165_read_only_fails {σ} (m : MemIf σ) (hm : 0 < m.size) (rnd : Nat → Nat × Nat) (s : σ) : access m .ro rnd s = none := by
  have : ∀ k, 0 < k → accessTo m .ro rnd (s, []) k = none := by
    intro k hk
    induction k with
    | zero => omega
    | succ k ih =>
      rw [accessTo]
      cases k with
      | zero => rfl
      | succ k => rw [ih (by omega)]; rfl
  exact this _ hm

example : access (good 4 8) .ro (fun _ => (1, 2)) (fun _ => 0) = none := C165_read_only_fails _ (by decide) _ _

/-! ## The walk over the blocks -/

theorem mapM_mem {α β} (f : α → Option β) (l : List α) (m : List β) (h : l.mapM f = some m) (y : β) (hy : y ∈ m) : ∃ x ∈ l, f x = some y := by
  induction l generalizing m with
  | nil => simp at h; subst h; simp at hy
  | cons a l ih =>
    rw [List.mapM_cons] at h
    cases ha : f a with
    | none => rw [ha] at h; simp at h
    | some b =>
      rw [ha] at h
      cases hl : l.mapM f with
      | none => rw [hl] at h; simp at h
      | some m' =>
        rw [hl] at h
        simp at h
        subst h
        rcases List.mem_cons.1 hy with rfl | hy
        · exact ⟨a, by simp, ha⟩
        · obtain ⟨x, hx, e⟩ := ih m' hl hy
          exact ⟨x, List.mem_cons_of_mem _ hx, e⟩

mutual
theorem below_toBlk (sb sm : Attr → Bool) : ∀ (b : MBlk) (c : RegTests.Blk), c ∈ RegTests.below (b.toBlk sb sm) →
    ∃ d : MBlk, c = d.toBlk sb sm ∧ (∀ m a, Has d m a → Has b m a)
  | .mk a ms bs, c, h => by
    rw [MBlk.toBlk, RegTests.below] at h
    obtain ⟨d, hd, x, hx, hk⟩ := below_toBlks sb sm bs c h
    exact ⟨d, hd, fun m am hm => .sub hx (hk m am hm)⟩
theorem below_toBlks (sb sm : Attr → Bool) : ∀ (bs : List MBlk) (c : RegTests.Blk), c ∈ RegTests.belowAll (toBlks sb sm bs) →
    ∃ d : MBlk, c = d.toBlk sb sm ∧ ∃ x ∈ bs, ∀ m a, Has d m a → Has x m a
  | [], c, h => by simp [toBlks, RegTests.belowAll] at h
  | b :: bs, c, h => by
    rw [toBlks, RegTests.belowAll] at h
    rcases List.mem_cons.1 h with rfl | h
    · exact ⟨b, rfl, b, by simp, fun _ _ h => h⟩
    · rcases List.mem_append.1 h with h | h
      · obtain ⟨d, hd, hk⟩ := below_toBlk sb sm b c h
        exact ⟨d, hd, b, by simp, hk⟩
      · obtain ⟨d, hd, x, hx, hk⟩ := below_toBlks sb sm bs c h
        exact ⟨d, hd, x, List.mem_cons_of_mem _ hx, hk⟩
end

theorem tested (sb sm : Attr → Bool) (n : Nat) : ∀ (b : MBlk) (l : List Nat), RegTests.bashBlock n (b.toBlk sb sm) = some l →
    ∀ m ∈ l, ∃ a, Has b m a ∧ sm a = false := by
  induction n with
  | zero => intro b l h; simp [RegTests.bashBlock] at h
  | succ n ih =>
    intro b l h m hm
    rw [RegTests.bashBlock] at h
    split at h
    · simp at h; subst h; simp at hm
    · cases hs : (RegTests.below (b.toBlk sb sm)).mapM (RegTests.bashBlock n) with
      | none => rw [hs] at h; simp at h
      | some subs =>
        rw [hs] at h
        simp at h
        subst h
        rcases List.mem_append.1 hm with hm | hm
        · cases b with
          | mk a ms bs =>
            simp only [MBlk.toBlk, RegTests.Blk.regs, RegTests.wanted, List.mem_map, List.mem_filter] at hm
            obtain ⟨p, ⟨⟨q, hq, rfl⟩, hp⟩, rfl⟩ := hm
            exact ⟨q.2, .here hq, by simpa using hp⟩
        · obtain ⟨x, hx, hmx⟩ := List.mem_flatten.1 hm
          obtain ⟨c, hc, e⟩ := mapM_mem _ _ _ hs x hx
          obtain ⟨d, rfl, hk⟩ := below_toBlk sb sm b c hc
          obtain ⟨a, ha, hsa⟩ := ih d x e m hmx
          exact ⟨a, hk m a ha, hsa⟩

/-- C166, part: a memory that the walk or the access test tests, in a model of any depth, is a memory of the model that is not itself
excluded by the resource of that test.  Missing: blocks excluded from the walk test (`C166_block_excluded_fails`), and that each is tested once (C132). -/
theorem C166_excluded_partial (n : Nat) (b : MBlk) (l : List Nat) :
    (walkBlock n b = some l → ∀ m ∈ l, ∃ a, Has b m a ∧ ¬ walkExcluded a) ∧
    (accessBlock n b = some l → ∀ m ∈ l, ∃ a, Has b m a ∧ ¬ accessExcluded a) := by
  constructor
  · intro h m hm
    obtain ⟨a, ha, hs⟩ := tested _ _ n b l h m hm
    exact ⟨a, ha, by simpa [walkSkipMem, walkExcluded, and_assoc] using hs⟩
  · intro h m hm
    obtain ⟨a, ha, hs⟩ := tested _ _ n b l h m hm
    exact ⟨a, ha, by simpa [accessSkipMem, accessExcluded, and_assoc] using hs⟩

example : walkBlock 3 (.mk {} [(1, {}), (2, { noMemWalkTest := true })] [.mk {} [(3, {})] []]) = some [1, 3] := by decide +kernel

/-- C166 fails: a block excluded from the walk test (`NO_MEM_WALK_TEST`) is walked all the same; one excluded from the access test
(`NO_MEM_ACCESS_TEST`) is not walked. -/
theorem C166_block_excluded_fails (n : Nat) (ms : List (Nat × Attr)) (h : ∀ p ∈ ms, p.2 = {}) :
    walkBlock (n + 1) (.mk { noMemWalkTest := true } ms []) = some (ms.map (·.1)) ∧
    walkBlock (n + 1) (.mk { noMemAccessTest := true } ms []) = some [] := by
  have key : ∀ ms : List (Nat × Attr), (∀ p ∈ ms, p.2 = {}) → RegTests.wanted (ms.map fun p => (p.1, walkSkipMem p.2)) = ms.map (·.1) := by
    intro ms
    induction ms with
    | nil => intro _; rfl
    | cons p ms ih =>
      intro h
      have h1 := h p List.mem_cons_self
      have h2 := ih fun q hq => h q (List.mem_cons_of_mem _ hq)
      simp only [RegTests.wanted] at h2
      simp only [RegTests.wanted, List.map_cons, h1, List.filter_cons]
      simpa [walkSkipMem] using h2
  constructor
  · simp [walkBlock, MBlk.toBlk, toBlks, RegTests.bashBlock, RegTests.Blk.skip, RegTests.Blk.regs, walkSkipBlock, RegTests.below, RegTests.belowAll, key ms h]
  · simp [walkBlock, MBlk.toBlk, toBlks, RegTests.bashBlock, RegTests.Blk.skip, walkSkipBlock]

/-- C166, part: the access test of an excluded block tests nothing. -/
theorem C166_access_block_partial (n : Nat) (a : Attr) (ms : List (Nat × Attr)) (bs : List MBlk) (h : accessExcluded a) :
    accessBlock (n + 1) (.mk a ms bs) = some [] := by
  have : accessSkipBlock a = true := by
    simp only [accessSkipBlock]; rcases h with h | h | h <;> simp [h]
  simp [accessBlock, MBlk.toBlk, RegTests.bashBlock, RegTests.Blk.skip, this]

/-- and for the walk test blocks excluded from all register or all memory tests. -/
theorem C166_walk_block_partial (n : Nat) (a : Attr) (ms : List (Nat × Attr)) (bs : List MBlk) (h : a.noRegTests = true ∨ a.noMemTests = true) :
    walkBlock (n + 1) (.mk a ms bs) = some [] := by
  have : walkSkipBlock a = true := by
    simp only [walkSkipBlock]; rcases h with h | h <;> simp [h]
  simp [walkBlock, MBlk.toBlk, RegTests.bashBlock, RegTests.Blk.skip, this]

example : walkBlock 3 (.mk {} [(1, {})] [.mk { noMemTests := true } [(3, {})] []]) = some [1] := by decide +kernel

/-! ### Exactly which memories are tested -/

mutual
theorem height_toBlk (sb sm : Attr → Bool) : ∀ b : MBlk, RegTests.height (b.toBlk sb sm) = b.levels
  | .mk a ms bs => by rw [MBlk.toBlk, RegTests.height, MBlk.levels, height_toBlks sb sm bs]
theorem height_toBlks (sb sm : Attr → Bool) : ∀ bs : List MBlk, RegTests.heights (toBlks sb sm bs) = levelsAll bs
  | [] => rfl
  | b :: bs => by rw [toBlks, RegTests.heights, levelsAll, height_toBlk sb sm b, height_toBlks sb sm bs]
end

theorem mem_toBlks (sb sm : Attr → Bool) (bs : List MBlk) (c : RegTests.Blk) : c ∈ toBlks sb sm bs ↔ ∃ b ∈ bs, c = b.toBlk sb sm := by
  induction bs with
  | nil => simp [toBlks]
  | cons b bs ih => simp [toBlks, ih]

theorem listed_here (sb sm : Attr → Bool) (a : Attr) (ms : List (Nat × Attr)) (bs : List MBlk) (m : Nat) :
    RegTests.Listed ((MBlk.mk a ms bs).toBlk sb sm) m ↔ sb a = false ∧ ∃ am, (m, am) ∈ ms ∧ sm am = false := by
  simp only [RegTests.Listed, MBlk.toBlk, RegTests.Blk.skip, RegTests.Blk.regs, List.mem_map, Prod.mk.injEq]
  constructor
  · rintro ⟨h1, ⟨m', am⟩, h2, rfl, h3⟩; exact ⟨h1, am, h2, h3⟩
  · rintro ⟨h1, am, h2, h3⟩; exact ⟨h1, (m, am), h2, rfl, h3⟩

theorem listed_of_in (sb sm : Attr → Bool) (m : Nat) {c d : RegTests.Blk} (hi : RegTests.In c d) (hl : RegTests.Listed c m) :
    ∀ b : MBlk, d = b.toBlk sb sm → ∃ ab am, HasIn b ab m am ∧ sb ab = false ∧ sm am = false := by
  induction hi with
  | self =>
    intro b e
    cases b with
    | mk a ms bs =>
      rw [e, listed_here] at hl
      obtain ⟨h1, am, h2, h3⟩ := hl
      exact ⟨a, am, .here h2, h1, h3⟩
  | @sub b' d hd _ ih =>
    intro b e
    cases b with
    | mk a ms bs =>
      rw [e] at hd
      obtain ⟨x, hx, ex⟩ := (mem_toBlks sb sm bs d).1 hd
      obtain ⟨ab, am, h1, h2⟩ := ih x ex
      exact ⟨ab, am, .sub hx h1, h2⟩

theorem in_of_hasIn (sb sm : Attr → Bool) {b : MBlk} {ab am : Attr} {m : Nat} (h : HasIn b ab m am) (h1 : sb ab = false) (h2 : sm am = false) :
    ∃ c, RegTests.In c (b.toBlk sb sm) ∧ RegTests.Listed c m := by
  induction h with
  | @here a ms bs m am hm => exact ⟨_, .self, (listed_here sb sm a ms bs m).2 ⟨h1, am, hm, h2⟩⟩
  | @sub a ms bs b ab m am hb _ ih =>
    obtain ⟨c, hc, hl⟩ := ih h1 h2
    refine ⟨c, .sub ?_ hc, hl⟩
    show b.toBlk sb sm ∈ toBlks sb sm bs
    exact (mem_toBlks sb sm bs _).2 ⟨b, hb, rfl⟩

theorem tested_iff (sb sm : Attr → Bool) (n : Nat) (b : MBlk) (hn : b.levels ≤ n) (hb : sb b.attr = false) :
    ∃ l, RegTests.bashBlock n (b.toBlk sb sm) = some l ∧ ∀ m, m ∈ l ↔ ∃ ab am, HasIn b ab m am ∧ sb ab = false ∧ sm am = false := by
  obtain ⟨l, e, h⟩ := RegTests.C131_bit_bash_covers n (b.toBlk sb sm) (by rw [height_toBlk]; exact hn) (by cases b; exact hb)
  refine ⟨l, e, fun m => (h m).trans ⟨?_, ?_⟩⟩
  · rintro ⟨c, hc, hl⟩; exact listed_of_in sb sm m hc hl b rfl
  · rintro ⟨ab, am, h1, h2, h3⟩; exact in_of_hasIn sb sm h1 h2 h3

/-- C166, part: the tests of a model whose top block is not excluded end, whatever its depth.  The access test tests exactly the memories that are not excluded and are in a block
that is not excluded; no other is left out.  The walk test does the same, but asks the blocks for the resource of the access test (`C166_block_excluded_fails`). -/
theorem C166_exact_partial (n : Nat) (b : MBlk) (hn : b.levels ≤ n) (hb : ¬ accessExcluded b.attr) :
    (∃ l, accessBlock n b = some l ∧ ∀ m, m ∈ l ↔ ∃ ab am, HasIn b ab m am ∧ ¬ accessExcluded ab ∧ ¬ accessExcluded am) ∧
    (∃ l, walkBlock n b = some l ∧ ∀ m, m ∈ l ↔ ∃ ab am, HasIn b ab m am ∧ ¬ accessExcluded ab ∧ ¬ walkExcluded am) := by
  have e1 : ∀ a, accessSkipBlock a = false ↔ ¬ accessExcluded a := by intro a; simp [accessSkipBlock, accessExcluded, and_assoc]
  have e2 : ∀ a, accessSkipMem a = false ↔ ¬ accessExcluded a := by intro a; simp [accessSkipMem, accessExcluded, and_assoc]
  have e3 : ∀ a, walkSkipBlock a = false ↔ ¬ accessExcluded a := by intro a; simp [walkSkipBlock, accessExcluded, and_assoc]
  have e4 : ∀ a, walkSkipMem a = false ↔ ¬ walkExcluded a := by intro a; simp [walkSkipMem, walkExcluded, and_assoc]
  obtain ⟨l, h1, h2⟩ := tested_iff accessSkipBlock accessSkipMem n b hn ((e1 _).2 hb)
  obtain ⟨l', h3, h4⟩ := tested_iff walkSkipBlock walkSkipMem n b hn ((e3 _).2 hb)
  simp only [e1, e2] at h2
  simp only [e3, e4] at h4
  exact ⟨⟨l, h1, h2⟩, l', h3, h4⟩

/-- A model of two levels with an excluded memory and an excluded block, below which there is one that is not. -/
example : accessBlock 3 (.mk {} [(1, {}), (2, { noMemTests := true })] [.mk { noMemAccessTest := true } [(3, {})] [.mk {} [(4, {})] []]]) = some [1, 4] := by decide +kernel

end Verif.MemTests
