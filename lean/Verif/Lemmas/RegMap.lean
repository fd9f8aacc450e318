import Verif.Spec.RegMap
import Verif.Lemmas.Reg
namespace Verif.RegMap

/-- The access for word `i`. -/
def mkOp (d : Dir) (w v : Nat) (nBits : Int) (be i a : Nat) : BusOp :=
  { kind := d, addr := a,
    data := match d with
      | .write => (v >>> (i * w * 8)) &&& (2 ^ (w * 8) - 1)
      | .read => i * w
    nBits := if nBits - i * w * 8 > (w * 8 : Nat) then (w * 8 : Nat) else nBits - i * w * 8
    byteEn := be }

theorem mkAccesses_length (d w v nb be i) (as : List Nat) : (mkAccesses d w v nb be i as).length = as.length := by
  induction as generalizing i with
  | nil => rfl
  | cons a as ih => simp [mkAccesses, ih]

theorem mkAccesses_get (d w v nb be) (as : List Nat) (i j : Nat) (hj : j < as.length) :
    (mkAccesses d w v nb be i as)[j]? = some (mkOp d w v nb be (i + j) as[j]) := by
  induction as generalizing i j with
  | nil => simp at hj
  | cons a as ih =>
    cases j with
    | zero => cases d <;> simp [mkAccesses, mkOp]
    | succ j =>
      simp only [List.length_cons] at hj
      have := ih (i + 1) j (by omega)
      simp only [mkAccesses, List.getElem?_cons_succ, List.getElem_cons_succ]
      rw [this]; congr 2; omega

theorem mkAccesses_mem (d w v nb be) (as : List Nat) (op : BusOp) :
    op ∈ mkAccesses d w v nb be 0 as ↔ ∃ j, ∃ hj : j < as.length, op = mkOp d w v nb be j as[j] := by
  rw [List.mem_iff_getElem?]
  constructor
  · rintro ⟨j, hj⟩
    by_cases h : j < as.length
    · rw [mkAccesses_get _ _ _ _ _ as 0 j h] at hj
      simp at hj
      exact ⟨j, h, hj.symm⟩
    · rw [List.getElem?_eq_none (by rw [mkAccesses_length]; omega)] at hj
      simp at hj
  · rintro ⟨j, h, rfl⟩
    exact ⟨j, by rw [mkAccesses_get _ _ _ _ _ as 0 j h]; simp⟩

theorem mkAccesses_addrs (d w v nb be i) (as : List Nat) : (mkAccesses d w v nb be i as).map (·.addr) = as := by
  induction as generalizing i with
  | nil => rfl
  | cons a as ih => simp [mkAccesses, ih]

/-! ### memory device -/

theorem runWrites_mem (ops : List BusOp) (hk : ∀ op ∈ ops, op.kind = .write) (hn : (ops.map (·.addr)).Nodup) (s : Nat → Nat) (ok : Bool) :
    ∃ s' ok', runWrites memBus ops (s, ok) = (s', ok') ∧ (ok' = true ∨ (ops = [] ∧ ok' = ok)) ∧
      (∀ op ∈ ops, s' op.addr = op.data) ∧ (∀ a, a ∉ ops.map (·.addr) → s' a = s a) := by
  induction ops generalizing s ok with
  | nil => exact ⟨s, ok, rfl, .inr ⟨rfl, rfl⟩, by simp, by simp⟩
  | cons op ops ih =>
    have hw := hk op (by simp)
    simp only [List.map_cons, List.nodup_cons] at hn
    obtain ⟨s', ok', h1, h2, h3, h4⟩ := ih (fun o ho => hk o (by simp [ho])) hn.2
      (fun a => if a = op.addr then op.data else s a) true
    refine ⟨s', ok', ?_, ?_, ?_, ?_⟩
    · simp [runWrites, memBus, hw, h1]
    · rcases h2 with h | ⟨_, h⟩ <;> exact .inl h
    · intro o ho
      rcases List.mem_cons.1 ho with rfl | ho
      · rw [h4 _ hn.1]; simp
      · exact h3 o ho
    · intro a ha
      simp only [List.map_cons, List.mem_cons, not_or] at ha
      rw [h4 a ha.2]; simp [ha.1]

theorem runReads_mem (w : Nat) (ops : List BusOp) (hk : ∀ op ∈ ops, op.kind = .read) (s : Nat → Nat) (v : Nat) (ok : Bool) :
    ∃ ok', runReads memBus w ops (s, v, ok) =
      (s, ops.foldl (fun acc op => acc ||| ((s op.addr &&& (2 ^ (w * 8) - 1)) <<< (op.data * 8))) v, ok') ∧
      (ok' = true ∨ (ops = [] ∧ ok' = ok)) := by
  induction ops generalizing v ok with
  | nil => exact ⟨ok, rfl, .inr ⟨rfl, rfl⟩⟩
  | cons op ops ih =>
    have hr := hk op (by simp)
    obtain ⟨ok', h1, h2⟩ := ih (fun o ho => hk o (by simp [ho])) (v ||| ((s op.addr &&& (2 ^ (w * 8) - 1)) <<< (op.data * 8))) true
    refine ⟨ok', ?_, .inl ?_⟩
    · simp only [runReads, memBus, hr, h1, List.foldl_cons]; rfl
    · rcases h2 with h | ⟨_, h⟩ <;> exact h

theorem any_perm {α} {l m : List α} (h : l.Perm m) (p : α → Bool) : l.any p = m.any p := by
  rw [Bool.eq_iff_iff, List.any_eq_true, List.any_eq_true]
  exact ⟨fun ⟨x, hx, hp⟩ => ⟨x, h.mem_iff.1 hx, hp⟩, fun ⟨x, hx, hp⟩ => ⟨x, h.mem_iff.2 hx, hp⟩⟩

theorem piece_testBit (v w i b : Nat) :
    ((((v >>> (i * w * 8)) &&& (2 ^ (w * 8) - 1)) &&& (2 ^ (w * 8) - 1)) <<< (i * w * 8)).testBit b =
      (decide (i * (w * 8) ≤ b ∧ b < (i + 1) * (w * 8)) && v.testBit b) := by
  have e : i * w * 8 = i * (w * 8) := by rw [Nat.mul_assoc]
  have e2 : (i + 1) * (w * 8) = i * (w * 8) + w * 8 := by rw [Nat.add_mul, Nat.one_mul]
  rw [e, e2]
  generalize i * (w * 8) = p
  simp only [Nat.testBit_shiftLeft, Nat.testBit_and, Nat.testBit_shiftRight, Nat.testBit_two_pow_sub_one, Bool.and_assoc, Bool.and_self]
  by_cases h1 : p ≤ b
  · have : p + (b - p) = b := by omega
    rw [this]
    by_cases h2 : b < p + w * 8
    · have : b - p < w * 8 := by omega
      simp [h1, h2, this]
    · have : ¬ b - p < w * 8 := by omega
      simp [h2, this]
  · simp [h1]

theorem any_piece (v w n b : Nat) (hw : 1 ≤ w) :
    ((List.range n).any fun i => decide (i * (w * 8) ≤ b ∧ b < (i + 1) * (w * 8)) && v.testBit b) =
      (decide (b < n * (w * 8)) && v.testBit b) := by
  rw [Bool.eq_iff_iff, List.any_eq_true]
  simp only [List.mem_range, Bool.and_eq_true, decide_eq_true_eq]
  constructor
  · rintro ⟨i, hi, ⟨_, h2⟩, h3⟩
    refine ⟨Nat.lt_of_lt_of_le h2 (Nat.mul_le_mul_right _ (by omega)), h3⟩
  · rintro ⟨h1, h2⟩
    have hp : 0 < w * 8 := by omega
    refine ⟨b / (w * 8), ?_, ⟨?_, ?_⟩, h2⟩
    · exact (Nat.div_lt_iff_lt_mul hp).2 h1
    · exact Nat.div_mul_le_self b (w * 8)
    · rw [Nat.add_mul, Nat.one_mul]; exact Nat.lt_div_mul_add hp

/-- Reading, in any order, cells that hold the words of `v` gives `v`. -/
theorem readback (w v : Nat) (nb : Int) (be : Nat) (as : List Nat) (hw : 1 ≤ w) (hv : v < 2 ^ (as.length * (w * 8)))
    (s : Nat → Nat) (hs : ∀ j (hj : j < as.length), s as[j] = (v >>> (j * w * 8)) &&& (2 ^ (w * 8) - 1))
    (ops : List BusOp) (hp : ops.Perm (mkAccesses .read w 0 nb be 0 as)) :
    ops.foldl (fun acc op => acc ||| ((s op.addr &&& (2 ^ (w * 8) - 1)) <<< (op.data * 8))) 0 = v := by
  apply Nat.eq_of_testBit_eq
  intro b
  rw [Reg.foldl_or_testBit, Nat.zero_testBit, Bool.false_or, any_perm hp]
  have : ((mkAccesses .read w 0 nb be 0 as).any fun op => ((s op.addr &&& (2 ^ (w * 8) - 1)) <<< (op.data * 8)).testBit b) =
      ((List.range as.length).any fun i => decide (i * (w * 8) ≤ b ∧ b < (i + 1) * (w * 8)) && v.testBit b) := by
    rw [Bool.eq_iff_iff, List.any_eq_true, List.any_eq_true]
    constructor
    · rintro ⟨op, hop, h⟩
      obtain ⟨j, hj, rfl⟩ := (mkAccesses_mem _ _ _ _ _ _ _).1 hop
      refine ⟨j, by simpa using hj, ?_⟩
      simp only [mkOp, hs j hj] at h
      rw [piece_testBit v w j b] at h
      exact h
    · rintro ⟨j, hj, h⟩
      have hj : j < as.length := by simpa using hj
      refine ⟨mkOp .read w 0 nb be j as[j], (mkAccesses_mem _ _ _ _ _ _ _).2 ⟨j, hj, rfl⟩, ?_⟩
      simp only [mkOp, hs j hj]
      rw [piece_testBit v w j b]
      exact h
  rw [this, any_piece v w _ b hw]
  by_cases h : b < as.length * (w * 8)
  · simp [h]
  · have : v.testBit b = false := RegField.testBit_high hv (by omega)
    simp [this]

theorem order_perm_kind {d : Dir} {w v nb be} {as : List Nat} {ops : List BusOp}
    (hp : ops.Perm (mkAccesses d w v nb be 0 as)) : ∀ op ∈ ops, op.kind = d := by
  intro op ho
  obtain ⟨j, hj, rfl⟩ := (mkAccesses_mem _ _ _ _ _ _ _).1 (hp.mem_iff.1 ho)
  rfl

theorem write_word (order : Order) (ho : ∀ l, (order l).Perm l) (w v : Nat) (nb : Int) (be : Nat) (as : List Nat)
    (hn : as.Nodup) (s : Nat → Nat) (ok : Bool) :
    ∃ s' ok', runWrites memBus (order (mkAccesses .write w v nb be 0 as)) (s, ok) = (s', ok') ∧
      (ok' = true ∨ (as = [] ∧ ok' = ok)) ∧
      (∀ j (hj : j < as.length), s' as[j] = (v >>> (j * w * 8)) &&& (2 ^ (w * 8) - 1)) ∧
      (∀ a, a ∉ as → s' a = s a) := by
  have hp := ho (mkAccesses .write w v nb be 0 as)
  have hk := order_perm_kind hp
  have hmap : ((order (mkAccesses .write w v nb be 0 as)).map (·.addr)).Perm as := by
    have := hp.map (·.addr)
    rwa [mkAccesses_addrs] at this
  obtain ⟨s', ok', h1, h2, h3, h4⟩ := runWrites_mem _ hk (hmap.nodup_iff.2 hn) s ok
  refine ⟨s', ok', h1, ?_, ?_, ?_⟩
  · rcases h2 with h | ⟨h, h'⟩
    · exact .inl h
    · right
      refine ⟨?_, h'⟩
      rw [h] at hmap
      exact (List.nil_perm.1 hmap)
  · intro j hj
    have := h3 (mkOp .write w v nb be j as[j]) (hp.mem_iff.2 ((mkAccesses_mem _ _ _ _ _ _ _).2 ⟨j, hj, rfl⟩))
    simpa [mkOp] using this
  · intro a ha
    exact h4 a (fun h => ha (hmap.mem_iff.1 h))

/-! ### addresses -/

theorem countDown_length (b m n : Nat) : (countDown b m n).length = n := by
  induction n with
  | zero => rfl
  | succ n ih => simp [countDown, ih]

theorem countDown_get (b m n i : Nat) (h : i < n) : (countDown b m n)[i]? = some (b + (n - 1 - i) * m) := by
  induction n generalizing i with
  | zero => omega
  | succ n ih =>
    cases i with
    | zero => simp [countDown]
    | succ i =>
      simp only [countDown, List.getElem?_cons_succ]
      rw [ih i (by omega)]
      congr 3; omega

theorem countDown_reverse (b m n : Nat) : countDown b m n = (countUp b m n).reverse := by
  induction n with
  | zero => rfl
  | succ n ih => simp [countDown, countUp, List.range_succ, ih]

theorem words_spec (n w : Nat) (hn : 1 ≤ n) (hw : 1 ≤ w) : IsWordCount n w (words n w) := by
  constructor
  · simp only [words]
    have := Nat.lt_div_mul_add (a := n - 1) hw
    rw [Nat.add_mul, Nat.one_mul]; omega
  · intro j hj
    simp only [words]
    have : (n - 1) / w < j := (Nat.div_lt_iff_lt_mul hw).2 (by omega)
    omega

theorem words_one (n w : Nat) (hn : 1 ≤ n) (h : n ≤ w) : words n w = 1 := by
  simp only [words]
  rw [Nat.div_eq_of_lt (by omega)]

theorem localAddrs_length (c : Cfg) (base mo n : Nat) (hn : 1 ≤ n) : (localAddrs c base mo n).length = words n c.nBytes := by
  simp only [localAddrs]
  split
  · next h => rw [words_one n _ hn h]; rfl
  · cases c.endian <;> simp [countUp, countDown_length]

theorem mult_pos (c : Cfg) (h : 1 ≤ c.nBytes) : 1 ≤ mult c := by
  simp only [mult]; split <;> omega

theorem localAddrs_get (c : Cfg) (base mo n i : Nat) (hn : 1 ≤ n) (he : c.endian ≠ .none) (hi : i < words n c.nBytes) :
    (localAddrs c base mo n)[i]? =
      some (wordAddr c.endian (base + mo * (words n c.nBytes * mult c)) (mult c) (words n c.nBytes) i) := by
  simp only [localAddrs]
  split
  · next h =>
    rw [words_one n _ hn h] at hi ⊢
    have : i = 0 := by omega
    subst this
    cases he' : c.endian <;> simp_all [wordAddr]
  · cases he' : c.endian <;> simp_all [wordAddr, countUp, countDown_get]

theorem localAddrs_ne_nil (c : Cfg) (base mo n : Nat) (hn : 1 ≤ n) : localAddrs c base mo n ≠ [] := by
  intro h
  have := localAddrs_length c base mo n hn
  rw [h] at this
  simp [words] at this

theorem phys_sub_fold (f : Nat → List Nat → List Nat × Nat) (g : Nat → List Nat) (hf : ∀ a x, (f a x).1 = g a) (l : List Nat)
    (x y : List Nat) (z : Nat) :
    (l.foldl (fun (s : List Nat × List Nat × Nat) a => (s.1 ++ (f a s.2.1).1, (f a s.2.1).1, (f a s.2.1).2)) (x, y, z)).1
      = x ++ l.flatMap g := by
  induction l generalizing x y z with
  | nil => simp
  | cons a l ih => rw [List.foldl_cons, ih]; simp [hf]

theorem physAddrs_root (c : Cfg) (b base mo n : Nat) (hn : 1 ≤ n) (x : List Nat) :
    (physAddrs (.root c b) base mo n x).1 = physSpec (.root c b) base mo n := by
  simp only [physAddrs, physSpec]
  rw [if_neg (by omega)]

theorem physAddrs_spec (m : Map) (base mo n : Nat) (hn : 1 ≤ n) (h : SplitNearRoot m n) :
    (physAddrs m base mo n []).1 = physSpec m base mo n := by
  induction m generalizing base mo n with
  | root c b => exact physAddrs_root c b base mo n hn []
  | sub c off p ih =>
    cases p with
    | root c' b' =>
      simp only [SplitNearRoot] at h
      simp only [physAddrs]
      rw [if_neg (by omega)]
      have := phys_sub_fold (fun a x => physAddrs (.root c' b') (off + a * ratio c.nBytes c'.nBytes) 0 c.nBytes x)
        (fun a => physSpec (.root c' b') (off + a * ratio c.nBytes c'.nBytes) 0 c.nBytes)
        (fun a x => physAddrs_root c' b' _ 0 c.nBytes h x) (localAddrs c base mo n) [] [] 0
      rw [List.nil_append] at this
      rw [show physSpec (.sub c off (.root c' b')) base mo n = (localAddrs c base mo n).flatMap
        (fun a => physSpec (.root c' b') (off + a * ratio c.nBytes c'.nBytes) 0 c.nBytes) from rfl]
      exact this
    | sub c' off' p' =>
      simp only [SplitNearRoot] at h
      obtain ⟨h1, h2, h3⟩ := h
      have hl : localAddrs c base mo n = [base + mo * mult c] := by simp [localAddrs, h2]
      have := ih (off + (base + mo * mult c) * ratio c.nBytes (Map.sub c' off' p').cfg.nBytes) 0 c.nBytes h1 h3
      rw [physAddrs, if_neg (by omega), physSpec, hl]
      simpa using this

theorem phys_width (m : Map) (hp : Positive m) (base mo n : Nat) (hn : 1 ≤ n) (x : List Nat) : (physAddrs m base mo n x).2 = narrowest m := by
  induction m generalizing base mo n x with
  | root c b => simp only [physAddrs, narrowest]; rw [if_neg (by omega)]
  | sub c off p ih =>
    obtain ⟨h1, h2⟩ := hp
    rw [physAddrs, if_neg (by omega)]
    have key : ∀ (l : List Nat) (s : List Nat × List Nat × Nat), l ≠ [] →
        (l.foldl (fun (s : List Nat × List Nat × Nat) a =>
          let q := physAddrs p (off + a * ratio c.nBytes p.cfg.nBytes) 0 c.nBytes s.2.1
          (s.1 ++ q.1, q.1, q.2)) s).2.2 = narrowest p := by
      intro l
      induction l with
      | nil => intro s h; exact absurd rfl h
      | cons a l ihl =>
        intro s _
        rw [List.foldl_cons]
        by_cases hl : l = []
        · subst hl; exact ih h2 _ 0 c.nBytes h1 _
        · exact ihl _ hl
    have := key (localAddrs c base mo n) (x, [], 0) (localAddrs_ne_nil c base mo n hn)
    simp only [this, narrowest]
    split <;> omega

theorem splitNearRoot_of_widening (m : Map) (n : Nat) (h1 : 1 ≤ m.cfg.nBytes) (hw : Widening m) (hn : n ≤ m.cfg.nBytes) : SplitNearRoot m n := by
  induction m generalizing n with
  | root c b => trivial
  | sub c off p ih =>
    obtain ⟨h2, h3⟩ := hw
    simp only [Map.cfg] at h1 hn
    have := ih c.nBytes (by omega) h3 h2
    cases p with
    | root => exact h1
    | sub => exact ⟨h1, hn, this⟩

theorem ratio_widening (w up : Nat) (h1 : 1 ≤ w) (h : w ≤ up) : ratio w up = 1 := by
  simp only [ratio]
  split
  · rfl
  · have : w = up := by omega
    subst this
    rw [Nat.div_eq_of_lt (by omega)]

theorem physSpec_widening (m : Map) (base mo n : Nat) (h1 : 1 ≤ m.cfg.nBytes) (hw : Widening m) (hn : n ≤ m.cfg.nBytes) :
    physSpec m base mo n = [base + mo * mult m.cfg + totalOffset m] := by
  induction m generalizing base mo n with
  | root c b =>
    simp only [Map.cfg] at hn
    simp [physSpec, localAddrs, hn, totalOffset, Map.cfg]
  | sub c off p ih =>
    obtain ⟨h2, h3⟩ := hw
    simp only [Map.cfg] at h1 hn
    rw [physSpec]
    have hl : localAddrs c base mo n = [base + mo * mult c] := by simp [localAddrs, hn]
    rw [hl]
    simp only [List.flatMap_cons, List.flatMap_nil, List.append_nil, totalOffset]
    rw [ratio_widening _ _ h1 h2, ih _ 0 c.nBytes (by omega) h3 h2]
    simp [Map.cfg]; omega

theorem baseAddr_total (m : Map) : baseAddr m = totalOffset m := by
  induction m with
  | root => rfl
  | sub c off p ih => simp [baseAddr, totalOffset, ih]

/-! ### bursts -/

/-- All word addresses of `n` consecutive memory words are different. -/
theorem burst_write (order : Order) (ho : ∀ l, (order l).Perm l) (w : Nat) (nb : Int) (be st : Nat) (vs : List Nat) (as : List Nat)
    (hne : as ≠ [])
    (hd : ∀ i j p q (hi : i < as.length) (hj : j < as.length), p < vs.length → q < vs.length →
      as[i] + st * p = as[j] + st * q → i = j ∧ p = q) (s : Nat → Nat) (ok : Bool) :
    ∃ s' ok', busWrite memBus order w nb be st as vs (s, ok) = (s', ok') ∧ (ok' = true ∨ (vs = [] ∧ ok' = ok)) ∧
      (∀ j p (hj : j < as.length) (hp : p < vs.length), s' (as[j] + st * p) = (vs[p] >>> (j * w * 8)) &&& (2 ^ (w * 8) - 1)) ∧
      (∀ a, (∀ j p (hj : j < as.length), p < vs.length → a ≠ as[j] + st * p) → s' a = s a) := by
  induction vs generalizing as s ok with
  | nil => exact ⟨s, ok, rfl, .inr ⟨rfl, rfl⟩, by simp, by simp⟩
  | cons v vs ih =>
    have hn : as.Nodup := by
      rw [List.nodup_iff_pairwise_ne, List.pairwise_iff_getElem]
      intro i j hi hj hij he
      have := (hd i j 0 0 hi hj (by simp) (by simp) (by rw [he])).1
      omega
    obtain ⟨s1, ok1, h1, h2, h3, h4⟩ := write_word order ho w v nb be as hn s ok
    have hok1 : ok1 = true := by rcases h2 with h | ⟨h, _⟩; exact h; exact absurd h hne
    have hd' : ∀ i j p q (hi : i < (as.map (· + st)).length) (hj : j < (as.map (· + st)).length), p < vs.length → q < vs.length →
      (as.map (· + st))[i] + st * p = (as.map (· + st))[j] + st * q → i = j ∧ p = q := by
      intro i j p q hi hj hp hq he
      simp only [List.length_map] at hi hj
      have := hd i j (p + 1) (q + 1) hi hj (by simp; omega) (by simp; omega) (by
        simp only [List.getElem_map] at he
        rw [Nat.mul_add, Nat.mul_add]; omega)
      exact ⟨this.1, by omega⟩
    obtain ⟨s2, ok2, g1, g2, g3, g4⟩ := ih (as.map (· + st)) (by simpa using hne) hd' s1 ok1
    refine ⟨s2, ok2, ?_, ?_, ?_, ?_⟩
    · rw [busWrite, h1]; exact g1
    · left; rcases g2 with h | ⟨_, h⟩
      · exact h
      · rw [h, hok1]
    · intro j p hj hp
      cases p with
      | zero =>
        have : s2 (as[j] + st * 0) = s1 (as[j] + st * 0) := by
          apply g4
          intro i q hi hq he
          simp only [List.length_map] at hi
          have := (hd j i 0 (q + 1) hj hi (by simp) (by simp; omega) (by
            simp only [List.getElem_map] at he
            rw [he, Nat.mul_add]; omega)).2
          omega
        rw [this]
        exact h3 j hj
      | succ p =>
        have := g3 j p (by simpa using hj) (by simpa using hp)
        simp only [List.getElem_map] at this
        simp only [List.getElem_cons_succ]
        rw [← this]
        congr 1
        rw [Nat.mul_add]; omega
    · intro a ha
      rw [g4 a, h4 a]
      · intro hm
        obtain ⟨j, hj, rfl⟩ := List.mem_iff_getElem.1 hm
        exact ha j 0 hj (by simp) (by simp)
      · intro j p hj hp he
        simp only [List.length_map] at hj
        apply ha j (p + 1) hj (by simp; omega)
        simp only [List.getElem_map] at he
        rw [he, Nat.mul_add]; omega

theorem burst_read (order : Order) (ho : ∀ l, (order l).Perm l) (w : Nat) (hw : 1 ≤ w) (nb : Int) (be st : Nat) (vs : List Nat) (as : List Nat)
    (hne : as ≠ []) (s : Nat → Nat) (ok : Bool) (hv : ∀ v ∈ vs, v < 2 ^ (as.length * (w * 8)))
    (hs : ∀ j p (hj : j < as.length) (hp : p < vs.length), s (as[j] + st * p) = (vs[p] >>> (j * w * 8)) &&& (2 ^ (w * 8) - 1)) :
    ∃ ok', busRead memBus order w nb be st as vs.length (s, ok) = (s, vs, ok') ∧ (ok' = true ∨ (vs = [] ∧ ok' = ok)) := by
  induction vs generalizing as ok with
  | nil => exact ⟨ok, rfl, .inr ⟨rfl, rfl⟩⟩
  | cons v vs ih =>
    have hp := ho (mkAccesses .read w 0 nb be 0 as)
    obtain ⟨ok1, h1, h2⟩ := runReads_mem w _ (order_perm_kind hp) s 0 ok
    have hok1 : ok1 = true := by
      rcases h2 with h | ⟨h, _⟩
      · exact h
      · rw [h] at hp
        have := hp.length_eq
        rw [mkAccesses_length] at this
        exact absurd (List.length_eq_zero_iff.1 this.symm) hne
    rw [readback w v nb be as hw (hv v (by simp)) s (fun j hj => hs j 0 hj (by simp)) _ hp] at h1
    obtain ⟨ok2, g1, g2⟩ := ih (as.map (· + st)) (by simpa using hne) ok1 (fun v' h' => by simpa using hv v' (by simp [h']))
      (fun j p hj hp => by
        simp only [List.length_map] at hj
        have := hs j (p + 1) hj (by simp; omega)
        simp only [List.getElem_cons_succ] at this
        rw [← this, List.getElem_map]
        congr 1
        rw [Nat.mul_add]; omega)
    refine ⟨ok2, ?_, .inl ?_⟩
    · rw [List.length_cons, busRead, h1]; simp only [g1]
    · rcases g2 with h | ⟨_, h⟩
      · exact h
      · rw [h, hok1]

/-! ### FIFO device -/

theorem runWrites_ok {σ} (bus : Bus σ) (op : BusOp) (ops : List BusOp) (s s' : σ) (d : Nat) (ok : Bool) (h : bus s op = (s', d, true)) :
    runWrites bus (op :: ops) (s, ok) = runWrites bus ops (s', true) := by
  simp [runWrites, h]

theorem runReads_ok {σ} (bus : Bus σ) (w : Nat) (op : BusOp) (ops : List BusOp) (s s' : σ) (d v : Nat) (ok : Bool)
    (h : bus s { op with data := 0 } = (s', d, true)) :
    runReads bus w (op :: ops) (s, v, ok) = runReads bus w ops (s', v ||| ((d &&& (2 ^ (w * 8) - 1)) <<< (op.data * 8)), true) := by
  simp only [runReads, h]; rfl

theorem runWrites_fifo (w v : Nat) (nb : Int) (be i : Nat) (as : List Nat) (s : List Nat) (ok : Bool) :
    (runWrites fifoBus (mkAccesses .write w v nb be i as) (s, ok)).1 =
      s ++ (List.range' i as.length).map (fun j => (v >>> (j * w * 8)) &&& (2 ^ (w * 8) - 1)) := by
  induction as generalizing i s ok with
  | nil => simp [mkAccesses, runWrites]
  | cons a as ih =>
    rw [mkAccesses, runWrites_ok (h := rfl), ih]
    simp [List.range'_succ]

theorem runReads_fifo (w v : Nat) (nb : Int) (be i : Nat) (as : List Nat) (rest : List Nat) (acc : Nat) (ok : Bool) :
    ∃ ok', runReads fifoBus w (mkAccesses .read w 0 nb be i as)
      ((List.range' i as.length).map (fun j => (v >>> (j * w * 8)) &&& (2 ^ (w * 8) - 1)) ++ rest, acc, ok) =
      (rest, (List.range' i as.length).foldl (fun acc j => acc |||
        ((((v >>> (j * w * 8)) &&& (2 ^ (w * 8) - 1)) &&& (2 ^ (w * 8) - 1)) <<< (j * w * 8))) acc, ok') ∧
      (ok' = true ∨ (as = [] ∧ ok' = ok)) := by
  induction as generalizing i acc ok with
  | nil => exact ⟨ok, rfl, .inr ⟨rfl, rfl⟩⟩
  | cons a as ih =>
    obtain ⟨ok', h1, h2⟩ := ih (i + 1) (acc ||| ((((v >>> (i * w * 8)) &&& (2 ^ (w * 8) - 1)) &&& (2 ^ (w * 8) - 1)) <<< (i * w * 8))) true
    refine ⟨ok', ?_, .inl (by rcases h2 with h | ⟨_, h⟩ <;> exact h)⟩
    rw [mkAccesses, List.length_cons, List.range'_succ, List.map_cons, List.cons_append, runReads_ok (h := rfl), List.foldl_cons]
    exact h1

theorem fifo_roundtrip (w v : Nat) (hw : 1 ≤ w) (nb nb' : Int) (be be' : Nat) (as as' : List Nat) (hl : as'.length = as.length)
    (hne : as ≠ []) (hv : v < 2 ^ (as.length * (w * 8))) (ok ok' : Bool) :
    runReads fifoBus w (mkAccesses .read w 0 nb' be' 0 as')
      ((runWrites fifoBus (mkAccesses .write w v nb be 0 as) ([], ok)).1, 0, ok') = ([], v, true) := by
  rw [runWrites_fifo]
  obtain ⟨ok2, h1, h2⟩ := runReads_fifo w v nb' be' 0 as' [] 0 ok'
  rw [hl, List.append_nil] at h1
  rw [List.nil_append, h1]
  have : ok2 = true := by
    rcases h2 with h | ⟨h, _⟩
    · exact h
    · rw [h] at hl; exact absurd (List.length_eq_zero_iff.1 hl.symm) hne
  rw [this]
  congr 2
  apply Nat.eq_of_testBit_eq
  intro b
  rw [Reg.foldl_or_testBit, Nat.zero_testBit, Bool.false_or, ← List.range_eq_range']
  simp only [piece_testBit]
  rw [any_piece v w _ b hw]
  by_cases h : b < as.length * (w * 8)
  · simp [h]
  · simp [RegField.testBit_high hv (by omega : _ ≤ b)]

/-! ### errors -/

theorem runWrites_errors {σ} (bus : Bus σ) (ops : List BusOp) (hne : ops ≠ []) (s : σ) (log : List BusOp) (ok : Bool) :
    (runWrites (recorded bus) ops ((s, log), ok)).2 = (statuses bus s ops).all id ∧
    (runWrites (recorded bus) ops ((s, log), ok)).1.2 = log ++ ops.take (((statuses bus s ops).takeWhile id).length + 1) := by
  induction ops generalizing s log ok with
  | nil => exact absurd rfl hne
  | cons op ops ih =>
    obtain ⟨s', d, b, hb⟩ : ∃ s' d b, bus s op = (s', d, b) := ⟨_, _, _, rfl⟩
    have hr : recorded bus (s, log) op = ((s', log ++ [op]), d, b) := by simp [recorded, hb]
    cases b
    · simp [runWrites, hr, statuses, hb]
    · rw [runWrites_ok (h := hr)]
      simp only [statuses, hb, List.all_cons, id, Bool.true_and, List.takeWhile_cons, if_true, List.length_cons, List.take_succ_cons]
      cases ops with
      | nil => simp [runWrites, statuses]
      | cons op' ops' => simpa using ih (by simp) s' (log ++ [op]) true

theorem runReads_errors {σ} (bus : Bus σ) (w : Nat) (ops : List BusOp) (hne : ops ≠ []) (s : σ) (log : List BusOp) (v : Nat) (ok : Bool) :
    (runReads (recorded bus) w ops ((s, log), v, ok)).2.2 = (statuses bus s (ops.map fun op => { op with data := 0 })).all id ∧
    (runReads (recorded bus) w ops ((s, log), v, ok)).1.2 = log ++ (ops.map fun op => { op with data := 0 }).take
      (((statuses bus s (ops.map fun op => { op with data := 0 })).takeWhile id).length + 1) := by
  induction ops generalizing s log v ok with
  | nil => exact absurd rfl hne
  | cons op ops ih =>
    obtain ⟨s', d, b, hb⟩ : ∃ s' d b, bus s { op with data := 0 } = (s', d, b) := ⟨_, _, _, rfl⟩
    have hr : recorded bus (s, log) { op with data := 0 } = ((s', log ++ [{ op with data := 0 }]), d, b) := by simp [recorded, hb]
    cases b
    · simp [runReads, hr, statuses, hb]
    · rw [runReads_ok (h := hr)]
      simp only [statuses, hb, List.map_cons, List.all_cons, id, Bool.true_and, List.takeWhile_cons, if_true, List.length_cons, List.take_succ_cons]
      cases ops with
      | nil => simp [runReads, statuses]
      | cons op' ops' =>
        obtain ⟨a, b⟩ := ih (by simp) s' (log ++ [{ op with data := 0 }]) (v ||| ((d &&& (2 ^ (w * 8) - 1)) <<< (op.data * 8))) true
        exact ⟨a, by rw [b, List.append_assoc]; rfl⟩

/-! ### tables -/

theorem initTable_claims (es : List Entry) :
    initTable es = (claims es).foldl (fun t c => place c.acc c.rg t c.addr) {} := by
  simp only [initTable, claims]
  generalize ({} : Table) = t
  induction es generalizing t with
  | nil => rfl
  | cons e es ih =>
    rw [List.foldl_cons, ih, List.flatMap_cons, List.foldl_append, List.foldl_map]

/-- What one address looks like. -/
def at_ (t : Table) (a : Nat) : Option Nat × Option Nat × List (Nat × Nat) :=
  (t.byOffset a, t.byOffsetWO a, (t.warnings.filter (·.2.2 = a)).map fun x => (x.1, x.2.1))

/-- The effect of a claim on its own address. -/
def place1 (acc : Nat → RegField.Acc) (rg : Nat) (c : Option Nat × Option Nat × List (Nat × Nat)) : Option Nat × Option Nat × List (Nat × Nat) :=
  match c.1 with
  | some rg2 =>
    if acc rg = .RO ∧ acc rg2 = .WO then (some rg, some rg2, c.2.2)
    else if acc rg = .WO ∧ acc rg2 = .RO then (c.1, some rg, c.2.2)
    else (c.1, c.2.1, c.2.2 ++ [(rg, rg2)])
  | none => (some rg, c.2.1, c.2.2)

theorem place_at (acc : Nat → RegField.Acc) (rg : Nat) (t : Table) (b a : Nat) :
    at_ (place acc rg t b) a = if b = a then place1 acc rg (at_ t a) else at_ t a := by
  by_cases hab : b = a
  · subst hab
    rw [if_pos rfl]
    simp only [place, place1, at_]
    split
    · next h => (repeat' split) <;> simp_all [setAt]
    · next h => simp_all [setAt]
  · have hba : ¬ a = b := fun h => hab h.symm
    rw [if_neg hab]
    simp only [place, at_]
    split
    · (repeat' split) <;> simp_all [setAt]
    · simp_all [setAt]

theorem table_at (cs : List Claim) (t : Table) (a : Nat) :
    at_ (cs.foldl (fun t c => place c.acc c.rg t c.addr) t) a =
      (cs.filter (·.addr = a)).foldl (fun x c => place1 c.acc c.rg x) (at_ t a) := by
  induction cs generalizing t with
  | nil => rfl
  | cons c cs ih =>
    rw [List.foldl_cons, ih, place_at]
    by_cases h : c.addr = a
    · simp [h]
    · simp [h]

theorem at_init (es : List Entry) (a : Nat) :
    at_ (initTable es) a = ((claims es).filter (·.addr = a)).foldl (fun x c => place1 c.acc c.rg x) (none, none, []) := by
  rw [initTable_claims, table_at]; rfl

theorem lookup_at (t : Table) (a : Nat) (rd : Bool) :
    getRegByOffset t a rd = if rd = false ∧ (at_ t a).2.1.isSome then (at_ t a).2.1 else (at_ t a).1 := rfl

theorem place1_inv (cs : List Claim) (P : Nat → Prop) (hP : ∀ c ∈ cs, P c.rg) (x : Option Nat × Option Nat × List (Nat × Nat))
    (h1 : ∀ r, x.1 = some r → P r) (h2 : ∀ r, x.2.1 = some r → P r) :
    (∀ r, (cs.foldl (fun x c => place1 c.acc c.rg x) x).1 = some r → P r) ∧
    (∀ r, (cs.foldl (fun x c => place1 c.acc c.rg x) x).2.1 = some r → P r) ∧
    (x.1.isSome ∨ cs ≠ [] → (cs.foldl (fun x c => place1 c.acc c.rg x) x).1.isSome) := by
  induction cs generalizing x with
  | nil => exact ⟨h1, h2, by simp⟩
  | cons c cs ih =>
    have hc := hP c (by simp)
    have key : (∀ r, (place1 c.acc c.rg x).1 = some r → P r) ∧ (∀ r, (place1 c.acc c.rg x).2.1 = some r → P r) ∧
        (place1 c.acc c.rg x).1.isSome := by
      obtain ⟨x1, x2, x3⟩ := x
      cases x1 with
      | none => simp only [place1]; exact ⟨by simpa using hc, h2, rfl⟩
      | some r =>
        have hr := h1 r rfl
        simp only [place1]
        (repeat' split)
        · exact ⟨by simpa using hc, by simpa using hr, rfl⟩
        · exact ⟨by simpa using hr, by simpa using hc, rfl⟩
        · exact ⟨by simpa using hr, h2, rfl⟩
    obtain ⟨i1, i2, i3⟩ := ih (fun d hd => hP d (by simp [hd])) (place1 c.acc c.rg x) key.1 key.2.1
    exact ⟨i1, i2, fun _ => i3 (.inl key.2.2)⟩

theorem lookup_claims (es : List Entry) (a : Nat) :
    (∀ rd r, getRegByOffset (initTable es) a rd = some r → ∃ c ∈ (claims es).filter (·.addr = a), c.rg = r) ∧
    (∀ rd, (claims es).filter (·.addr = a) ≠ [] → (getRegByOffset (initTable es) a rd).isSome) := by
  have := place1_inv ((claims es).filter (·.addr = a)) (fun r => ∃ c ∈ (claims es).filter (·.addr = a), c.rg = r)
    (fun c hc => ⟨c, hc, rfl⟩) (none, none, []) (by simp) (by simp)
  rw [← at_init] at this
  obtain ⟨h1, h2, h3⟩ := this
  constructor
  · intro rd r h
    rw [lookup_at] at h
    split at h
    · exact h2 r h
    · exact h1 r h
  · intro rd hne
    rw [lookup_at]
    split
    · next h => exact h.2
    · exact h3 (.inr hne)

theorem first_claim (es : List Entry) (a : Nat) (c : Claim) (cs : List Claim) (hc : (claims es).filter (·.addr = a) = c :: cs)
    (hord : ∀ d ∈ cs, ¬ (d.acc d.rg = .RO ∧ d.acc c.rg = .WO) ∧ ¬ (d.acc d.rg = .WO ∧ d.acc c.rg = .RO)) :
    at_ (initTable es) a = (some c.rg, none, cs.map fun d => (d.rg, c.rg)) := by
  rw [at_init, hc, List.foldl_cons]
  have : ∀ ws, cs.foldl (fun x c => place1 c.acc c.rg x) (some c.rg, none, ws) = (some c.rg, none, ws ++ cs.map fun d => (d.rg, c.rg)) := by
    clear hc
    induction cs with
    | nil => simp
    | cons d ds ih =>
      intro ws
      have hd := hord d (by simp)
      rw [List.foldl_cons]
      have : place1 d.acc d.rg (some c.rg, none, ws) = (some c.rg, none, ws ++ [(d.rg, c.rg)]) := by
        simp only [place1]; rw [if_neg hd.1, if_neg hd.2]
      rw [this, ih (fun e he => hord e (by simp [he]))]
      simp
  exact this []

theorem warnings_at (t : Table) (a : Nat) (cs : List Claim) (f : Claim → Nat × Nat) (h : (at_ t a).2.2 = cs.map f) :
    t.warnings.filter (·.2.2 = a) = cs.map fun d => ((f d).1, (f d).2, a) := by
  simp only [at_] at h
  have hall : ∀ x ∈ t.warnings.filter (·.2.2 = a), x.2.2 = a := by
    intro x hx; simpa using (List.mem_filter.1 hx).2
  generalize t.warnings.filter (·.2.2 = a) = l at h hall
  induction cs generalizing l with
  | nil => simpa using h
  | cons c cs ih =>
    cases l with
    | nil => simp at h
    | cons x l =>
      simp only [List.map_cons, List.cons.injEq] at h ⊢
      refine ⟨?_, ih l h.2 (fun y hy => hall y (by simp [hy]))⟩
      have := hall x (by simp)
      obtain ⟨x1, x2, x3⟩ := x
      simp only at this h
      rw [← h.1, this]

theorem place_free (acc : Nat → RegField.Acc) (rg : Nat) (addrs : List Nat) (t : Table) (a : Nat) (ha : a ∈ addrs)
    (h1 : t.byOffset a = none) (h2 : t.byOffsetWO a = none) (rd : Bool) :
    getRegByOffset (addrs.foldl (place acc rg) t) a rd = some rg := by
  have e : addrs.foldl (place acc rg) t = (addrs.map fun b => (⟨acc, rg, b⟩ : Claim)).foldl (fun t c => place c.acc c.rg t c.addr) t := by
    rw [List.foldl_map]
  have h := place1_inv ((addrs.map fun b => (⟨acc, rg, b⟩ : Claim)).filter (·.addr = a)) (· = rg)
    (by intro c hc; obtain ⟨b, _, rfl⟩ := List.mem_map.1 (List.mem_filter.1 hc).1; rfl) (at_ t a)
    (by simp [at_, h1]) (by simp [at_, h2])
  rw [← table_at, ← e] at h
  obtain ⟨g1, g2, g3⟩ := h
  have hs := g3 (.inr (by
    intro hn
    have : (⟨acc, rg, a⟩ : Claim) ∈ (addrs.map fun b => (⟨acc, rg, b⟩ : Claim)).filter (·.addr = a) :=
      List.mem_filter.2 ⟨List.mem_map.2 ⟨a, ha, rfl⟩, by simp⟩
    rw [hn] at this; simp at this))
  rw [lookup_at]
  split
  · next hh => obtain ⟨r, hr⟩ := Option.isSome_iff_exists.1 hh.2; rw [hr, g2 r hr]
  · obtain ⟨r, hr⟩ := Option.isSome_iff_exists.1 hs; rw [hr, g1 r hr]

theorem accessLoop_R (as : List RegField.Acc) : (Reg.accessLoop true false as = .RO ↔ ∀ a ∈ as, a = .RO ∨ a = .RC ∨ a = .RS) ∧
    Reg.accessLoop true false as ≠ .WO := by
  induction as with
  | nil => simp [Reg.accessLoop]
  | cons a as ih => cases a <;> simp [Reg.accessLoop, ih]

theorem accessLoop_W (as : List RegField.Acc) : (Reg.accessLoop false true as = .WO ↔ ∀ a ∈ as, a = .WO ∨ a = .WOC ∨ a = .WOS ∨ a = .WO1) ∧
    Reg.accessLoop false true as ≠ .RO := by
  induction as with
  | nil => simp [Reg.accessLoop]
  | cons a as ih => cases a <;> simp [Reg.accessLoop, ih]

theorem accessLoop_iff (as : List RegField.Acc) :
    (Reg.accessLoop false false as = .RO ↔ as ≠ [] ∧ ∀ a ∈ as, a = .RO ∨ a = .RC ∨ a = .RS) ∧
    (Reg.accessLoop false false as = .WO ↔ as ≠ [] ∧ ∀ a ∈ as, a = .WO ∨ a = .WOC ∨ a = .WOS ∨ a = .WO1) := by
  cases as with
  | nil => simp [Reg.accessLoop]
  | cons a as => cases a <;> simp [Reg.accessLoop, accessLoop_R, accessLoop_W]

theorem forget_all (rg : Nat) (old : List Nat) (hn : old.Nodup) (t : Table)
    (hown : ∀ a ∈ old, t.byOffset a = some rg ∧ t.byOffsetWO a = none) :
    ∃ t', old.foldlM (forget rg) t = some t' ∧ (∀ a ∈ old, t'.byOffset a = none ∧ t'.byOffsetWO a = none) ∧
      (∀ a, a ∉ old → t'.byOffset a = t.byOffset a ∧ t'.byOffsetWO a = t.byOffsetWO a) := by
  induction old generalizing t with
  | nil => exact ⟨t, rfl, by simp, by simp⟩
  | cons a old ih =>
    have ⟨ha1, ha2⟩ := hown a (by simp)
    simp only [List.nodup_cons] at hn
    have hf : forget rg t a = some { t with byOffset := setAt t.byOffset a none } := by simp [forget, ha1, ha2]
    obtain ⟨t', h1, h2, h3⟩ := ih hn.2 { t with byOffset := setAt t.byOffset a none } (by
      intro b hb
      have hba : b ≠ a := fun h => hn.1 (h ▸ hb)
      have := hown b (by simp [hb])
      simpa [setAt, hba] using this)
    refine ⟨t', by simp [hf, h1], ?_, ?_⟩
    · intro b hb
      by_cases hbo : b ∈ old
      · exact h2 b hbo
      · have : b = a := by simpa [hbo] using hb
        subst this
        have := h3 b hbo
        simp only [setAt, if_true] at this
        exact ⟨this.1, this.2.trans ha2⟩
    · intro b hb
      simp only [List.mem_cons, not_or] at hb
      have := h3 b hb.2
      simpa [setAt, hb.1] using this

end Verif.RegMap
