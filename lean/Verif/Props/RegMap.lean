import Verif.Lemmas.RegMap
/-! # Properties of address maps and bus accesses: C17, C18, C19, C59, C60 -/
namespace Verif.RegMap

/-! ## C18: physical addresses -/

/-- An item of `n` bytes takes the least number of words that hold it. -/
theorem C18_number_of_addresses (c : Cfg) (b base mo n : Nat) (hn : 1 ≤ n) (hw : 1 ≤ c.nBytes) :
    IsWordCount n c.nBytes (physAddrs (.root c b) base mo n []).1.length ∧ (physAddrs (.root c b) base mo n []).2 = c.nBytes := by
  have h0 : ¬ n = 0 := by omega
  constructor
  · simp only [physAddrs, h0, if_false, List.length_map, localAddrs_length c base mo n hn]
    exact words_spec n _ hn hw
  · simp [physAddrs, h0]

example : (physAddrs (.root ⟨4, true, .little⟩ 0x1000) 0x10 0 7 []) = ([0x1010, 0x1014], 4) := by decide

/-- In a root map the addresses are consecutive addressing units from base plus offset, ascending for little-endian, descending for
big-endian, constant for FIFO maps. -/
theorem C18_root_addresses (c : Cfg) (b base n : Nat) (hn : 1 ≤ n) (he : c.endian ≠ .none) (k : Nat)
    (hk : k = (physAddrs (.root c b) base 0 n []).1.length) (i : Nat) (hi : i < k) :
    (physAddrs (.root c b) base 0 n []).1[i]? =
      some (wordAddr c.endian (b + base) (if c.byteAddr then c.nBytes else 1) k i) := by
  have h0 : ¬ n = 0 := by omega
  simp only [physAddrs, h0, if_false, List.length_map, localAddrs_length c base 0 n hn] at hk ⊢
  subst hk
  rw [List.getElem?_map, localAddrs_get c base 0 n i hn he hi]
  simp only [Option.map_some, Nat.zero_mul, Nat.add_zero, mult]
  cases hc : c.endian <;> simp only [wordAddr] <;> first | exact absurd hc he | (congr 1; omega)

example : (physAddrs (.root ⟨2, true, .big⟩ 0x100) 4 0 6 []).1 = [0x108, 0x106, 0x104] := by decide
example : (physAddrs (.root ⟨2, true, .bigFifo⟩ 0x100) 4 0 6 []).1 = [0x104, 0x104, 0x104] := by decide

/-- The big-endian list is the reverse of the little-endian one. -/
theorem C18_big_is_reverse_of_little (w : Nat) (ba : Bool) (b base mo n : Nat) :
    (physAddrs (.root ⟨w, ba, .big⟩ b) base mo n []).1 = (physAddrs (.root ⟨w, ba, .little⟩ b) base mo n []).1.reverse := by
  simp only [physAddrs]
  split
  · rfl
  · simp only [localAddrs, mult, ← List.map_reverse]
    split
    · rfl
    · simp [countDown_reverse]

/-- Without an endianness the words of an item wider than the bus all get local address 0 (the code reports `UVM/REG_MAP`). -/
theorem C125_no_endian_fails :
    ∃ c b base n, c.endian = .none ∧ 1 ≤ c.nBytes ∧ (physAddrs (.root c b) base 0 n []).1 = [b, b] ∧ base ≠ 0 :=
  ⟨⟨1, true, .none⟩, 0x40, 8, 2, by decide⟩

/-- `get_base_addr` of a map is the root's base plus all submap offsets. -/
theorem C18_base_address (m : Map) : baseAddr m = totalOffset m := baseAddr_total m

/-- The data width used for the accesses is that of the narrowest bus on the way to the root. -/
theorem C18_bus_width (m : Map) (hp : Positive m) (base mo n : Nat) (hn : 1 ≤ n) : (physAddrs m base mo n []).2 = narrowest m :=
  phys_width m hp base mo n hn []

example : (physAddrs (.sub ⟨4, true, .little⟩ 0x10 (.root ⟨2, true, .little⟩ 0)) 0 0 8 []).2 = 2 := by decide

/-- A single-word item: when no parent is narrower than its child, nesting of any depth translates the address by the sum of the offsets. -/
theorem C18_nested_single_word (m : Map) (base mo n : Nat) (hn : 1 ≤ n) (hw : Widening m) (hle : n ≤ m.cfg.nBytes) :
    (physAddrs m base mo n []).1 = [base + mo * (if m.cfg.byteAddr then m.cfg.nBytes else 1) + totalOffset m] := by
  rw [physAddrs_spec m base mo n hn (splitNearRoot_of_widening m n (by omega) hw hle), physSpec_widening m base mo n (by omega) hw hle]
  rfl

example : Widening (.sub ⟨2, true, .little⟩ 0x10 (.sub ⟨2, true, .little⟩ 0x200 (.root ⟨4, true, .big⟩ 0x4000))) := by
  simp [Widening, Map.cfg]
example : (physAddrs (.sub ⟨2, true, .little⟩ 0x10 (.sub ⟨2, true, .little⟩ 0x200 (.root ⟨4, true, .big⟩ 0x4000))) 6 0 2 []).1 = [0x4216] := by decide

/-- The general case, of any depth and widths: the addresses are those of the words of each level placed in the level above,
provided no map two or more levels below the root has to split the access. -/
theorem C125_nested_addresses_partial (m : Map) (base mo n : Nat) (hn : 1 ≤ n) (h : SplitNearRoot m n) :
    (physAddrs m base mo n []).1 = physSpec m base mo n :=
  physAddrs_spec m base mo n hn h

example : SplitNearRoot (.sub ⟨4, true, .little⟩ 0x10 (.root ⟨2, true, .little⟩ 0)) 8 := by simp [SplitNearRoot]
example : (physAddrs (.sub ⟨4, true, .little⟩ 0x10 (.root ⟨2, true, .little⟩ 0)) 0 0 8 []).1 = [0x10, 0x12, 0x18, 0x1a] := by decide

/-- Without the proviso it fails: with three levels of maps of 2-byte buses, a 4-byte register gets three addresses instead of two, the
first one twice. -/
theorem C125_nested_addresses_fails :
    ∃ m base n, Widening m ∧ 1 ≤ n ∧ physSpec m base 0 n = [0, 2] ∧ (physAddrs m base 0 n []).1 = [0, 0, 2] :=
  ⟨.sub ⟨2, true, .little⟩ 0 (.sub ⟨2, true, .little⟩ 0 (.root ⟨2, true, .little⟩ 0)), 0, 4, by
    refine ⟨⟨by decide, by decide, trivial⟩, by decide, by decide, by decide⟩⟩

/-! ## C17: accesses -/

/-- The writes issued for a value: one per address, in order, each carrying the word of the value at its position. -/
theorem C17_write_accesses (w v : Nat) (nb : Int) (be : Nat) (as : List Nat) (i : Nat) (hi : i < as.length) :
    ∃ op, (mkAccesses .write w v nb be 0 as)[i]? = some op ∧ op.kind = .write ∧ op.addr = as[i] ∧
      op.data = v / 2 ^ (8 * w * i) % 2 ^ (8 * w) ∧ op.nBits = min (nb - (8 * w * i : Nat)) (8 * w : Nat) ∧ op.byteEn = be := by
  refine ⟨_, mkAccesses_get _ _ _ _ _ as 0 i hi, rfl, rfl, ?_, ?_, rfl⟩
  · simp only [mkOp, Nat.zero_add]
    rw [Nat.and_two_pow_sub_one_eq_mod, Nat.shiftRight_eq_div_pow, Nat.mul_comm 8 w, show i * w * 8 = w * 8 * i by
      rw [Nat.mul_comm i w, Nat.mul_assoc, Nat.mul_comm i 8, ← Nat.mul_assoc]]
  · simp only [mkOp, Nat.zero_add]
    have h1 : ((8 * w * i : Nat) : Int) = (i : Int) * (w : Int) * 8 := by
      push_cast; rw [Int.mul_comm (8 : Int), Int.mul_comm ((w : Int) * 8), ← Int.mul_assoc]
    rw [h1, Nat.mul_comm 8 w]
    omega

/-- As many accesses as addresses, for reads and writes. -/
theorem C17_access_count (d : Dir) (w v : Nat) (nb : Int) (be : Nat) (as : List Nat) :
    (mkAccesses d w v nb be 0 as).length = as.length ∧ (mkAccesses d w v nb be 0 as).map (·.addr) = as :=
  ⟨mkAccesses_length .., mkAccesses_addrs ..⟩

/-- A value written to distinct addresses of a memory-like device and read back from them is the same value, whatever order the
transaction order policy puts the accesses in. -/
theorem C17_write_then_read (o1 o2 : Order) (h1 : Reorders o1) (h2 : Reorders o2) (w v : Nat) (hw : 1 ≤ w) (nb nb' : Int)
    (be be' st st' : Nat) (as : List Nat) (hne : as ≠ []) (hd : as.Nodup) (hv : v < 2 ^ (8 * w * as.length)) (s : Nat → Nat) (ok ok' : Bool) :
    (busWrite memBus o1 w nb be st as [v] (s, ok)).2 = true ∧
    (busRead memBus o2 w nb' be' st' as 1 ((busWrite memBus o1 w nb be st as [v] (s, ok)).1, ok')).2 = ([v], true) ∧
    ∀ a, a ∉ as → (busWrite memBus o1 w nb be st as [v] (s, ok)).1 a = s a := by
  have hv' : v < 2 ^ (as.length * (w * 8)) := by rwa [show as.length * (w * 8) = 8 * w * as.length by rw [Nat.mul_comm, Nat.mul_comm w 8]]
  obtain ⟨s', k, e1, e2, e3, e4⟩ := write_word o1 h1 w v nb be as hd s ok
  have hk : k = true := by rcases e2 with h | ⟨h, _⟩; exact h; exact absurd h hne
  have eW : busWrite memBus o1 w nb be st as [v] (s, ok) = (s', k) := by simp only [busWrite, e1]
  obtain ⟨k', g1, g2⟩ := burst_read o2 h2 w hw nb' be' st' [v] as hne s' ok' (by simpa using hv') (by
    intro j p hj hp
    simp only [List.length_cons, List.length_nil] at hp
    have : p = 0 := by omega
    subst this
    exact e3 j hj)
  have hk' : k' = true := by rcases g2 with h | ⟨h, _⟩; exact h; exact absurd h (by simp)
  rw [eW]
  refine ⟨hk, ?_, e4⟩
  simp only [List.length_cons, List.length_nil] at g1
  rw [g1, hk']

example : (busRead memBus List.reverse 2 32 3 0 [4, 6] 1 ((busWrite memBus id 2 32 3 0 [4, 6] [0xDEADBEEF] (fun _ => 0, true)).1, true)).2
    = ([0xDEADBEEF], true) := by decide

/-- End to end in a root map: a register of `n` bytes with any value that fits in it. -/
theorem C17_register_round_trip (c : Cfg) (b off n : Nat) (hn : 1 ≤ n) (hw : 1 ≤ c.nBytes) (he : c.endian = .little ∨ c.endian = .big)
    (o1 o2 : Order) (h1 : Reorders o1) (h2 : Reorders o2) (nb : Int) (be v : Nat) (hv : v < 2 ^ (8 * n)) (s : Nat → Nat) (ok ok' : Bool)
    (as : List Nat) (w : Nat) (haw : physAddrs (.root c b) off 0 n [] = (as, w)) :
    (busRead memBus o2 w nb be 0 as 1 ((busWrite memBus o1 w nb be 0 as [v] (s, ok)).1, ok')).2 = ([v], true) := by
  have hcnt := C18_number_of_addresses c b off 0 n hn hw
  rw [haw] at hcnt
  obtain ⟨⟨hc1, _⟩, hw2⟩ := hcnt
  have hw2 : w = c.nBytes := hw2
  have hc1 : n ≤ as.length * c.nBytes := hc1
  subst hw2
  have hne : as ≠ [] := by rintro rfl; simp at hc1; omega
  have hget : ∀ i, i < as.length → as[i]? = some (wordAddr c.endian (b + off) (if c.byteAddr then c.nBytes else 1) as.length i) := by
    intro i hi
    have := C18_root_addresses c b off n hn (by rcases he with h | h <;> rw [h] <;> decide) as.length (by rw [haw]) i hi
    rwa [haw] at this
  have hnd : as.Nodup := by
    rw [List.nodup_iff_pairwise_ne, List.pairwise_iff_getElem]
    intro i j hi hj hij hc
    have e1 := hget i hi
    have e2 := hget j hj
    rw [List.getElem?_eq_getElem hi] at e1
    rw [List.getElem?_eq_getElem hj, ← hc] at e2
    rw [e1] at e2
    have hm : 1 ≤ (if c.byteAddr then c.nBytes else 1) := by split <;> omega
    generalize (if c.byteAddr then c.nBytes else 1) = m at e2 hm
    simp only [Option.some.injEq] at e2
    rcases he with h | h <;> rw [h] at e2 <;> simp only [wordAddr] at e2
    · have := Nat.eq_of_mul_eq_mul_right hm (Nat.add_left_cancel e2)
      omega
    · have := Nat.eq_of_mul_eq_mul_right hm (Nat.add_left_cancel e2)
      omega
  refine (C17_write_then_read o1 o2 h1 h2 c.nBytes v hw nb nb be be 0 0 as hne hnd ?_ s ok ok').2.1
  refine Nat.lt_of_lt_of_le hv (Nat.pow_le_pow_right (by omega) ?_)
  rw [Nat.mul_assoc]
  exact Nat.mul_le_mul_left 8 (by rw [Nat.mul_comm]; exact hc1)

example : ∃ as w, physAddrs (.root ⟨2, true, .big⟩ 0x100) 8 0 5 [] = (as, w) ∧ as = [0x10c, 0x10a, 0x108] ∧ w = 2 := ⟨_, _, rfl, by decide, rfl⟩

/-- In a FIFO map all words go to one address; a device that queues them gives the value back, in the default order. -/
theorem C17_fifo_round_trip (w v : Nat) (hw : 1 ≤ w) (nb nb' : Int) (be be' st st' : Nat) (as : List Nat) (hne : as ≠ [])
    (hv : v < 2 ^ (8 * w * as.length)) (ok ok' : Bool) :
    busRead fifoBus id w nb' be' st' as 1 ((busWrite fifoBus id w nb be st as [v] ([], ok)).1, ok') = ([], [v], true) := by
  have hv' : v < 2 ^ (as.length * (w * 8)) := by rwa [show as.length * (w * 8) = 8 * w * as.length by rw [Nat.mul_comm, Nat.mul_comm w 8]]
  have := fifo_roundtrip w v hw nb nb' be be' as as rfl hne hv' ok ok'
  simp only [busWrite, busRead, id, this]

example : busRead fifoBus id 1 16 1 0 [9, 9] 1 ((busWrite fifoBus id 1 16 1 0 [9, 9] [0x1234] ([], true)).1, true) = ([], [0x1234], true) := by decide

/-- The accesses of one value are performed up to and including the first that the bus does not accept; the status is OK
if and only if the bus accepted all. -/
theorem C17_stops_at_first_error {σ} (bus : Bus σ) (o : Order) (w v : Nat) (nb : Int) (be st : Nat) (as : List Nat)
    (hne : o (mkAccesses .write w v nb be 0 as) ≠ []) (s : σ) (ok : Bool) :
    let ops := o (mkAccesses .write w v nb be 0 as)
    let r := busWrite (recorded bus) o w nb be st as [v] ((s, []), ok)
    r.2 = (statuses bus s ops).all id ∧ r.1.2 = ops.take (((statuses bus s ops).takeWhile id).length + 1) := by
  have := runWrites_errors bus _ hne s [] ok
  simpa [busWrite] using this

/-- The same for reads (operations as seen by the bus, with data 0). -/
theorem C17_read_stops_at_first_error {σ} (bus : Bus σ) (o : Order) (w : Nat) (nb : Int) (be st : Nat) (as : List Nat)
    (hne : o (mkAccesses .read w 0 nb be 0 as) ≠ []) (s : σ) (ok : Bool) :
    let ops := (o (mkAccesses .read w 0 nb be 0 as)).map fun op => { op with data := 0 }
    let r := busRead (recorded bus) o w nb be st as 1 ((s, []), ok)
    r.2.2 = (statuses bus s ops).all id ∧ r.1.2 = ops.take (((statuses bus s ops).takeWhile id).length + 1) := by
  have := runReads_errors bus w _ hne s [] 0 ok
  simpa [busRead] using this

/-- A bus that refuses address 0. -/
def refuse0 : Bus Unit := fun _ op => ((), 0, op.addr ≠ 0)

example : statuses refuse0 () (mkAccesses .write 1 0x123456 24 1 0 [1, 0, 2]) = [true, false, true] := by decide

/-- In a burst, an error on one value is forgotten when the next value is written without error. -/
theorem C93_burst_error_reported_fails :
    (busWrite (recorded refuse0) id 1 8 1 1 [0] [5, 6] (((), []), true)).2 = true ∧
    statuses refuse0 () (busWrite (recorded refuse0) id 1 8 1 1 [0] [5, 6] (((), []), true)).1.2 = [false, true] := by decide

/-- C93, the part that holds, and what is wrong in general: the status of a burst of writes is that of its last value alone, whatever the
bus answered for the values before.  So a burst of one value, or one whose last value is refused, is reported correctly; an error on
any earlier value is lost.  Missing: those errors (`C93_burst_error_reported_fails`). -/
theorem C93_status_of_last_partial {σ} (bus : Bus σ) (o : Order) (w v : Nat) (nb : Int) (be st : Nat) (as vs : List Nat) (s : σ × List BusOp) (ok : Bool)
    (hne : o (mkAccesses .write w v nb be 0 (as.map (· + st * vs.length))) ≠ []) :
    (busWrite (recorded bus) o w nb be st as (vs ++ [v]) (s, ok)).2 =
      (statuses bus (busWrite (recorded bus) o w nb be st as vs (s, ok)).1.1 (o (mkAccesses .write w v nb be 0 (as.map (· + st * vs.length))))).all id := by
  have hst : ∀ (vs : List Nat) (as : List Nat) (x : (σ × List BusOp) × Bool),
      busWrite (recorded bus) o w nb be st as (vs ++ [v]) x =
        runWrites (recorded bus) (o (mkAccesses .write w v nb be 0 (as.map (· + st * vs.length)))) (busWrite (recorded bus) o w nb be st as vs x) := by
    intro vs
    induction vs with
    | nil => intro as x; simp [busWrite]
    | cons u vs ih =>
      intro as x
      simp only [List.cons_append, busWrite]
      rw [ih, List.map_map]
      have : (fun x => x + st * vs.length) ∘ (fun x => x + st) = fun x => x + st * (u :: vs).length := by
        funext a
        simp only [Function.comp_apply, List.length_cons, Nat.mul_add, Nat.mul_one]
        omega
      rw [this]
  rw [hst]
  exact (runWrites_errors bus _ hne _ _ _).1

example : (busWrite (recorded refuse0) id 1 8 1 1 [1] ([5] ++ [6]) (((), []), true)).2 = true ∧
    (busWrite (recorded fun _ op => ((), 0, op.addr ≠ 2)) id 1 8 1 1 [1] ([5] ++ [6]) (((), []), true)).2 = false := by decide

/-! ## C59: memories -/

/-- In a root map, a memory of at least two words gets as stride the number of addressing units of one word. -/
theorem C59_memory_addresses (c : Cfg) (b off size n : Nat) (hn : 1 ≤ n) (hs : 2 ≤ size) (he : c.endian ≠ .none) :
    ∃ as st, memInfo (.root c b) off size n = some (as, st) ∧ as.length = words n c.nBytes ∧
      st = words n c.nBytes * (if c.byteAddr then c.nBytes else 1) ∧
      ∀ o i, i < words n c.nBytes → (memAddrs (as, st) o)[i]? =
        some (wordAddr c.endian (b + off + st * o) (if c.byteAddr then c.nBytes else 1) (words n c.nBytes) i) := by
  have h0 : ¬ n = 0 := by omega
  have hk : 1 ≤ words n c.nBytes := by simp [words]
  have len : ∀ mo, (physAddrs (.root c b) off mo n []).1.length = words n c.nBytes := by
    intro mo; simp [physAddrs, h0, localAddrs_length c off mo n hn]
  have get : ∀ mo i, i < words n c.nBytes → (physAddrs (.root c b) off mo n []).1[i]? =
      some (wordAddr c.endian (b + off + mo * (words n c.nBytes * mult c)) (mult c) (words n c.nBytes) i) := by
    intro mo i hi
    simp only [physAddrs, h0, if_false]
    rw [List.getElem?_map, localAddrs_get c off mo n i hn he hi]
    simp only [Option.map_some]
    cases hc : c.endian <;> simp only [wordAddr] <;> first | exact absurd hc he | (congr 1; omega)
  have g0 := get 0 0 (by omega)
  have g1 := get (size - 1) 0 (by omega)
  have l0 := len 0
  simp only [memInfo]
  cases hA : (physAddrs (.root c b) off 0 n []).1 with
  | nil => rw [hA] at l0; simp at l0; omega
  | cons lo as =>
    cases hB : (physAddrs (.root c b) off (size - 1) n []).1 with
    | nil => have := len (size - 1); rw [hB] at this; simp at this; omega
    | cons hi bs =>
      rw [hA] at g0 l0; rw [hB] at g1
      simp only [List.getElem?_cons_zero, Option.some.injEq] at g0 g1
      have hdiff : hi - lo = (size - 1) * (words n c.nBytes * mult c) := by
        subst g0 g1
        cases hc : c.endian <;> simp only [wordAddr] <;> first | exact absurd hc he | omega
      have hst : (hi - lo) / (size - 1) = words n c.nBytes * mult c := by
        rw [hdiff, Nat.mul_div_cancel_left _ (by omega)]
      refine ⟨lo :: as, words n c.nBytes * mult c, ?_, l0, rfl, ?_⟩
      · simp only [hst]; rw [if_neg (by omega)]
      · intro o i hi'
        have := get 0 i hi'
        rw [hA] at this
        simp only [memAddrs, List.getElem?_map, this, Option.map_some]
        simp only [Nat.zero_mul, Nat.add_zero]
        have hm : mult c = if c.byteAddr then c.nBytes else 1 := rfl
        rw [← hm]
        generalize words n c.nBytes * mult c = q
        cases hc : c.endian <;> simp only [wordAddr] <;> first | exact absurd hc he | (congr 1; omega)

/-- A burst written to any place in a memory is read back unchanged, and nothing else in the device changes. -/
theorem C59_burst_round_trip (c : Cfg) (b off size n : Nat) (hn : 1 ≤ n) (hs : 2 ≤ size) (hw : 1 ≤ c.nBytes) (he : c.endian = .little ∨ c.endian = .big)
    (as : List Nat) (st : Nat) (hm : memInfo (.root c b) off size n = some (as, st))
    (o1 o2 : Order) (h1 : Reorders o1) (h2 : Reorders o2) (nb : Int) (be o : Nat) (vs : List Nat) (hne : vs ≠ [])
    (hv : ∀ v ∈ vs, v < 2 ^ (8 * n)) (s : Nat → Nat) (ok ok' : Bool) :
    let W := busWrite memBus o1 c.nBytes nb be st (memAddrs (as, st) o) vs (s, ok)
    W.2 = true ∧
    (busRead memBus o2 c.nBytes nb be st (memAddrs (as, st) o) vs.length (W.1, ok')).2 = (vs, true) ∧
    ∀ a, (∀ p, p < vs.length → a ∉ memAddrs (as, st) (o + p)) → W.1 a = s a := by
  have he' : c.endian ≠ .none := by rcases he with h | h <;> rw [h] <;> decide
  obtain ⟨as', st', hm', hlen, hst, hget⟩ := C59_memory_addresses c b off size n hn hs he'
  rw [hm] at hm'
  simp only [Option.some.injEq, Prod.mk.injEq] at hm'
  obtain ⟨rfl, rfl⟩ := hm'
  have hk : 1 ≤ words n c.nBytes := by simp [words]
  have hbig : n ≤ words n c.nBytes * c.nBytes := (words_spec n _ hn hw).1
  have hmu : 1 ≤ (if c.byteAddr then c.nBytes else 1) := by split <;> omega
  generalize hA : memAddrs (as, st) o = A at *
  have hAl : A.length = words n c.nBytes := by rw [← hA]; simp [memAddrs, hlen]
  have hAne : A ≠ [] := by intro h; rw [h] at hAl; simp at hAl; omega
  have gA : ∀ i (hi : i < A.length), A[i] = wordAddr c.endian (b + off + st * o) (if c.byteAddr then c.nBytes else 1) (words n c.nBytes) i := by
    intro i hi
    have := hget o i (by omega)
    rw [hA, List.getElem?_eq_getElem hi] at this
    simpa using this
  have hd : ∀ i j p q (hi : i < A.length) (hj : j < A.length), p < vs.length → q < vs.length →
      A[i] + st * p = A[j] + st * q → i = j ∧ p = q := by
    intro i j p q hi hj _ _ h
    rw [gA i hi, gA j hj] at h
    rw [hAl] at hi hj
    generalize (if c.byteAddr then c.nBytes else 1) = m at *
    generalize words n c.nBytes = k at *
    subst hst
    have key : ∀ i j, i < k → j < k → i * m + k * m * p = j * m + k * m * q → i = j ∧ p = q := by
      intro i j hi hj h
      have h' : (i + k * p) * m = (j + k * q) * m := by
        rw [Nat.add_mul, Nat.add_mul, Nat.mul_right_comm k p m, Nat.mul_right_comm k q m]; exact h
      have h'' := Nat.eq_of_mul_eq_mul_right hmu h'
      have hp : p = q := by
        have e1 : (i + k * p) / k = p := by rw [Nat.add_mul_div_left _ _ (by omega), Nat.div_eq_of_lt hi]; omega
        have e2 : (j + k * q) / k = q := by rw [Nat.add_mul_div_left _ _ (by omega), Nat.div_eq_of_lt hj]; omega
        rw [← e1, ← e2, h'']
      subst hp
      exact ⟨by omega, rfl⟩
    rcases he with e | e <;> rw [e] at h <;> simp only [wordAddr] at h
    · exact key i j hi hj (by omega)
    · have := key (k - 1 - i) (k - 1 - j) (by omega) (by omega) (by omega)
      exact ⟨by omega, this.2⟩
  obtain ⟨s', k, e1, e2, e3, e4⟩ := burst_write o1 h1 c.nBytes nb be st vs A hAne hd s ok
  have hk1 : k = true := by rcases e2 with h | ⟨h, _⟩; exact h; exact absurd h hne
  obtain ⟨k', g1, g2⟩ := burst_read o2 h2 c.nBytes hw nb be st vs A hAne s' ok' (by
    intro v hv'
    refine Nat.lt_of_lt_of_le (hv v hv') (Nat.pow_le_pow_right (by omega) ?_)
    rw [hAl, Nat.mul_comm c.nBytes 8, ← Nat.mul_assoc, Nat.mul_comm _ 8, Nat.mul_assoc]
    exact Nat.mul_le_mul_left 8 hbig) e3
  have hk2 : k' = true := by rcases g2 with h | ⟨h, _⟩; exact h; exact absurd h hne
  rw [e1]
  refine ⟨hk1, by simp only [g1, hk2], ?_⟩
  intro a ha
  apply e4
  intro j p hj hp heq
  apply ha p hp
  rw [heq]
  simp only [memAddrs, List.mem_map]
  have hj' : j < as.length := by rw [hlen, ← hAl]; exact hj
  refine ⟨as[j], List.getElem_mem _, ?_⟩
  have : A[j] = as[j] + st * o := by simp only [← hA, memAddrs, List.getElem_map]
  rw [this, Nat.mul_add]; omega

example : memInfo (.root ⟨2, true, .big⟩ 0x100) 0x20 16 4 = some ([0x122, 0x120], 4) := by decide

/-- A memory of one word cannot be set up: locking the model divides by zero. -/
theorem C110_single_word_memory_fails (m : Map) (off n : Nat) : memInfo m off 1 n = none := by
  simp only [memInfo]
  split <;> simp

/-! ## C19: look-ups -/

/-- A look-up, for reading or writing, finds a register exactly if some register claims the address, and then it finds one that
does. -/
theorem C19_lookup_finds_a_claimant (es : List Entry) (a : Nat) (rd : Bool) :
    (∀ r, getRegByOffset (initTable es) a rd = some r → ∃ e ∈ es, e.rg = r ∧ a ∈ e.addrs) ∧
    ((∃ e ∈ es, a ∈ e.addrs) → (getRegByOffset (initTable es) a rd).isSome) := by
  have h1 := lookup_claims es a
  constructor
  · intro r hr
    obtain ⟨c, hc, rfl⟩ := h1.1 rd r hr
    simp only [claims, List.mem_filter, List.mem_flatMap, List.mem_map] at hc
    obtain ⟨⟨e, he, b, hb, rfl⟩, hd⟩ := hc
    simp only [decide_eq_true_eq] at hd
    exact ⟨e, he, rfl, hd ▸ hb⟩
  · rintro ⟨e, he, ha⟩
    apply h1.2 rd
    intro h
    have : (⟨e.acc, e.rg, a⟩ : Claim) ∈ (claims es).filter (·.addr = a) := by
      simp only [claims, List.mem_filter, List.mem_flatMap, List.mem_map, decide_true, and_true]
      exact ⟨e, he, a, ha, rfl⟩
    rw [h] at this
    simp at this

/-- Ordinary registers claiming the same address: the first keeps it, and each later one is reported together with the first. -/
theorem C19_first_claim_wins (es : List Entry) (a : Nat) (c : Claim) (cs : List Claim) (hc : (claims es).filter (·.addr = a) = c :: cs)
    (hord : ∀ d ∈ cs, ¬ (d.acc d.rg = .RO ∧ d.acc c.rg = .WO) ∧ ¬ (d.acc d.rg = .WO ∧ d.acc c.rg = .RO)) (rd : Bool) :
    getRegByOffset (initTable es) a rd = some c.rg ∧
    (initTable es).warnings.filter (·.2.2 = a) = cs.map fun d => (d.rg, c.rg, a) := by
  have := first_claim es a c cs hc hord
  constructor
  · rw [lookup_at, this]; cases rd <;> rfl
  · exact warnings_at _ _ _ _ (congrArg (·.2.2) this)

/-- An address shared by one read-only and one write-only register, in either order: reads find the former, writes the latter, and
nothing is reported. -/
theorem C19_read_only_write_only_share (es : List Entry) (a : Nat) (c d : Claim) (hc : (claims es).filter (·.addr = a) = [c, d])
    (hacc : (d.acc c.rg = .RO ∧ d.acc d.rg = .WO) ∨ (d.acc c.rg = .WO ∧ d.acc d.rg = .RO)) :
    getRegByOffset (initTable es) a true = some (if d.acc c.rg = .RO then c.rg else d.rg) ∧
    getRegByOffset (initTable es) a false = some (if d.acc c.rg = .WO then c.rg else d.rg) ∧
    (initTable es).warnings.filter (·.2.2 = a) = [] := by
  have h := at_init es a
  rw [hc] at h
  simp only [List.foldl_cons, List.foldl_nil, place1] at h
  rcases hacc with ⟨h1, h2⟩ | ⟨h1, h2⟩
  · simp [h1, h2] at h
    refine ⟨?_, ?_, warnings_at _ _ [] (fun _ => (0, 0)) (congrArg (·.2.2) h)⟩ <;> rw [lookup_at, h] <;> simp [h1]
  · simp [h1, h2] at h
    refine ⟨?_, ?_, warnings_at _ _ [] (fun _ => (0, 0)) (congrArg (·.2.2) h)⟩ <;> rw [lookup_at, h] <;> simp [h1]

/-- When a register counts as read-only or write-only in a map: exactly if it has fields and all are of that sort there. -/
theorem C19_register_access (r : Reg.Reg) (rt : RegField.Rights) :
    let accs := r.fields.map fun x => RegField.getAccess x.f rt
    (Reg.fieldsAccess r rt = .RO ↔ accs ≠ [] ∧ ∀ a ∈ accs, a = .RO ∨ a = .RC ∨ a = .RS) ∧
    (Reg.fieldsAccess r rt = .WO ↔ accs ≠ [] ∧ ∀ a ∈ accs, a = .WO ∨ a = .WOC ∨ a = .WOS ∨ a = .WO1) := by
  simp only [Reg.fieldsAccess]
  exact accessLoop_iff _

/-- Accesses for the examples: register 0 is read-only, 1 and 2 write-only, others read-write. -/
def exAcc (r : Nat) : RegField.Acc := if r = 0 then .RO else if r ≤ 2 then .WO else .RW

example : (claims [⟨exAcc, 1, [4, 8]⟩, ⟨exAcc, 0, [8]⟩, ⟨exAcc, 7, [4]⟩]).filter (·.addr = 8) = [⟨exAcc, 1, 8⟩, ⟨exAcc, 0, 8⟩] := by simp [claims]
example : getRegByOffset (initTable [⟨exAcc, 1, [4, 8]⟩, ⟨exAcc, 0, [8]⟩, ⟨exAcc, 7, [4]⟩]) 8 true = some 0 := by decide
example : getRegByOffset (initTable [⟨exAcc, 1, [4, 8]⟩, ⟨exAcc, 0, [8]⟩, ⟨exAcc, 7, [4]⟩]) 4 true = some 1 := by decide

/-- With a read-only register there, a second write-only register displaces the first one without any warning. -/
theorem C94_second_write_only_register_fails :
    getRegByOffset (initTable [⟨exAcc, 0, [8]⟩, ⟨exAcc, 1, [8]⟩, ⟨exAcc, 2, [8]⟩]) 8 false = some 2 ∧
    (initTable [⟨exAcc, 0, [8]⟩, ⟨exAcc, 1, [8]⟩, ⟨exAcc, 2, [8]⟩]).warnings = [] := by decide

/-- C94 fails in general: wherever a read-only and a write-only register share an address, entering another write-only register there makes
writes go to it, without a warning. -/
theorem C94_displaced_fails (acc : Nat → RegField.Acc) (t : Table) (a ro wo rg : Nat) (h1 : t.byOffset a = some ro) (h2 : t.byOffsetWO a = some wo)
    (hro : acc ro = .RO) (hrg : acc rg = .WO) :
    getRegByOffset t a false = some wo ∧ getRegByOffset (place acc rg t a) a false = some rg ∧ (place acc rg t a).warnings = t.warnings := by
  have hp : place acc rg t a = { t with byOffsetWO := setAt t.byOffsetWO a (some rg) } := by
    simp [place, h1, hro, hrg]
  refine ⟨by simp [getRegByOffset, h2], ?_, by rw [hp]⟩
  rw [hp]
  simp [getRegByOffset, setAt]

/-- C94, the part that holds: without a read-only register at the address the earlier write-only register keeps it and the warning is given. -/
theorem C94_kept_partial (acc : Nat → RegField.Acc) (t : Table) (a wo rg : Nat) (h1 : t.byOffset a = some wo) (hwo : acc wo = .WO) (hrg : acc rg = .WO)
    (read : Bool) : getRegByOffset (place acc rg t a) a read = getRegByOffset t a read ∧ (place acc rg t a).warnings = t.warnings ++ [(rg, wo, a)] := by
  simp [place, h1, hwo, hrg, getRegByOffset]

example : (place exAcc 1 {} 8).byOffset 8 = some 1 ∧ exAcc 1 = .WO ∧ exAcc 2 = .WO ∧
    (place exAcc 1 (place exAcc 0 {} 8) 8).byOffset 8 = some 0 ∧ (place exAcc 1 (place exAcc 0 {} 8) 8).byOffsetWO 8 = some 1 := by decide

/-! ## C60: moving a register -/

/-- After the move the register is found at each new address that was free. -/
theorem C60_moved_register_found (acc : Nat → RegField.Acc) (rg : Nat) (info : Info) (addrs : List Nat) (t t' : Table) (i' : Info)
    (hi : info.unmapped ≠ .false_) (h : setRegOffset acc rg info .int0 addrs t = some (t', i')) (a : Nat) (ha : a ∈ addrs)
    (hfree : t.byOffset a = none) (hfree' : t.byOffsetWO a = none) (rd : Bool) : getRegByOffset t' a rd = some rg ∧ i'.addr = addrs := by
  simp only [setRegOffset, hi, if_false, Flag.truthy, if_true] at h
  simp at h
  obtain ⟨rfl, rfl⟩ := h
  exact ⟨place_free acc rg addrs t a ha hfree hfree' rd, rfl⟩

/-- With the default arguments of `add_reg` and `set_offset` (`unmapped` = 0) the old address still leads to the register. -/
theorem C60_old_address_forgotten_fails :
    ∃ t' i', setRegOffset exAcc 7 { unmapped := .int0, addr := [4] } .int0 [12] (initTable [⟨exAcc, 7, [4]⟩]) = some (t', i') ∧
      getRegByOffset t' 12 true = some 7 ∧ getRegByOffset t' 4 true = some 7 := ⟨_, _, rfl, by decide, by decide⟩

/-- When the register was mapped with `unmapped=False`: its old addresses, if it had them to itself, are given up and all others keep
their register. -/
theorem C60_old_address_forgotten_partial (acc : Nat → RegField.Acc) (rg : Nat) (old : List Nat) (hn : old.Nodup) (t : Table)
    (hown : ∀ a ∈ old, t.byOffset a = some rg ∧ t.byOffsetWO a = none) :
    ∃ t' i', setRegOffset acc rg { unmapped := .false_, addr := old } .true_ [] t = some (t', i') ∧
      (∀ a ∈ old, ∀ rd, getRegByOffset t' a rd = none) ∧
      (∀ a, a ∉ old → ∀ rd, getRegByOffset t' a rd = getRegByOffset t a rd) ∧ i'.unmapped = .int1 := by
  obtain ⟨t', h, h1, h2⟩ := forget_all rg old hn t hown
  refine ⟨t', ⟨.int1, old⟩, by simp [setRegOffset, h, Flag.truthy], ?_, ?_, rfl⟩
  · intro a ha rd
    have := h1 a ha
    simp [getRegByOffset, this.1, this.2]
  · intro a ha rd
    have := h2 a ha
    simp [getRegByOffset, this.1, this.2]

example : ∀ a ∈ [4], (initTable [⟨exAcc, 7, [4]⟩]).byOffset a = some 7 ∧ (initTable [⟨exAcc, 7, [4]⟩]).byOffsetWO a = none := by decide

/-- One of a read-only/write-only pair is taken away: the other is then found for reads and writes alike. -/
theorem C60_shared_address_partial (acc : Nat → RegField.Acc) (rg other a : Nat) (hne : rg ≠ other) (t : Table)
    (hpair : (t.byOffset a = some rg ∧ t.byOffsetWO a = some other) ∨ (t.byOffset a = some other ∧ t.byOffsetWO a = some rg)) :
    ∃ t' i', setRegOffset acc rg { unmapped := .false_, addr := [a] } .true_ [] t = some (t', i') ∧
      ∀ rd, getRegByOffset t' a rd = some other ∧ ∀ b, b ≠ a → getRegByOffset t' b rd = getRegByOffset t b rd := by
  have hne' : other ≠ rg := fun h => hne h.symm
  rcases hpair with ⟨h1, h2⟩ | ⟨h1, h2⟩
  · refine ⟨_, _, by simp [setRegOffset, forget, h1, h2, Flag.truthy]; exact ⟨rfl, rfl⟩, ?_⟩
    intro rd
    refine ⟨by simp [getRegByOffset, setAt], ?_⟩
    intro b hb
    simp [getRegByOffset, setAt, hb]
  · refine ⟨_, _, by simp [setRegOffset, forget, h1, h2, hne', Flag.truthy]; exact ⟨rfl, rfl⟩, ?_⟩
    intro rd
    refine ⟨by simp [getRegByOffset, setAt, h1], ?_⟩
    intro b hb
    simp [getRegByOffset, setAt, hb]

example : (initTable [⟨exAcc, 1, [8]⟩, ⟨exAcc, 0, [8]⟩]).byOffset 8 = some 0 ∧ (initTable [⟨exAcc, 1, [8]⟩, ⟨exAcc, 0, [8]⟩]).byOffsetWO 8 = some 1 := by decide

/-- `set_offset(map, offset, 1)`: the register is not entered anywhere, yet not recorded as unmapped either. -/
theorem C60_unmapping_with_1_fails (acc : Nat → RegField.Acc) (rg : Nat) (addrs old : List Nat) (t : Table) :
    setRegOffset acc rg { unmapped := .int0, addr := old } .int1 addrs t = some (t, { unmapped := .int0, addr := old }) := by
  simp [setRegOffset, Flag.truthy]

/-- A register that lost its address to an earlier one removes that earlier one from the map when it is moved. -/
theorem C60_move_keeps_other_registers_fails :
    ∃ t' i', getRegByOffset (initTable [⟨exAcc, 7, [4]⟩, ⟨exAcc, 8, [4]⟩]) 4 true = some 7 ∧
      setRegOffset exAcc 8 { unmapped := .false_, addr := [4] } .false_ [12] (initTable [⟨exAcc, 7, [4]⟩, ⟨exAcc, 8, [4]⟩]) = some (t', i') ∧
      getRegByOffset t' 4 true = none := ⟨_, _, by decide, rfl, by decide⟩

end Verif.RegMap
