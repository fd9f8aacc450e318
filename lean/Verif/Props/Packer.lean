import Verif.Lemmas.Packer
/-! # C07-C10: packing and unpacking -/
namespace Verif.Packer

/-! ## C07 -/

/-- C07. Into any packer packed so far (`Clean`), pack any list of fitting fields; the pack position advances by
the sum of the sizes, what was packed before is untouched, and unpacking the same sizes from where the fields
start returns the same values without an error, whatever the bit order. -/
theorem C07_pack_unpack_roundtrip (p : State) (hp : Clean p) (fs : List (Nat × Nat)) (hf : Fits fs) :
    ∃ q, packAll p fs = some q ∧ q.count = p.count + width fs ∧ Clean q ∧
      (∀ i, i < p.count → q.bits.testBit i = p.bits.testBit i) ∧
      ∃ r, unpackAll { setPackedSize q with count := p.count } (fs.map (·.2)) =
          some (fs.map (·.1), fs.map (fun _ => false), r) ∧ r.count = r.packedSize := by
  obtain ⟨q, e, h1, h2, h3, h4, h5⟩ := packAll_stored fs hf p hp
  refine ⟨q, e, h1, h3, h4, { setPackedSize q with count := p.count + width fs }, ?_, ?_⟩
  · exact unpackAll_stored fs hf { setPackedSize q with count := p.count }
      (by simpa [setPackedSize, h2] using h5) (by simp [setPackedSize, h1])
  · simp [setPackedSize, h1]

/-- C07, from a fresh packer: pack everything, `set_packed_size`, unpack everything. -/
theorem C07_fresh_roundtrip (be : Bool) (fs : List (Nat × Nat)) (hf : Fits fs) :
    ∃ q r, packAll (init be) fs = some q ∧ (setPackedSize q).packedSize = width fs ∧
      unpackAll (setPackedSize q) (fs.map (·.2)) = some (fs.map (·.1), fs.map (fun _ => false), r) := by
  obtain ⟨q, e, h1, _, _, r, hr, _⟩ := C07_pack_unpack_roundtrip (init be) (by intro i _; simp [init]) fs hf
  exact ⟨q, r, e, by simpa [setPackedSize, init] using h1, by simpa [setPackedSize, init] using hr⟩

/-- C07. What is stored for a field: its bits at the pack position, mirrored in big-endian mode. -/
theorem C07_field_layout (p : State) (hp : Clean p) (v n : Nat) (hn : 1 ≤ n) (hv : v < 2 ^ n) :
    ∃ q, packFieldInt p v n = some q ∧ ∀ i, i < n →
      q.bits.testBit (p.count + i) = if p.bigEndian then v.testBit (n - 1 - i) else v.testBit i := by
  refine ⟨_, packFieldInt_eq p v n hn hv, fun i hi => ?_⟩
  have := (store p (enc p.bigEndian n v) n hp (enc_lt _ _ _ hv)).2.2
  have h2 := congrArg (fun x => x.testBit i) this
  simp only [slice_testBit, hi, decide_true, Bool.true_and] at h2
  rw [h2, enc]
  cases p.bigEndian
  · rfl
  · simp [rev_testBit, hi]

/-- C89 fails for an empty field in big-endian mode (the default): packing value 0 in 0 bits raises. -/
theorem C89_empty_field_fails (p : State) (hp : p.bigEndian = true) : packFieldInt p 0 0 = none := by
  simp [packFieldInt, hp, flip_eq]

/-- C89 on values that do not fit: refused with an exception in big-endian mode, but silently corrupting the next
field in little-endian mode. -/
theorem C89_oversized_value_fails :
    (∀ p : State, p.bigEndian = true → ∀ v n, 2 ^ n ≤ v → packFieldInt p v n = none) ∧
    (∃ q r, packAll (init false) [(4, 2), (0, 3)] = some q ∧
      unpackAll (setPackedSize q) [2, 3] = some ([0, 1], [false, false], r)) := by
  constructor
  · intro p hp v n h
    have : ¬ (1 ≤ n ∧ v < 2 ^ n) := by omega
    simp [packFieldInt, hp, flip_eq, this]
  · exact ⟨⟨false, 5, 4, 0⟩, ⟨false, 5, 4, 5⟩, by decide, by decide⟩

/-- C89, what holds: in little-endian mode an empty field changes nothing and is unpacked as 0, anywhere in the data.  Missing: big-endian mode (`C89_empty_field_fails`). -/
theorem C89_empty_field_partial (p : State) (hp : p.bigEndian = false) :
    packFieldInt p 0 0 = some p ∧ (p.count ≤ p.packedSize → unpackFieldInt p 0 = some (0, false, p)) := by
  obtain ⟨be, c, b, z⟩ := p
  subst hp
  refine ⟨by simp [packFieldInt], fun h => ?_⟩
  rw [unpackFieldInt_enough _ 0 (.inr rfl) (by simpa using h)]
  simp [slice, enc, Nat.mod_one]

/-- C89, what holds: in little-endian mode the low bits of a value that does not fit are packed into the field itself.  What does not fit is added, bit by bit, to the next field:
with a value too large and zeros after it, exactly its next bits are unpacked from there. -/
theorem C89_oversized_low_bits_partial (v n w m : Nat) (hw : w < 2 ^ m) :
    ∃ q r, packAll (init false) [(v, n), (w, m)] = some q ∧
      unpackAll (setPackedSize q) [n, m] = some ([v % 2 ^ n, v / 2 ^ n % 2 ^ m ||| w], [false, false], r) := by
  refine ⟨⟨false, n + m, v ||| w <<< n, 0⟩, ⟨false, n + m, v ||| w <<< n, n + m⟩, by simp [packAll, packFieldInt, init], ?_⟩
  simp only [unpackAll, setPackedSize]
  rw [unpackFieldInt_enough _ n (.inr rfl) (by simp)]
  simp only [Option.bind_eq_bind, Option.bind_some]
  rw [unpackFieldInt_enough _ m (.inr rfl) (by simp)]
  simp only [Option.bind_some, enc, Bool.false_eq_true, if_false, Nat.zero_add, Option.pure_def, Option.some.injEq, Prod.mk.injEq, List.cons.injEq, and_true]
  refine ⟨?_, ?_⟩
  · apply Nat.eq_of_testBit_eq
    intro i
    simp only [slice_testBit, Nat.testBit_or, Nat.testBit_shiftLeft, Nat.testBit_mod_two_pow]
    by_cases hi : i < n
    · have : ¬ n ≤ i := by omega
      simp [hi, this]
    · simp [hi]
  · apply Nat.eq_of_testBit_eq
    intro i
    simp only [slice_testBit, Nat.testBit_or, Nat.testBit_shiftLeft, Nat.testBit_mod_two_pow, Nat.testBit_div_two_pow]
    by_cases hi : i < m
    · simp [hi, Nat.add_comm]
    · have : w.testBit i = false := Nat.testBit_lt_two_pow (Nat.lt_of_lt_of_le hw (Nat.pow_le_pow_right (by omega) (by omega)))
      simp [hi, this]

example : ∃ p : State, p.bigEndian = false ∧ p.count ≤ p.packedSize := ⟨init false, by decide⟩

/-- C07. After `reset`, whatever was packed or unpacked before, the packer behaves as a new one. -/
theorem C07_reset_is_fresh (p : State) : reset p = init p.bigEndian := rfl

/-! ## C08 -/

/-- The property C08 in full, for a bit order: any non-empty NUL-free byte string packed with `pack_string` into a clean packer, with anything
packed after it, is returned by `unpack_string()` from its start, which then stands right after it. -/
def StringRoundTrip (be : Bool) : Prop :=
  ∀ (p : State), p.bigEndian = be → Clean p → ∀ bs : List Nat, bs ≠ [] → (∀ b ∈ bs, 1 ≤ b ∧ b < 256) →
    ∀ fs, Fits fs → ∃ q q', packString p bs = some q ∧ packAll q fs = some q' ∧
      unpackString { setPackedSize q' with count := p.count } (-1) =
        (bs, { setPackedSize q' with count := q.count })

/-- C08 (little-endian part). A string packed last is returned and the position is the end. -/
theorem C08_string_roundtrip_partial (p : State) (hle : p.bigEndian = false) (hp : Clean p) (bs : List Nat) (hne : bs ≠ [])
    (hb : ∀ b ∈ bs, 1 ≤ b ∧ b < 256) :
    ∃ q, packString p bs = some q ∧ q.count = p.count + 8 * bs.length ∧
      unpackString { setPackedSize q with count := p.count } (-1) = (bs, { setPackedSize q with count := q.count }) := by
  refine ⟨_, packString_le p bs hle hne, rfl, ?_⟩
  obtain ⟨_, _, h3⟩ := store p (ofBytes bs) (8 * bs.length) hp (ofBytes_lt bs (fun b hm => (hb b hm).2))
  have hs : StoredBytes (p.bits ||| (ofBytes bs <<< p.count)) p.count bs.reverse :=
    storedBytes_of_slice _ (by intro b hm; exact (hb b (by simpa using hm)).2) _ _ (by simpa using h3)
  have := unpackLoop_nullterm (p.bits ||| (ofBytes bs <<< p.count)) (p.count + 8 * bs.length) bs.reverse
    (by intro b hm; have := (hb b (by simpa using hm)).1; omega) p.count 0 [] hs (by simp) (.inr (by simp))
  simp only [List.reverse_reverse, List.append_nil, List.length_reverse] at this
  simp only [unpackString, setPackedSize, decide_true, this]
  rw [if_neg (by omega)]

/-- C08 (little-endian, explicitly NUL-terminated with an 8-bit zero field): the string is returned and the position is
right after the terminator, whatever is packed afterwards. -/
theorem C08_terminated_string_roundtrip_partial (p : State) (hle : p.bigEndian = false) (hp : Clean p) (bs : List Nat)
    (hne : bs ≠ []) (hb : ∀ b ∈ bs, 1 ≤ b ∧ b < 256) (fs : List (Nat × Nat)) (hf : Fits fs) :
    ∃ q q', packString p bs = some q ∧ packAll q ((0, 8) :: fs) = some q' ∧
      unpackString { setPackedSize q' with count := p.count } (-1) =
        (bs, { setPackedSize q' with count := p.count + 8 * bs.length + 8 }) := by
  obtain ⟨h1, h2, h3⟩ := store p (ofBytes bs) (8 * bs.length) hp (ofBytes_lt bs (fun b hm => (hb b hm).2))
  obtain ⟨q', e, g1, g2, g3, g4, g5⟩ := packAll_stored ((0, 8) :: fs)
    (by intro f hfm; rcases List.mem_cons.mp hfm with rfl | h
        · simp
        · exact hf f h) _ h1
  refine ⟨_, q', packString_le p bs hle hne, e, ?_⟩
  simp only [hle] at g5
  have g5' : slice q'.bits (p.count + 8 * bs.length) 8 = 0 := by have := g5.1; simpa [enc] using this
  have hw : width ((0, 8) :: fs) = 8 + width fs := by simp [width]
  have hs : StoredBytes q'.bits p.count bs.reverse := by
    refine storedBytes_of_slice _ (by intro b hm; exact (hb b (by simpa using hm)).2) _ _ ?_
    rw [List.reverse_reverse, ← h3, List.length_reverse]
    exact slice_ext (fun i hi => g4 _ (by simp; omega))
  have g1' : q'.count = p.count + 8 * bs.length + (8 + width fs) := by rw [g1, hw]
  have := unpackLoop_nullterm q'.bits q'.count bs.reverse
    (by intro b hm; have := (hb b (by simpa using hm)).1; omega) p.count 0 [] hs (by simp; omega)
    (.inl (by rw [List.length_reverse, and_ff]; simpa [slice] using g5'))
  simp only [List.reverse_reverse, List.append_nil, List.length_reverse] at this
  simp only [unpackString, setPackedSize, decide_true, this]
  rw [if_pos (by omega)]

/-- C08 fails in big-endian mode (the default): the bits are mirrored when packing but not when unpacking. -/
theorem C08_big_endian_string_fails : ¬ StringRoundTrip true := by
  intro h
  obtain ⟨q, q', e1, e2, e3⟩ := h (init true) rfl (by intro i _; simp [init]) [0x61] (by simp) (by simp) [] (by intro f hf; cases hf)
  have h1 : packString (init true) [0x61] = some ⟨true, 8, 0x43, 0⟩ := by
    simp [packString, init, ofBytes, flipNoSize]
    rw [flipLoop_eq]; decide
  rw [h1] at e1; cases e1
  simp only [packAll] at e2; cases e2
  have := congrArg (·.1) e3
  revert this
  simp [unpackString, setPackedSize, init]
  rw [unpackStringLoop]; simp
  rw [unpackStringLoop]; simp

/-- C08 fails in little-endian mode when another field follows: no terminator is packed. -/
theorem C08_string_followed_by_field_fails : ¬ StringRoundTrip false := by
  intro h
  obtain ⟨q, q', e1, e2, e3⟩ := h (init false) rfl (by intro i _; simp [init]) [0x61] (by simp) (by simp) [(0x62, 8)]
    (by intro f hf; simp at hf; subst hf; simp)
  have h1 : packString (init false) [0x61] = some ⟨false, 8, 0x61, 0⟩ := by decide
  rw [h1] at e1; cases e1
  have h2 : packAll ⟨false, 8, 0x61, 0⟩ [(0x62, 8)] = some ⟨false, 16, 0x6261, 0⟩ := by decide
  rw [h2] at e2; cases e2
  have := congrArg (·.1) e3
  revert this
  simp [unpackString, setPackedSize, init]
  rw [unpackStringLoop]; simp
  rw [unpackStringLoop]; simp
  rw [unpackStringLoop]; simp

/-- C08 fails for the empty string: packing it raises. -/
theorem C08_empty_string_fails (p : State) : packString p [] = none := by simp [packString]

/-! ## C09 -/

/-- C09. Unpacking a (non-empty) field of more bits than remain reports an error, returns 0 and changes nothing;
if enough bits remain there is no error and the position moves by exactly the size. -/
theorem C09_unpack_past_end_refused (p : State) (n : Nat) (hn : 1 ≤ n) :
    (p.packedSize < p.count + n → unpackFieldInt p n = some (0, true, p)) ∧
    (p.count + n ≤ p.packedSize → ∃ v, v < 2 ^ n ∧ unpackFieldInt p n = some (v, false, { p with count := p.count + n })) := by
  refine ⟨fun h => unpackFieldInt_short p n h (.inl hn), fun h => ⟨_, ?_, unpackFieldInt_enough p n (.inl hn) h⟩⟩
  exact enc_lt _ _ _ (slice_lt _ _ _)

/-- C09. No history of unpacking calls (fields, strings, byte and int lists) moves the position past the packed size or
changes the packed bits. -/
theorem C09_unpack_history_stays_inside (ops : List UnpackOp) (p q : State) (hp : p.count ≤ p.packedSize)
    (h : unpackOps p ops = some q) : q.count ≤ q.packedSize ∧ q.packedSize = p.packedSize ∧ q.bits = p.bits := by
  induction ops generalizing p with
  | nil => simp [unpackOps] at h; subst h; exact ⟨hp, rfl, rfl⟩
  | cons op ops ih =>
    simp only [unpackOps, List.foldlM_cons] at h
    cases h1 : unpackOp p op with
    | none => simp [h1] at h
    | some p1 =>
      rw [h1] at h
      obtain ⟨a, b, c⟩ := unpackOp_inv p op p1 h1 hp
      obtain ⟨a', b', c'⟩ := ih p1 a h
      exact ⟨a', b'.trans b, c'.trans c⟩

/-! ## C10 -/

theorem recombine_slices (w : Nat) (x : Nat) (n c : Nat) (h : x < 2 ^ (c + n * w)) :
    recombine w ((List.range n).map (fun i => slice x (c + i * w) w)) = x >>> c := by
  induction n generalizing c with
  | zero =>
    simp [recombine]
    rw [Nat.shiftRight_eq_div_pow]
    exact (Nat.div_eq_of_lt (by simpa using h)).symm
  | succ n ih =>
    rw [List.range_succ_eq_map, List.map_cons, List.map_map, recombine]
    have e : (fun i => slice x (c + i * w) w) ∘ Nat.succ = fun i => slice x ((c + w) + i * w) w := by
      funext i; simp only [Function.comp, Nat.succ_eq_add_one, Nat.add_mul, Nat.one_mul]; congr 1; omega
    rw [e, ih (c + w) (by rw [Nat.add_mul, Nat.one_mul] at h; rw [Nat.add_assoc, Nat.add_comm w]; exact h)]
    simp only [Nat.zero_mul, Nat.add_zero, slice]
    rw [Nat.shiftRight_add, Nat.shiftRight_eq_div_pow (x >>> c) w]
    exact Nat.mod_add_div _ _

/-- C10. In little-endian mode `get_bytes` (w = 8) and `get_ints` (w = 32) never raise, return ceil(size/w) elements below 2^w, and
the elements recombine to the packed bits, for every content and packed size. -/
theorem C10_get_elements_recombine (w : Nat) (hw : 1 ≤ w) (p : State) (hp : p.bigEndian = false) :
    ∃ es, getElems w p = some es ∧ es.length = (p.packedSize + (w - 1)) / w ∧ (∀ e ∈ es, e < 2 ^ w) ∧
      recombine w es = p.bits % 2 ^ p.packedSize := by
  refine ⟨_, getElems_eq w hw p, by simp, ?_, ?_⟩
  · intro e he
    obtain ⟨i, _, rfl⟩ := List.mem_map.mp he
    exact enc_lt _ _ _ (slice_lt _ _ _)
  · rw [hp]
    simp only [enc]
    have h := recombine_slices w (p.bits % 2 ^ p.packedSize) ((p.packedSize + (w - 1)) / w) 0
      (by
        refine Nat.lt_of_lt_of_le (Nat.mod_lt _ (Nat.two_pow_pos _)) (Nat.pow_le_pow_right (by omega) ?_)
        have := Nat.div_add_mod (p.packedSize + (w - 1)) w
        have := Nat.mod_lt (p.packedSize + (w - 1)) (show 0 < w by omega)
        rw [Nat.zero_add, Nat.mul_comm]; omega)
    simpa using h

/-- C10. In big-endian mode the elements are those of little-endian mode with the bits of each element mirrored. -/
theorem C10_big_endian_elements_mirrored (w : Nat) (hw : 1 ≤ w) (p : State) (hp : p.bigEndian = true) :
    ∃ es fs, getElems w { p with bigEndian := false } = some es ∧ getElems w p = some fs ∧ MirroredElems w es fs := by
  refine ⟨_, _, getElems_eq w hw _, getElems_eq w hw p, ?_⟩
  simp only [hp]
  generalize (p.packedSize + (w - 1)) / w = n
  generalize List.range n = l
  induction l with
  | nil => trivial
  | cons i l ih => exact ⟨fun k => by simp only [enc]; exact rev_testBit _ _ _, ih⟩

/-- C10. `get_bit(i)` is bit `i` of the packed bits, with an error reported exactly from the packed size on. -/
theorem C10_get_bit (p : State) (i : Nat) :
    (getBit p i).1 = (if p.bits.testBit i then 1 else 0) ∧ ((getBit p i).2 = true ↔ p.packedSize ≤ i) := by
  constructor
  · simp only [getBit, Nat.testBit_eq_decide_div_mod_eq, Nat.shiftRight_eq_div_pow, Nat.and_one_is_mod]
    split
    · next h => simpa using h
    · next h => simp at h; omega
  · simp [getBit]

/-- C10. Byte (or int) lists packed into a reset packer are returned by unpacking, in both bit orders. -/
theorem C10_elements_roundtrip (w : Nat) (hw : 1 ≤ w) (be : Bool) (vs : List Nat) (hv : ∀ v ∈ vs, v < 2 ^ w) :
    ∃ q r, packElems w (init be) vs = some q ∧ q.count = vs.length * w ∧
      unpackElems w (setPackedSize q) vs.length = some (some vs, r) := by
  let us := if be then vs.reverse else vs
  have hu : ∀ v ∈ us, v < 2 ^ w := by simp only [us]; cases be <;> simpa using hv
  have hul : us.length = vs.length := by simp only [us]; cases be <;> simp
  have hf : Fits (us.map (fun v => (v, w))) := by
    intro f hfm; obtain ⟨v, hvm, rfl⟩ := List.mem_map.mp hfm; exact ⟨hw, hu v hvm⟩
  obtain ⟨q, e, h1, h2, h3, h4, h5⟩ := packAll_stored (us.map (fun v => (v, w))) hf (init be) (by intro i _; simp [init])
  rw [width_elems, hul] at h1
  have h1' : q.count = vs.length * w := by simpa [init] using h1
  refine ⟨q, { setPackedSize q with count := vs.length * w }, ?_, h1', ?_⟩
  · rw [packElems_eq w (init be) vs]; exact e
  · rw [unpackElems_enough w hw _ _ (by simp [setPackedSize, h1'])]
    have hbe : q.bigEndian = be := h2
    have hst := stored_elems be q.bits w us 0 h5
    have hmap : (List.range vs.length).map (fun b => enc be w (slice q.bits (b * w) w)) = us := by
      have := congrArg (List.map (enc be w)) hst
      rw [List.map_map, List.map_map, hul] at this
      rw [show (fun b => enc be w (slice q.bits (b * w) w)) = enc be w ∘ fun b => slice q.bits (0 + b * w) w by
        funext b; simp [Function.comp]]
      rw [this]
      rw [List.map_congr_left (g := id)]
      · simp
      · intro v hvm; exact enc_enc _ _ _ (hu v hvm)
    simp only [setPackedSize, hbe, hmap, Nat.zero_add]
    congr 2
    simp only [us]
    cases be <;> simp

/-- C90 fails for lists packed after something else: unpacking always reads from bit 0. -/
theorem C90_elements_after_field_fails :
    ∃ q q' r, packFieldInt (init false) 1 8 = some q ∧ packElems 8 q [2] = some q' ∧
      unpackElems 8 { setPackedSize q' with count := 8 } 1 = some (some [1], r) :=
  ⟨⟨false, 8, 1, 0⟩, ⟨false, 16, 0x201, 0⟩, ⟨false, 16, 0x201, 16⟩, by decide, by decide, by decide⟩

/-- C90 (`put_bits`): the bits are always restored; the packed size is restored when the topmost packed bit is set. -/
theorem C90_put_bits_partial (p q : State) :
    (putBits q p.bits).bits = p.bits ∧ (putBits q p.bits).count = 0 ∧
    (∀ n, p.packedSize = n + 1 → p.bits.testBit n = true → p.bits < 2 ^ (n + 1) → (putBits q p.bits).packedSize = p.packedSize) := by
  refine ⟨rfl, rfl, ?_⟩
  intro n hn ht hlt
  have h0 : p.bits ≠ 0 := by intro h; rw [h] at ht; simp at ht
  have hge : 2 ^ n ≤ p.bits := Nat.ge_two_pow_of_testBit ht
  have h1 := (Nat.log2_lt h0).mpr hlt
  have h2 := (Nat.le_log2 h0).mpr hge
  simp only [putBits, binLen, h0, if_false]
  omega

/-- C90 fails for `put_bits` of a stream whose topmost packed bit is 0: the restored packed size is too small, and an
8-bit field then cannot be unpacked. -/
theorem C90_put_bits_leading_zero_fails :
    ∃ q, packFieldInt (init false) 1 8 = some q ∧ (setPackedSize q).packedSize = 8 ∧
      (putBits (init false) (setPackedSize q).bits).packedSize = 1 ∧
      unpackFieldInt (putBits (init false) (setPackedSize q).bits) 8 =
        some (0, true, putBits (init false) (setPackedSize q).bits) :=
  ⟨⟨false, 8, 1, 0⟩, by decide, by decide, by decide, by decide⟩

-- Non-vacuity.
example : Fits [(5, 3), (0, 1), (1023, 10)] := by intro f h; simp at h; rcases h with h | h | h <;> subst h <;> decide
example : Clean (init true) := by intro i _; simp [init]
example : ∃ q r, packAll (init false) [(5, 3), (2, 7)] = some q ∧
    unpackAll (setPackedSize q) [3, 7] = some ([5, 2], [false, false], r) :=
  ⟨⟨false, 10, 21, 0⟩, ⟨false, 10, 21, 10⟩, by decide, by decide⟩
example : getElems 8 ⟨false, 0, 0x1234, 13⟩ = some [0x34, 0x12] := by decide

end Verif.Packer
