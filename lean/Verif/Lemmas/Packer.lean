import Verif.Spec.Packer
namespace Verif.Packer

/-! ## Mirroring bits -/

def rev : Nat → Nat → Nat
  | 0, _ => 0
  | n + 1, v => (v % 2) * 2 ^ n + rev n (v / 2)

theorem rev_lt (n v : Nat) : rev n v < 2 ^ n := by
  induction n generalizing v with
  | zero => simp [rev]
  | succ n ih =>
    have := ih (v / 2)
    simp only [rev, Nat.pow_succ]
    have : v % 2 = 0 ∨ v % 2 = 1 := by omega
    rcases this with h | h <;> rw [h] <;> omega

theorem rev_testBit (n v i : Nat) : (rev n v).testBit i = (decide (i < n) && v.testBit (n - 1 - i)) := by
  induction n generalizing v with
  | zero => simp [rev]
  | succ n ih =>
    simp only [rev]
    rw [Nat.mul_comm]
    rcases Nat.lt_trichotomy i n with h | h | h
    · rw [Nat.testBit_two_pow_mul_add _ (rev_lt n _), if_pos h, ih]
      have e : n + 1 - 1 - i = (n - 1 - i) + 1 := by omega
      have hi : i < n + 1 := by omega
      rw [e, Nat.testBit_succ]
      simp [h, hi]
    · subst h
      rw [Nat.testBit_two_pow_mul_add _ (rev_lt i _)]
      simp [Nat.testBit_zero]
    · rw [Nat.testBit_two_pow_mul_add _ (rev_lt n _), if_neg (by omega)]
      have h2 : ¬ i < n + 1 := by omega
      have : v % 2 < 2 ^ (i - n) := Nat.lt_of_lt_of_le (Nat.mod_lt _ (by omega))
        (by have : 2 ^ 1 ≤ 2 ^ (i - n) := Nat.pow_le_pow_right (by omega) (by omega)
            simpa using this)
      simp [h2, Nat.testBit_lt_two_pow this]

/-- The true bit length. -/
def blen (v : Nat) : Nat := if v = 0 then 0 else v.log2 + 1

theorem blen_half (v : Nat) (h : v ≠ 0) : blen v = blen (v / 2) + 1 := by
  simp only [blen, h, if_false]
  rw [Nat.log2_def]
  split
  · next h2 => rw [if_neg (by omega)]
  · next h2 => rw [if_pos (by omega)]

theorem lt_blen (v : Nat) : v < 2 ^ blen v := by
  by_cases h : v = 0
  · subst h; simp [blen]
  · simp only [blen, h, if_false]; exact Nat.lt_log2_self

theorem blen_le {v n : Nat} (h : v < 2 ^ n) : blen v ≤ n := by
  by_cases h0 : v = 0
  · subst h0; simp [blen]
  · simp only [blen, h0, if_false]
    have := (Nat.log2_lt h0).mpr h
    omega

theorem flipLoop_eq (acc v : Nat) : flipLoop acc v = acc * 2 ^ blen v + rev (blen v) v := by
  induction v using Nat.strongRecOn generalizing acc with
  | ind v ih =>
    rw [flipLoop]
    split
    · next h => subst h; simp [blen, rev]
    · next h =>
      rw [Nat.shiftRight_eq_div_pow, Nat.pow_one, ih (v / 2) (by omega), blen_half v h]
      simp only [rev, Nat.shiftLeft_eq, Nat.pow_succ, Nat.and_one_is_mod]
      rw [Nat.add_mul]
      have : acc * 2 ^ 1 * 2 ^ blen (v / 2) = acc * (2 ^ blen (v / 2) * 2) := by
        rw [Nat.pow_one, Nat.mul_assoc, Nat.mul_comm 2]
      rw [Nat.pow_one] at this
      rw [Nat.pow_zero, Nat.one_mul, this]
      omega

theorem rev_extend (v n m : Nat) (h : v < 2 ^ n) (hnm : n ≤ m) : rev n v <<< (m - n) = rev m v := by
  apply Nat.eq_of_testBit_eq
  intro i
  rw [Nat.testBit_shiftLeft, rev_testBit, rev_testBit]
  by_cases h1 : m - n ≤ i
  · have e : n - 1 - (i - (m - n)) = m - 1 - i := by omega
    by_cases h2 : i < m
    · have h3 : i - (m - n) < n := by omega
      simp [h1, h2, h3, e]
    · have h3 : ¬ i - (m - n) < n := by omega
      simp [h2, h3]
  · have : v.testBit (m - 1 - i) = false := by
      apply Nat.testBit_lt_two_pow
      exact Nat.lt_of_lt_of_le h (Nat.pow_le_pow_right (by omega) (by omega))
    simp [h1, this]

theorem binLen_le_iff (v n : Nat) : binLen v ≤ n ↔ 1 ≤ n ∧ v < 2 ^ n := by
  by_cases h : v = 0
  · subst h; simp [binLen]
    intro _; exact Nat.two_pow_pos n
  · simp only [binLen, h, if_false]
    constructor
    · intro h1; exact ⟨by omega, (Nat.log2_lt h).mp (by omega)⟩
    · intro ⟨_, h2⟩; have := (Nat.log2_lt h).mpr h2; omega

theorem flip_eq (v n : Nat) : flip v n = if 1 ≤ n ∧ v < 2 ^ n then some (rev n v) else none := by
  simp only [flip]
  by_cases h : binLen v ≤ n
  · have h' := (binLen_le_iff v n).mp h
    rw [if_pos h, if_pos h', flipLoop_eq]
    simp only [Nat.zero_mul, Nat.zero_add]
    congr 1
    by_cases h0 : v = 0
    · subst h0
      have : ∀ k, rev k 0 = 0 := by
        intro k; apply Nat.eq_of_testBit_eq; intro i; rw [rev_testBit]; simp
      simp [this]
    · have hb : binLen v = blen v := by simp [binLen, blen, h0]
      rw [hb]
      exact rev_extend v (blen v) n (lt_blen v) (by omega)
  · rw [if_neg h, if_neg (fun h' => h ((binLen_le_iff v n).mpr h'))]

theorem rev_rev (n v : Nat) (h : v < 2 ^ n) : rev n (rev n v) = v := by
  apply Nat.eq_of_testBit_eq
  intro i
  rw [rev_testBit, rev_testBit]
  by_cases hi : i < n
  · have h1 : n - 1 - i < n := by omega
    have e : n - 1 - (n - 1 - i) = i := by omega
    simp [hi, h1, e]
  · have : v.testBit i = false :=
      Nat.testBit_lt_two_pow (Nat.lt_of_lt_of_le h (Nat.pow_le_pow_right (by omega) (by omega)))
    simp [hi, this]

/-! ## Slices -/

/-- Bits `[c, c+n)` of `b`. -/
def slice (b c n : Nat) : Nat := (b >>> c) % 2 ^ n

theorem slice_testBit (b c n i : Nat) : (slice b c n).testBit i = (decide (i < n) && b.testBit (c + i)) := by
  simp [slice, Nat.testBit_mod_two_pow, Nat.testBit_shiftRight]

theorem slice_lt (b c n : Nat) : slice b c n < 2 ^ n := Nat.mod_lt _ (Nat.two_pow_pos n)

theorem slice_ext {b b' c n : Nat} (h : ∀ i, i < n → b.testBit (c + i) = b'.testBit (c + i)) :
    slice b c n = slice b' c n := by
  apply Nat.eq_of_testBit_eq
  intro i
  rw [slice_testBit, slice_testBit]
  by_cases hi : i < n
  · simp [hi, h i hi]
  · simp [hi]

theorem foldl_select_testBit (bits : Nat) (f : Nat → Nat) (l : List Nat) (acc k : Nat) :
    (l.foldl (fun acc i => acc ||| (bits &&& (1 <<< f i))) acc).testBit k =
      (acc.testBit k || (bits.testBit k && l.any (fun i => f i == k))) := by
  induction l generalizing acc with
  | nil => simp
  | cons i l ih =>
    rw [List.foldl_cons, ih]
    simp only [Nat.testBit_or, Nat.testBit_and, List.any_cons, Nat.one_shiftLeft, Nat.testBit_two_pow]
    cases acc.testBit k <;> cases bits.testBit k <;> simp
    rw [Bool.eq_iff_iff]; simp

theorem select_eq (be : Bool) (bits c n : Nat) : selectLoop be bits (c + n) n >>> c = slice bits c n := by
  apply Nat.eq_of_testBit_eq
  intro i
  rw [Nat.testBit_shiftRight, slice_testBit, selectLoop]
  rw [foldl_select_testBit bits (fun i => if be then c + n - i - 1 else c + n - n + i)]
  simp only [Nat.zero_testBit, Bool.false_or]
  rw [Bool.and_comm]
  congr 1
  rw [Bool.eq_iff_iff]
  simp only [List.any_eq_true, List.mem_range, beq_iff_eq, decide_eq_true_eq]
  cases be with
  | true =>
    constructor
    · rintro ⟨x, hx, h⟩; simp at h; omega
    · intro h; exact ⟨n - 1 - i, by omega, by simp; omega⟩
  | false =>
    constructor
    · rintro ⟨x, hx, h⟩; simp at h; omega
    · intro h; exact ⟨i, h, by simp⟩

/-- What is stored for a value: mirrored in big-endian mode. -/
def enc (be : Bool) (n v : Nat) : Nat := if be then rev n v else v

theorem enc_lt (be : Bool) (n v : Nat) (h : v < 2 ^ n) : enc be n v < 2 ^ n := by
  cases be
  · exact h
  · exact rev_lt n v

theorem packFieldInt_eq (p : State) (v n : Nat) (hn : 1 ≤ n) (hv : v < 2 ^ n) :
    packFieldInt p v n = some { p with bits := p.bits ||| (enc p.bigEndian n v <<< p.count), count := p.count + n } := by
  simp only [packFieldInt, enc]
  cases p.bigEndian
  · rfl
  · simp [flip_eq, hn, hv]

theorem enoughBits_iff (p : State) (n : Nat) : enoughBits p n = true ↔ p.count + n ≤ p.packedSize := by
  simp only [enoughBits, Bool.not_eq_true', decide_eq_false_iff_not]; omega

theorem unpackFieldInt_enough (p : State) (n : Nat) (hn : 1 ≤ n ∨ p.bigEndian = false) (h : p.count + n ≤ p.packedSize) :
    unpackFieldInt p n = some (enc p.bigEndian n (slice p.bits p.count n), false, { p with count := p.count + n }) := by
  have := (enoughBits_iff p n).mpr h
  simp only [unpackFieldInt, this, if_true, select_eq, enc]
  cases hb : p.bigEndian
  · rfl
  · rw [hb] at hn
    have hn : 1 ≤ n := by simpa using hn
    simp [flip_eq, hn, slice_lt]

theorem unpackFieldInt_short (p : State) (n : Nat) (h : p.packedSize < p.count + n) (hn : 1 ≤ n ∨ p.bigEndian = false) :
    unpackFieldInt p n = some (0, true, p) := by
  have : enoughBits p n = false := by
    rw [Bool.eq_false_iff]; intro h'; have := (enoughBits_iff p n).mp h'; omega
  simp only [unpackFieldInt, this]
  cases hb : p.bigEndian
  · simp
  · rw [hb] at hn
    have hn : 1 ≤ n := by simpa using hn
    have h0 : rev n 0 = 0 := by
      apply Nat.eq_of_testBit_eq; intro i; rw [rev_testBit]; simp
    simp [flip_eq, hn, Nat.two_pow_pos, h0]

/-! ## Stored content: position by position -/

theorem enc_enc (be : Bool) (n v : Nat) (h : v < 2 ^ n) : enc be n (enc be n v) = v := by
  cases be
  · rfl
  · exact rev_rev n v h

theorem or_shift_low (b x c i : Nat) (h : i < c) : (b ||| (x <<< c)).testBit i = b.testBit i := by
  simp [Nat.testBit_or, Nat.testBit_shiftLeft]; intro h'; omega

theorem or_shift_high (b x c i : Nat) (hb : ∀ i, c ≤ i → b.testBit i = false) :
    (b ||| (x <<< c)).testBit (c + i) = x.testBit i := by
  simp [Nat.testBit_or, Nat.testBit_shiftLeft, hb (c + i) (by omega)]

theorem testBit_high {x n i : Nat} (h : x < 2 ^ n) (hi : n ≤ i) : x.testBit i = false :=
  Nat.testBit_lt_two_pow (Nat.lt_of_lt_of_le h (Nat.pow_le_pow_right (by omega) hi))

/-- Storing a value of `n` bits at a clean position. -/
theorem store (p : State) (x n : Nat) (hc : Clean p) (hx : x < 2 ^ n) :
    let q : State := { p with bits := p.bits ||| (x <<< p.count), count := p.count + n }
    Clean q ∧ (∀ i, i < p.count → q.bits.testBit i = p.bits.testBit i) ∧ slice q.bits p.count n = x := by
  refine ⟨?_, ?_, ?_⟩
  · intro i hi
    simp only at hi ⊢
    have e : i = p.count + (i - p.count) := by omega
    rw [e, or_shift_high _ _ _ _ hc]
    exact testBit_high hx (by omega)
  · intro i hi; exact or_shift_low _ _ _ _ hi
  · apply Nat.eq_of_testBit_eq
    intro i
    rw [slice_testBit, or_shift_high _ _ _ _ hc]
    by_cases h : i < n
    · simp [h]
    · simp [h, testBit_high hx (Nat.le_of_not_lt h)]

/-- The fields are stored, in order, from position `c`. -/
def Stored (be : Bool) (bits : Nat) : Nat → List (Nat × Nat) → Prop
  | _, [] => True
  | c, f :: fs => slice bits c f.2 = enc be f.2 f.1 ∧ Stored be bits (c + f.2) fs

theorem stored_congr {be : Bool} {b b' c : Nat} {fs : List (Nat × Nat)}
    (h : ∀ i, c ≤ i → i < c + width fs → b.testBit i = b'.testBit i) (hs : Stored be b' c fs) : Stored be b c fs := by
  induction fs generalizing c with
  | nil => trivial
  | cons f fs ih =>
    have hw : width (f :: fs) = f.2 + width fs := by simp [width]
    rw [hw] at h
    refine ⟨?_, ?_⟩
    · rw [← hs.1]; exact slice_ext (fun i hi => h (c + i) (by omega) (by omega))
    · exact ih (fun i h1 h2 => h i (by omega) (by omega)) hs.2

theorem packAll_stored (fs : List (Nat × Nat)) (hf : Fits fs) (p : State) (hc : Clean p) :
    ∃ q, packAll p fs = some q ∧ q.count = p.count + width fs ∧ q.bigEndian = p.bigEndian ∧ Clean q ∧
      (∀ i, i < p.count → q.bits.testBit i = p.bits.testBit i) ∧ Stored p.bigEndian q.bits p.count fs := by
  induction fs generalizing p with
  | nil => exact ⟨p, rfl, by simp [width], rfl, hc, fun _ _ => rfl, trivial⟩
  | cons f fs ih =>
    have hf1 := hf f (by simp)
    have hw : width (f :: fs) = f.2 + width fs := by simp [width]
    obtain ⟨h1, h2, h3⟩ := store p (enc p.bigEndian f.2 f.1) f.2 hc (enc_lt _ _ _ hf1.2)
    obtain ⟨q, e, hq1, hq2, hq3, hq4, hq5⟩ := ih (fun g hg => hf g (by simp [hg])) _ h1
    refine ⟨q, ?_, by simp at hq1; omega, hq2, hq3, ?_, ?_, ?_⟩
    · simp only [packAll, List.foldlM_cons, packFieldInt_eq p f.1 f.2 hf1.1 hf1.2]
      exact e
    · intro i hi; rw [hq4 i (by simp; omega)]; exact h2 i hi
    · rw [← h3]; exact slice_ext (fun i hi => hq4 _ (by simp; omega))
    · exact hq5

theorem unpackAll_stored (fs : List (Nat × Nat)) (hf : Fits fs) (p : State)
    (hs : Stored p.bigEndian p.bits p.count fs) (hsz : p.count + width fs ≤ p.packedSize) :
    unpackAll p (fs.map (·.2)) = some (fs.map (·.1), fs.map (fun _ => false), { p with count := p.count + width fs }) := by
  induction fs generalizing p with
  | nil => simp [unpackAll, width]
  | cons f fs ih =>
    have hf1 := hf f (by simp)
    have hw : width (f :: fs) = f.2 + width fs := by simp [width]
    rw [hw] at hsz
    simp only [List.map_cons, unpackAll, unpackFieldInt_enough p f.2 (.inl hf1.1) (by omega)]
    have := ih (fun g hg => hf g (by simp [hg])) { p with count := p.count + f.2 } hs.2 (by simp; omega)
    simp only [Option.bind_eq_bind, Option.bind_some, this, hs.1, enc_enc _ _ _ hf1.2, hw]
    simp [Nat.add_assoc]

/-! ## Strings -/

theorem ofBytes_append (bs : List Nat) (b : Nat) : ofBytes (bs ++ [b]) = ofBytes bs * 256 + b := by
  simp [ofBytes]

theorem ofBytes_lt (bs : List Nat) (h : ∀ b ∈ bs, b < 256) : ofBytes bs < 2 ^ (8 * bs.length) := by
  suffices H : ∀ rs : List Nat, (∀ b ∈ rs, b < 256) → ofBytes rs.reverse < 2 ^ (8 * rs.length) by
    simpa using H bs.reverse (by simpa using h)
  intro rs
  induction rs with
  | nil => intro _; simp [ofBytes]
  | cons b rs ih =>
    intro h
    have h1 := ih (fun x hx => h x (by simp [hx]))
    have h2 := h b (by simp)
    rw [List.reverse_cons, ofBytes_append]
    have e : 2 ^ (8 * (b :: rs).length) = 2 ^ (8 * rs.length) * 256 := by
      rw [List.length_cons, Nat.mul_add, Nat.pow_add]
    rw [e]; omega

/-- `bits` has the bytes of `rs` (last character first) from position `c`. -/
def StoredBytes (bits : Nat) : Nat → List Nat → Prop
  | _, [] => True
  | c, b :: rs => (bits >>> c) &&& 0xFF = b ∧ StoredBytes bits (c + 8) rs

theorem and_ff (x : Nat) : x &&& 0xFF = x % 256 := by
  have := Nat.and_two_pow_sub_one_eq_mod x 8; simpa using this

theorem storedBytes_of_slice (rs : List Nat) (h : ∀ b ∈ rs, b < 256) (bits c : Nat)
    (hs : slice bits c (8 * rs.length) = ofBytes rs.reverse) : StoredBytes bits c rs := by
  induction rs generalizing c with
  | nil => trivial
  | cons b rs ih =>
    have h2 := h b (by simp)
    rw [List.reverse_cons, ofBytes_append] at hs
    have hlen : 8 * (b :: rs).length = 8 * rs.length + 8 := by simp; omega
    rw [hlen] at hs
    have key : ∀ x n : Nat, x % 2 ^ (n + 8) % 256 = x % 256 := by
      intro x n
      have : (256 : Nat) ∣ 2 ^ (n + 8) := ⟨2 ^ n, by rw [Nat.pow_add, Nat.mul_comm]⟩
      exact Nat.mod_mod_of_dvd x this
    refine ⟨?_, ?_⟩
    · rw [and_ff]
      have h3 := key (bits >>> c) (8 * rs.length)
      simp only [slice] at hs
      rw [hs] at h3; omega
    · apply ih (fun x hx => h x (by simp [hx]))
      have h3 : slice bits c (8 * rs.length + 8) / 256 = ofBytes rs.reverse := by rw [hs]; omega
      rw [← h3]
      apply Nat.eq_of_testBit_eq
      intro i
      have e256 : (256 : Nat) = 2 ^ 8 := rfl
      rw [e256, Nat.testBit_div_two_pow, slice_testBit, slice_testBit]
      have e : c + 8 + i = c + (i + 8) := by omega
      rw [e]
      by_cases hi : i < 8 * rs.length
      · have : i + 8 < 8 * rs.length + 8 := by omega
        simp [hi, this]
      · have : ¬ i + 8 < 8 * rs.length + 8 := by omega
        simp [hi, this]

theorem unpackLoop_nullterm (bits ps : Nat) (rs : List Nat) (hr : ∀ b ∈ rs, b ≠ 0) (c i : Nat) (acc : List Nat)
    (hs : StoredBytes bits c rs) (hfit : c + 8 * rs.length ≤ ps)
    (hstop : (bits >>> (c + 8 * rs.length)) &&& 0xFF = 0 ∨ ps < c + 8 * rs.length + 8) :
    unpackStringLoop bits ps c true (-1) i acc = (rs.reverse ++ acc, c + 8 * rs.length) := by
  induction rs generalizing c i acc with
  | nil =>
    rw [unpackStringLoop]
    simp only [List.length_nil, Nat.mul_zero, Nat.add_zero] at hstop
    rw [dif_neg]
    · simp
    · rintro ⟨h1, h2, _⟩
      rcases hstop with h | h
      · simp [h] at h2
      · omega
  | cons b rs ih =>
    have hb := hr b (by simp)
    have hl : 8 * (b :: rs).length = 8 + 8 * rs.length := by simp; omega
    rw [hl] at hfit hstop
    rw [unpackStringLoop]
    rw [dif_pos ⟨by omega, .inl (by rw [hs.1]; exact hb), .inr rfl⟩]
    rw [hs.1]
    rw [ih (fun x hx => hr x (by simp [hx])) (c + 8) (i + 1) (b :: acc) hs.2 (by omega)
      (by rw [Nat.add_assoc]; rcases hstop with h | h
          · exact .inl h
          · exact .inr (by omega))]
    simp; omega

theorem packString_le (p : State) (bs : List Nat) (hp : p.bigEndian = false) (hne : bs ≠ []) :
    packString p bs = some { p with bits := p.bits ||| (ofBytes bs <<< p.count), count := p.count + 8 * bs.length } := by
  simp [packString, hne, hp]

/-! ## Never past the end -/

theorem unpackStringLoop_le (bits ps c : Nat) (nt : Bool) (n : Int) (i : Nat) (acc : List Nat) (h : c ≤ ps) :
    (unpackStringLoop bits ps c nt n i acc).2 ≤ ps := by
  induction hk : ps - c using Nat.strongRecOn generalizing c i acc with
  | ind k ih =>
    rw [unpackStringLoop]
    split
    · next hc => exact ih (ps - (c + 8)) (by omega) (c + 8) _ _ (by omega) rfl
    · exact h

theorem unpackOp_inv (p : State) (op : UnpackOp) (q : State) (h : unpackOp p op = some q)
    (hle : p.count ≤ p.packedSize) : q.count ≤ q.packedSize ∧ q.packedSize = p.packedSize ∧ q.bits = p.bits := by
  have elems : ∀ w n, (unpackElems w p n).map (·.2) = some q →
      q.count ≤ q.packedSize ∧ q.packedSize = p.packedSize ∧ q.bits = p.bits := by
    intro w n h
    simp only [unpackElems] at h
    split at h
    · next he =>
      have he := (enoughBits_iff p _).mp he
      cases hm : (List.range n).mapM (fun b => if p.bigEndian then flip (p.bits >>> (b * w) &&& 2 ^ w - 1) w
          else some (p.bits >>> (b * w) &&& 2 ^ w - 1)) with
      | none => simp only [hm] at h; simp at h
      | some es => simp only [hm] at h; simp at h; subst h; exact ⟨he, rfl, rfl⟩
    · simp at h; subst h; exact ⟨hle, rfl, rfl⟩
  cases op with
  | field n =>
    simp only [unpackOp] at h
    by_cases hn : 1 ≤ n ∨ p.bigEndian = false
    · by_cases he : p.count + n ≤ p.packedSize
      · rw [unpackFieldInt_enough p n hn he] at h
        simp at h; subst h; exact ⟨he, rfl, rfl⟩
      · rw [unpackFieldInt_short p n (by omega) hn] at h
        simp at h; subst h; exact ⟨hle, rfl, rfl⟩
    · simp only [not_or] at hn
      have hn0 : n = 0 := by omega
      have hb : p.bigEndian = true := by simpa using hn.2
      subst hn0
      simp [unpackFieldInt, hb, flip_eq] at h
  | string n =>
    simp only [unpackOp, unpackString, Option.some.injEq] at h
    subst h
    refine ⟨?_, rfl, rfl⟩
    simp only
    split
    · assumption
    · exact unpackStringLoop_le _ _ _ _ _ _ _ hle
  | bytes n => exact elems 8 n h
  | ints n => exact elems 32 n h

/-! ## Elements -/

theorem mapM_some {α β : Type} (f : α → Option β) (g : α → β) (l : List α) (h : ∀ x ∈ l, f x = some (g x)) :
    l.mapM f = some (l.map g) := by
  induction l with
  | nil => rfl
  | cons x l ih =>
    rw [List.mapM_cons, h x (by simp), ih (fun y hy => h y (by simp [hy]))]
    rfl

theorem packElems_eq (w : Nat) (p : State) (vs : List Nat) :
    packElems w p vs = packAll p ((if p.bigEndian then vs.reverse else vs).map (fun v => (v, w))) := by
  simp only [packElems, packAll, List.foldlM_map]
  rfl

theorem stored_elems (be : Bool) (bits w : Nat) (vs : List Nat) (c : Nat)
    (h : Stored be bits c (vs.map (fun v => (v, w)))) :
    (List.range vs.length).map (fun b => slice bits (c + b * w) w) = vs.map (enc be w) := by
  induction vs generalizing c with
  | nil => rfl
  | cons v vs ih =>
    simp only [List.length_cons, List.range_succ_eq_map, List.map_cons, List.map_map]
    congr 1
    · simpa using h.1
    · rw [← ih (c + w) h.2]
      apply List.map_congr_left
      intro b _
      simp only [Function.comp, Nat.succ_eq_add_one, Nat.add_mul, Nat.one_mul]
      congr 1; omega

theorem width_elems (vs : List Nat) (w : Nat) : width (vs.map (fun v => (v, w))) = vs.length * w := by
  induction vs with
  | nil => simp [width]
  | cons v vs ih => simp only [width, List.map_cons, List.sum_cons, List.length_cons] at ih ⊢; rw [ih]; rw [Nat.add_mul]; omega

theorem and_mask (x n : Nat) : x &&& (2 ^ n - 1) = x % 2 ^ n := Nat.and_two_pow_sub_one_eq_mod x n

theorem unpackElems_enough (w : Nat) (hw : 1 ≤ w) (p : State) (n : Nat) (h : p.count + n * w ≤ p.packedSize) :
    unpackElems w p n = some (some (let es := (List.range n).map (fun b => enc p.bigEndian w (slice p.bits (b * w) w))
      if p.bigEndian then es.reverse else es), { p with count := p.count + n * w }) := by
  have he := (enoughBits_iff p _).mpr h
  simp only [unpackElems, he, if_true]
  rw [mapM_some _ (fun b => enc p.bigEndian w (slice p.bits (b * w) w))]
  · rfl
  · intro b _
    simp only [and_mask, enc]
    cases p.bigEndian
    · rfl
    · simp [flip_eq, hw]
      exact ⟨Nat.mod_lt _ (Nat.two_pow_pos w), rfl⟩

theorem slice_mod (b k c n : Nat) : slice (b % 2 ^ k) c n = slice b c (min n (k - c)) := by
  apply Nat.eq_of_testBit_eq
  intro i
  rw [slice_testBit, slice_testBit, Nat.testBit_mod_two_pow]
  by_cases h1 : i < n <;> by_cases h2 : c + i < k
  · have : i < min n (k - c) := by omega
    simp [h1, h2, this]
  · have : ¬ i < min n (k - c) := by omega
    simp [h2, this]
  · have : ¬ i < min n (k - c) := by omega
    simp [h1, this]
  · have : ¬ i < min n (k - c) := by omega
    simp [h1, this]

theorem getElems_eq (w : Nat) (hw : 1 ≤ w) (p : State) :
    getElems w p = some ((List.range ((p.packedSize + (w - 1)) / w)).map
      (fun i => enc p.bigEndian w (slice (p.bits % 2 ^ p.packedSize) (i * w) w))) := by
  simp only [getElems]
  apply mapM_some
  intro i hi
  rw [List.mem_range] at hi
  generalize hsz : (p.packedSize + (w - 1)) / w = sz at *
  have hmod : p.packedSize % w < w := Nat.mod_lt _ (by omega)
  have hdm := Nat.div_add_mod p.packedSize w
  generalize hq : p.packedSize / w = q at *
  generalize hr : p.packedSize % w = r at *
  have hsz2 : sz = if r = 0 then q else q + 1 := by
    rw [← hsz, ← hdm]
    split
    · next h0 => subst h0; rw [Nat.add_zero, Nat.mul_add_div (by omega), Nat.div_eq_of_lt (by omega)]; rfl
    · rw [Nat.add_assoc, Nat.mul_add_div (by omega)]
      congr 1
      exact Nat.div_eq_of_lt_le (by omega) (by omega)
  have hv : (if i ≠ sz - 1 ∨ r = 0 then (p.bits >>> (i * w)) &&& (2 ^ w - 1)
      else (p.bits >>> (i * w)) &&& ((2 ^ w - 1) >>> (w - r))) = slice (p.bits % 2 ^ p.packedSize) (i * w) w := by
    rw [slice_mod]
    split
    · next h =>
      have : i + 1 ≤ q := by
        by_cases h0 : r = 0
        · rw [if_pos h0] at hsz2; omega
        · rw [if_neg h0] at hsz2; omega
      have hm : (i + 1) * w ≤ q * w := Nat.mul_le_mul_right w this
      rw [Nat.add_mul, Nat.mul_comm q] at hm
      rw [Nat.min_eq_left (by omega), and_mask]; rfl
    · next h =>
      simp only [not_or, Decidable.not_not] at h
      have hiq : i = q := by rw [if_neg h.2] at hsz2; omega
      subst hiq
      have : p.packedSize - i * w = r := by rw [Nat.mul_comm]; omega
      rw [this, Nat.min_eq_right (by omega)]
      have e : (2 ^ w - 1) >>> (w - r) = 2 ^ r - 1 := by
        apply Nat.eq_of_testBit_eq
        intro k
        rw [Nat.testBit_shiftRight, Nat.testBit_two_pow_sub_one, Nat.testBit_two_pow_sub_one]
        congr 1
        apply propext
        omega
      rw [e, and_mask]; rfl
  rw [hv]
  simp only [enc]
  cases p.bigEndian
  · rfl
  · simp [flip_eq, hw, slice_lt]

end Verif.Packer
