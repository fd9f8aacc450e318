import Verif.Lemmas.VReg
/-!
# C239 – C242: virtual registers
-/
namespace Verif.VReg

theorem minIncr_eq (nb mb : Nat) : minIncr nb mb = (nb : Int) - 1 + mb := rfl

/-- C239.  Whatever fields are configured in a virtual register in whatever order, it holds exactly these, ordered by position, and
nothing is reported if and only if no two of them overlap and their sizes fit the width. -/
theorem C239_fields (n : Nat) (cfg : List (Nat × Nat)) :
    (build (width n) (cfg.map fun c => mkField c.1 c.2)).1.fields.Pairwise (fun x y => x.lsb ≤ y.lsb) ∧
    (build (width n) (cfg.map fun c => mkField c.1 c.2)).1.fields.Perm (cfg.map fun c => mkField c.1 c.2) ∧
    ((build (width n) (cfg.map fun c => mkField c.1 c.2)).2 = [] ↔
      NoOverlap (cfg.map fun c => mkField c.1 c.2) ∧ ((cfg.map fun c => mkField c.1 c.2).map (·.size)).sum ≤ width n) := by
  have hw : 1 ≤ width n := by unfold width; split <;> (try split) <;> omega
  have hsz : ∀ x ∈ cfg.map (fun c => mkField c.1 c.2), 1 ≤ x.size := by
    intro x hx
    obtain ⟨c, _, rfl⟩ := List.mem_map.1 hx
    simp only [mkField]
    split <;> (try split) <;> omega
  generalize cfg.map (fun c => mkField c.1 c.2) = xs at *
  obtain ⟨h1, h2⟩ := build_map (width n) hw xs
  obtain ⟨a, b, c⟩ := Reg.C16_fields_ordered_and_overlaps_reported (width n) (xs.map toRF) (by
    intro x hx
    obtain ⟨y, hy, rfl⟩ := List.mem_map.1 hx
    exact hsz y hy)
  rw [h1] at a b
  rw [h2] at c
  have inj : Function.Injective toRF := by
    rintro ⟨a, b⟩ ⟨c, d⟩ h
    have h1 : (toRF ⟨a, b⟩).lsb = (toRF ⟨c, d⟩).lsb := by rw [h]
    have h2 : (toRF ⟨a, b⟩).f.size = (toRF ⟨c, d⟩).f.size := by rw [h]
    have h1 : a = c := h1
    have h2 : b = d := h2
    rw [h1, h2]
  refine ⟨by unfold Reg.Sorted at a; rw [List.pairwise_map] at a; exact a, ?_, ?_⟩
  · have b' := b.map (fun r => (⟨r.lsb, r.f.size⟩ : VF))
    simp only [List.map_map] at b'
    have : (fun r : Reg.RF => (⟨r.lsb, r.f.size⟩ : VF)) ∘ toRF = id := rfl
    rw [this, List.map_id, List.map_id] at b'
    exact b'
  · rw [List.map_eq_nil_iff] at c
    rw [c]
    have h3 : Reg.NoOverlap (xs.map toRF) ↔ NoOverlap xs := by
      unfold Reg.NoOverlap NoOverlap
      rw [List.pairwise_map]; rfl
    have h4 : (xs.map toRF).map (fun x => x.f.size) = xs.map (·.size) := by rw [List.map_map]; rfl
    rw [h3, h4]
    have : max (width n) 1 = width n := by omega
    rw [this]

example : (build (width 16) ([(4, 8), (8, 0), (0, 15)].map fun c => mkField c.1 c.2)) = (⟨[⟨0, 8⟩, ⟨8, 4⟩, ⟨15, 1⟩], 13⟩, []) := by decide
example : (build (width 16) ([(4, 8), (9, 0)].map fun c => mkField c.1 c.2)).2 = [.overlapsNext] := by decide

/-- C240 fails for every register and every field: a field outside its register is not reported if it is the only one and is not too
wide. -/
theorem C240_outside_fails (n size lsb : Nat) (hs : 1 ≤ size) (hn : size ≤ n) (hl : n ≤ lsb) (h : n ≤ 64) :
    (build (width n) [mkField size lsb]).2 = [] ∧ ∀ i, Covers (mkField size lsb) i → width n ≤ i := by
  have hw : width n = n := by unfold width; rw [if_neg (by omega), if_neg (by omega)]
  have hm : mkField size lsb = ⟨lsb, size⟩ := by unfold mkField; rw [if_neg (by omega), if_neg (by omega)]
  rw [hw, hm]
  refine ⟨?_, fun i hi => Nat.le_trans hl hi.1⟩
  have : ¬ size > n := by omega
  simp [build, addField, place, this]

example : (build (width 8) [mkField 4 100]).2 = [] := by decide

/-- What `reserve_region` does on an unused manager. -/
theorem reserve_new (size bytes : Nat) (hb : 1 ≤ bytes) (off n : Int) (hn : 1 ≤ n) (ho : 0 ≤ off) (hf : off * bytes + n ≤ size * bytes) :
    ∃ r, (Mam.reserve (Mam.new size bytes) off n).2 = .region r ∧ r.first = off ∧ r.last = off + (n - 1) / bytes := by
  have hd : (n - 1).tdiv bytes = (n - 1) / bytes := Int.tdiv_eq_ediv_of_nonneg (by omega)
  have hq : off + (n - 1) / (bytes : Int) ≤ (size : Int) - 1 := by
    have h1 : (n - 1) / (bytes : Int) < size - off := by
      apply Int.ediv_lt_of_lt_mul (by omega)
      rw [Int.sub_mul]; omega
    omega
  refine ⟨⟨off, off + (n - 1) / bytes, off + (n - 1) / bytes - off + 1, (off + (n - 1) / bytes - off + 1) * bytes⟩, ?_, rfl, rfl⟩
  simp only [Mam.reserve, Mam.new, hd]
  rw [if_neg (by omega), if_neg (by omega), if_neg (by omega)]

/-- C241, what holds, for a whole increment: a virtual register that is not implemented yet goes into an unused memory of its block
exactly if the increment has room for it *and one byte short of another location* (`nBytes - 1 + memBytes ≤ incr * memBytes`) and all
are inside the memory; then the region reserved is exactly theirs. -/
theorem C241_implement_partial (s : State) (k : Nat) (hm : s.mems k = newMem (s.mems k).block (s.mems k).bytes (s.mems k).size)
    (hb : 1 ≤ (s.mems k).bytes) (hnb : 1 ≤ s.nBytes) (hs : s.static = false) (hi : s.impl = none) (n off incr : Int) (hc : incr ≠ 0) (ho : 0 ≤ off) :
    ((implement s n (some k) off incr).2 = .ok ↔
      (s.mems k).block = s.parent ∧ 1 ≤ n ∧ (s.nBytes : Int) - 1 + (s.mems k).bytes ≤ incr * (s.mems k).bytes ∧ off + n * incr ≤ (s.mems k).size) ∧
    ((implement s n (some k) off incr).2 = .ok → ∃ r, (implement s n (some k) off incr).1.impl = some ⟨k, n, off, incr * (s.mems k).bytes, r⟩ ∧
      r.first = off ∧ r.last = off + n * incr - 1) ∧
    ((implement s n (some k) off incr).2 ≠ .ok → (implement s n (some k) off incr) = (s, .refused)) := by
  generalize hmk : s.mems k = m at *
  have hmam : m.mam = Mam.new m.size m.bytes := by rw [hm]; rfl
  have hpos : (0 : Int) < m.bytes := by omega
  simp only [implement, hmk, hs, Bool.false_eq_true, if_false, if_neg hc, minIncr_eq]
  by_cases h1 : n < 1
  · simp only [h1, if_true]
    refine ⟨⟨fun h => absurd h (by decide), fun h => by omega⟩, fun h => absurd h (by decide), fun _ => trivial⟩
  rw [if_neg h1]
  by_cases h2 : m.block ≠ s.parent
  · simp only [if_pos h2]
    exact ⟨⟨fun h => absurd h (by decide), fun h => absurd h.1 h2⟩, fun h => absurd h (by decide), fun _ => trivial⟩
  rw [if_neg h2]
  by_cases h3 : (s.nBytes : Int) - 1 + m.bytes > incr * m.bytes
  · simp only [if_pos h3]
    exact ⟨⟨fun h => absurd h (by decide), fun h => by omega⟩, fun h => absurd h (by decide), fun _ => trivial⟩
  rw [if_neg h3]
  have hmul : off * m.bytes + n * (incr * m.bytes) = (off + n * incr) * m.bytes := by rw [Int.add_mul, Int.mul_assoc]
  have hfit : off * m.bytes + n * (incr * m.bytes) > m.size * m.bytes ↔ ¬ off + n * incr ≤ m.size := by
    rw [hmul]
    constructor
    · intro h h'
      have := Int.mul_le_mul_of_nonneg_right h' (Int.le_of_lt hpos)
      omega
    · intro h
      have : (m.size : Int) < off + n * incr := by omega
      exact Int.mul_lt_mul_of_pos_right this hpos
  by_cases h4 : off * m.bytes + n * (incr * m.bytes) > m.size * m.bytes
  · simp only [if_pos h4]
    exact ⟨⟨fun h => absurd h (by decide), fun h => absurd h.2.2.2 (hfit.1 h4)⟩, fun h => absurd h (by decide), fun _ => trivial⟩
  rw [if_neg h4]
  have hfit' : off + n * incr ≤ m.size := by
    by_cases h : off + n * incr ≤ m.size
    · exact h
    · exact absurd (hfit.2 h) h4
  have hincr : 1 ≤ incr := by
    by_cases h : 1 ≤ incr
    · exact h
    · have h0 : incr ≤ 0 := by omega
      have := Int.mul_nonpos_of_nonpos_of_nonneg h0 (Int.le_of_lt hpos)
      omega
  have hn1 : 1 ≤ n * (incr * m.bytes) := by
    have h5 : 0 < incr * (m.bytes : Int) := Int.mul_pos (by omega) hpos
    have h6 : 0 < n * (incr * (m.bytes : Int)) := Int.mul_pos (by omega) h5
    omega
  obtain ⟨r, hr, hr1, hr2⟩ := reserve_new m.size m.bytes hb off (n * (incr * m.bytes)) hn1 ho (by omega)
  rw [hmam, hr]
  simp only [hi]
  refine ⟨⟨fun _ => ⟨by simpa using h2, by omega, by omega, hfit'⟩, fun _ => trivial⟩, fun _ => ⟨r, rfl, hr1, ?_⟩, fun h => absurd rfl h⟩
  rw [hr2]
  have : (n * (incr * (m.bytes : Int)) - 1) / (m.bytes : Int) = n * incr - 1 := by
    rw [← Int.mul_assoc]
    have e : n * incr * (m.bytes : Int) - 1 = (m.bytes - 1 : Int) + (n * incr - 1) * m.bytes := by rw [Int.sub_mul]; omega
    rw [e, Int.add_mul_ediv_right _ _ (by omega), Int.ediv_eq_zero_of_lt (by omega) (by omega)]
    omega
  rw [this]; omega

/-- C241, part: implementing a virtual register touches no other memory, and the region is reserved in its own. -/
theorem C241_other_memories_partial (s : State) (n : Int) (k : Nat) (off incr : Int) :
    (∀ j, j ≠ k → (implement s n (some k) off incr).1.mems j = s.mems j) ∧
    (∀ i, s.impl = none → (implement s n (some k) off incr).1.impl = some i →
      ((implement s n (some k) off incr).1.mems k).mam = (Mam.reserve (s.mems k).mam off (n * i.incr)).1 ∧
      (Mam.reserve (s.mems k).mam off (n * i.incr)).2 = .region i.region) := by
  unfold implement
  dsimp only
  split
  · exact ⟨fun _ _ => rfl, fun i h0 h1 => by rw [h0] at h1; cases h1⟩
  split
  · exact ⟨fun _ _ => rfl, fun i h0 h1 => by rw [h0] at h1; cases h1⟩
  split
  · exact ⟨fun _ _ => rfl, fun i h0 h1 => by rw [h0] at h1; cases h1⟩
  generalize (if incr = 0 then minIncr s.nBytes (s.mems k).bytes else incr * ((s.mems k).bytes : Int)) = inc
  split
  · exact ⟨fun _ _ => rfl, fun i h0 h1 => by rw [h0] at h1; cases h1⟩
  split
  · exact ⟨fun _ _ => rfl, fun i h0 h1 => by rw [h0] at h1; cases h1⟩
  split
  · exact ⟨fun _ _ => rfl, fun i h0 h1 => by rw [h0] at h1; cases h1⟩
  · exact ⟨fun _ _ => rfl, fun i h0 h1 => by rw [h0] at h1; cases h1⟩
  · next reg hreg =>
    split
    · next x hx => exact ⟨fun j hj => by simp [upd, hj], fun i h0 _ => by rw [h0] at hx; cases hx⟩
    · refine ⟨fun j hj => by simp [upd, hj], fun i _ h1 => ?_⟩
      cases h1
      exact ⟨by simp [upd], hreg⟩

/-- Two registers of 4 bytes with the increment 2 in an unused memory of 16 words. -/
example : (implement ⟨4, 7, false, none, fun _ => newMem 7 4 16⟩ 2 (some 0) 3 2).2 = .ok ∧
    (implement ⟨4, 7, false, none, fun _ => newMem 7 4 16⟩ 2 (some 0) 13 2).2 = .refused := by decide

/-- C241 fails: the least increment with room for a register is refused unless the last location holds exactly one byte of it. -/
theorem C241_least_increment_fails (s : State) (k : Nat) (n off need : Int) (hb : 1 ≤ (s.mems k).bytes) (hnb : 1 ≤ s.nBytes)
    (hneed : Needs s.nBytes (s.mems k).bytes need) (hr : ((s.nBytes : Int) - 1) % (s.mems k).bytes ≠ 0) :
    implement s n (some k) off need = (s, .refused) := by
  have hpos : (0 : Int) < (s.mems k).bytes := by omega
  have hn : need = ((s.nBytes : Int) - 1) / (s.mems k).bytes + 1 := by
    obtain ⟨h1, h2⟩ := hneed
    have e := Int.emod_add_mul_ediv ((s.nBytes : Int) - 1) (s.mems k).bytes
    have hlt := Int.emod_lt_of_pos ((s.nBytes : Int) - 1) hpos
    have h3 := h2 (((s.nBytes : Int) - 1) / (s.mems k).bytes + 1) (by
      rw [Int.add_mul, Int.mul_comm]; omega)
    have h4 : ((s.nBytes : Int) - 1) / (s.mems k).bytes < need := by
      apply Int.ediv_lt_of_lt_mul hpos
      omega
    omega
  have hgt : minIncr s.nBytes (s.mems k).bytes > need * (s.mems k).bytes := by
    have e := Int.emod_add_mul_ediv ((s.nBytes : Int) - 1) (s.mems k).bytes
    have hnn := Int.emod_nonneg ((s.nBytes : Int) - 1) (Int.ne_of_gt hpos)
    rw [hn, minIncr_eq, Int.add_mul, Int.mul_comm (((s.nBytes : Int) - 1) / _)]
    omega
  have hne : need ≠ 0 := by
    have := Int.ediv_nonneg (a := (s.nBytes : Int) - 1) (b := (s.mems k).bytes) (by omega) (by omega)
    omega
  simp only [implement, if_neg hne, if_pos hgt]
  repeat' split
  all_goals rfl

/-- A 32-bit register array in a 32-bit memory: the increment 1 is refused, four registers do not fit into four words. -/
example : Needs 4 4 1 ∧ ((4 : Int) - 1) % (4 : Nat) ≠ 0 := ⟨⟨by decide, fun j h => by omega⟩, by decide⟩

/-- C241 fails for every memory of which a region is in use: nothing more can be implemented in it, wherever. -/
theorem C241_in_use_fails (s : State) (k : Nat) (hu : (s.mems k).mam.inUse ≠ []) (n off incr : Int) :
    implement s n (some k) off incr = (s, .refused) ∨ implement s n (some k) off incr = (s, .raised) := by
  have hres : ∀ a b, (Mam.reserve (s.mems k).mam a b).2 = .refused ∨ (Mam.reserve (s.mems k).mam a b).2 = .raised := by
    intro a b
    simp only [Mam.reserve]
    split
    · exact .inl rfl
    split
    · exact .inl rfl
    split
    · exact .inl rfl
    split
    · exact .inr rfl
    · next he => exact absurd he hu
  unfold implement
  dsimp only
  generalize (if incr = 0 then minIncr s.nBytes (s.mems k).bytes else incr * (s.mems k).bytes) = inc
  split
  · exact .inl rfl
  split
  · exact .inl rfl
  split
  · exact .inl rfl
  split
  · exact .inl rfl
  split
  · exact .inl rfl
  rcases hres off (n * inc) with h | h
  · rw [h]; exact .inl rfl
  · rw [h]; exact .inr rfl

/-- Two arrays in disjoint parts of one memory. -/
example : (implement { (implement ⟨1, 7, false, none, fun _ => newMem 7 4 16⟩ 2 (some 0) 0 1).1 with impl := none } 2 (some 0) 8 1).2 = .raised := by
  decide

/-- C241 fails for the default increment: the array takes `n * (nBytes - 1 + memBytes)` bytes; if the memory has exactly the locations
needed, it is refused. -/
theorem C241_default_fails (s : State) (k : Nat) (n need : Int) (hb : 1 ≤ (s.mems k).bytes) (hnb : 1 ≤ s.nBytes) (h1 : 1 ≤ n)
    (hneed : Needs s.nBytes (s.mems k).bytes need) (hr : ((s.nBytes : Int) - 1) % (s.mems k).bytes ≠ 0) (hsz : ((s.mems k).size : Int) = n * need) :
    implement s n (some k) 0 0 = (s, .refused) := by
  have hpos : (0 : Int) < (s.mems k).bytes := by omega
  have hgt : minIncr s.nBytes (s.mems k).bytes > need * (s.mems k).bytes := by
    obtain ⟨h1, h2⟩ := hneed
    have e := Int.emod_add_mul_ediv ((s.nBytes : Int) - 1) (s.mems k).bytes
    have hlt := Int.emod_lt_of_pos ((s.nBytes : Int) - 1) hpos
    have hnn := Int.emod_nonneg ((s.nBytes : Int) - 1) (Int.ne_of_gt hpos)
    have h3 := h2 (((s.nBytes : Int) - 1) / (s.mems k).bytes + 1) (by
      rw [Int.add_mul, Int.mul_comm]; omega)
    have h4 := Int.mul_le_mul_of_nonneg_right h3 (Int.le_of_lt hpos)
    rw [Int.add_mul, Int.mul_comm (((s.nBytes : Int) - 1) / _)] at h4
    rw [minIncr_eq]
    omega
  have hbig : (0 : Int) * (s.mems k).bytes + n * minIncr s.nBytes (s.mems k).bytes > (s.mems k).size * (s.mems k).bytes := by
    rw [hsz, Int.mul_assoc, Int.zero_mul, Int.zero_add]
    exact Int.mul_lt_mul_of_pos_left hgt (by omega)
  simp only [implement, if_true, if_pos hbig]
  repeat' split
  all_goals rfl

/-- An implemented register stays where it is. -/
theorem implement_again (s : State) (i : Impl) (h : s.impl = some i) (n : Int) (mem : Option Nat) (off incr : Int) :
    (implement s n mem off incr).2 ≠ .ok ∧ (implement s n mem off incr).1.impl = some i := by
  simp only [implement]
  split
  · exact ⟨nofun, h⟩
  split
  · exact ⟨nofun, h⟩
  · simp only [h]
    repeat' split
    all_goals first
      | exact ⟨nofun, h⟩
      | exact ⟨nofun, rfl⟩
      | simp_all

/-- C242 fails: a virtual register that is implemented can never be implemented again: every later call is refused or raises. -/
theorem C242_again_fails (s : State) (i : Impl) (h : s.impl = some i) (calls : List (Int × Option Nat × Int × Int)) (n : Int) (mem : Option Nat)
    (off incr : Int) : (implement (run s calls) n mem off incr).2 ≠ .ok ∧ (run s calls).impl = some i := by
  have key : (run s calls).impl = some i := by
    induction calls generalizing s with
    | nil => exact h
    | cons c l ih => exact ih _ (implement_again s i h c.1 c.2.1 c.2.2.1 c.2.2.2).2
  exact ⟨(implement_again _ i key n mem off incr).1, key⟩

/-- C242 fails, and a call that raises leaves the other memory reserved: nothing can be put there any more. -/
theorem C242_leak_fails :
    ∃ s : State, (implement s 2 (some 0) 0 2).2 = .ok ∧ (implement (implement s 2 (some 0) 0 2).1 2 (some 1) 0 2).2 = .raised ∧
      ((implement (implement s 2 (some 0) 0 2).1 2 (some 1) 0 2).1.mems 1).mam.inUse ≠ [] :=
  ⟨⟨4, 7, false, none, fun _ => newMem 7 4 16⟩, by decide, by decide, by decide⟩

/-- C242, what holds: a static register is never moved. -/
theorem C242_static_partial (nBytes parent : Nat) (mems : Nat → Mem) (c : Nat × Int × Int × Int) (s : State)
    (hs : configure nBytes parent mems (some c) = some s) (n : Int) (mem : Option Nat) (off incr : Int) :
    implement s n mem off incr = (s, .refused) := by
  have hst : s.static = true := by
    obtain ⟨k, n', off', incr'⟩ := c
    simp only [configure] at hs
    split at hs
    · cases hs
    · simp only [Option.some.injEq] at hs
      rw [← hs]
  simp only [implement, hst, if_true]
  repeat' split
  all_goals rfl

example : ∃ s, configure 4 7 (fun _ => newMem 7 4 16) (some (0, 2, 0, 2)) = some s ∧ s.impl ≠ none := ⟨_, rfl, by decide⟩

end Verif.VReg
