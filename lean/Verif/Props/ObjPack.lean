import Verif.Lemmas.ObjPack
/-! # C176–C179: packing objects -/
namespace Verif.ObjPack
open Verif.Packer

theorem pack_eq {h : Heap} {d deep o : Nat} {l} (be : Bool) (hl : places h (d + 1) o = some l) (hd : d ≤ deep) :
    packFields h (packObj h deep []) o (h o).fields (init be) = lift (packAll (init be) (fieldsAt h l)) := by
  rw [places] at hl
  exact packFields_places (fun q l' hq p => packObj_places hq (by simp) hd p) o _ hl (init be)

theorem fits_at {h : Heap} {l : List (Nat × Nat)} (hv : ∀ v ∈ valuesAt h l, v < 2 ^ 32) : Fits (fieldsAt h l) := by
  intro f hf
  obtain ⟨x, hx, rfl⟩ := List.mem_map.1 hf
  exact ⟨by simp, hv x hx⟩

theorem stored_bit {be : Bool} {b c : Nat} (vs : List Nat) (h : Stored be b c (vs.map (·, 32))) (i : Nat) (hi : i < vs.length) (j : Nat) (hj : j < 32) :
    b.testBit (c + 32 * i + (if be then 31 - j else j)) = (vs[i]).testBit j := by
  induction vs generalizing c i with
  | nil => simp at hi
  | cons v vs ih =>
    obtain ⟨h1, h2⟩ := h
    cases i with
    | zero =>
      simp only at h1
      have := congrArg (fun x => x.testBit (if be then 31 - j else j)) h1
      simp only [slice_testBit] at this
      have hlt : (if be then 31 - j else j) < 32 := by split <;> omega
      simp only [hlt, decide_true, Bool.true_and] at this
      simp only [Nat.mul_zero, Nat.add_zero, List.getElem_cons_zero, this]
      cases be with
      | false => rfl
      | true =>
        simp only [enc, if_true, rev_testBit]
        have e : 32 - 1 - (31 - j) = j := by omega
        rw [e]
        have : 31 - j < 32 := by omega
        simp [this]
    | succ i =>
      have := ih h2 i (by simpa using hi)
      simp only [List.getElem_cons_succ]
      rw [← this]
      have e : c + 32 * (i + 1) = c + 32 + 32 * i := by omega
      rw [e]

/-- C176 (packing): the packed bits of an object are its integers and those of the objects it refers to, in the order of the fields, depth first, 32 bits
each; the number of bits is returned. -/
theorem C176_pack_layout (h : Heap) (d deep o : Nat) (l : List (Nat × Nat)) (be : Bool) (hl : places h (d + 1) o = some l) (hd : d ≤ deep)
    (hv : ∀ v ∈ valuesAt h l, v < 2 ^ 32) :
    ∃ bits, pack h deep be o = .ok (32 * l.length, bits) ∧ bits < 2 ^ (32 * l.length) ∧
      ∀ i, ∀ hi : i < (valuesAt h l).length, ∀ j < 32, bits.testBit (32 * i + (if be then 31 - j else j)) = ((valuesAt h l)[i]).testBit j := by
  obtain ⟨q, e, hc, _, hclean, _, hs⟩ := packAll_stored _ (fits_at hv) (init be) (by intro i _; simp [init])
  simp only [init, Nat.zero_add] at hc hs
  have hw : width (fieldsAt h l) = 32 * l.length := by rw [fieldsAt, width_const]; simp [valuesAt]
  rw [hw] at hc
  refine ⟨q.bits, ?_, ?_, ?_⟩
  · simp only [pack, pack_eq be hl hd, e, lift, setPackedSize, hc]
  · rw [← hc]
    exact Nat.lt_pow_two_of_testBit _ fun i hi => hclean i hi
  · intro i hi j hj
    have := stored_bit (valuesAt h l) hs i hi j hj
    simpa using this

theorem unpack_eq {h : Heap} {d deep o : Nat} {l} (be : Bool) (bits : Nat) (hl : places h (d + 1) o = some l) (hd : d ≤ deep) {vs es p}
    (hu : unpackAll (putBits (init be) bits) (l.map fun _ => 32) = some (vs, es, p)) :
    unpack h deep be o bits = .ok ⟨store h l vs, p.count, (es.filter id).length, p.packedSize != (putBits (init be) bits).packedSize⟩ := by
  rw [places] at hl
  have h1 := (unpackFields_places (h := h) (r := places h d) (rec := unpackObj deep [])
    (fun q l' hq s hs => unpackObj_places hq (by simp) hd s hs) o _ hl ⟨h, putBits (init be) bits, 0⟩ (Shape.refl h)).1
  rw [fill_eq _ _ hu] at h1
  simp only [unpack, h1, lift, setPackedSize, Nat.zero_add]

/-- C176 (round trip, exactly): object `a` holds the values `pre`, then `v ≠ 0`, then `m` zeros.  Its packed bits are unpacked into an object `b` with as
many integers.  All values but `v` are restored; `v` is restored exactly when the last of its bits in the stream is set (big endian, the default: `v` is odd;
little endian: `v ≥ 2^31`) and otherwise becomes 0.  Nothing else is changed; the number of bits read is returned; each of the zeros, and `v` if
it is lost, costs an error. -/
theorem C176_unpack_exact_partial (h : Heap) (d deep a b : Nat) (la lb : List (Nat × Nat)) (be : Bool) (ha : places h (d + 1) a = some la)
    (hb : places h (d + 1) b = some lb) (hd : d ≤ deep) (hn : lb.Nodup) (hlen : lb.length = la.length) (pre : List Nat) (v m : Nat)
    (hva : valuesAt h la = pre ++ v :: List.replicate m 0) (hv0 : v ≠ 0) (hv : ∀ x ∈ valuesAt h la, x < 2 ^ 32) :
    ∃ bits u, pack h deep be a = .ok (32 * la.length, bits) ∧ unpack h deep be b bits = .ok u ∧
      valuesAt u.heap lb = pre ++ (if (if be then v % 2 = 1 else 2 ^ 31 ≤ v) then v else 0) :: List.replicate m 0 ∧
      u.size = 32 * pre.length + (if (if be then v % 2 = 1 else 2 ^ 31 ≤ v) then 32 else 0) ∧
      u.errors = m + (if (if be then v % 2 = 1 else 2 ^ 31 ≤ v) then 0 else 1) ∧
      (∀ x ∈ lb, ∃ w, (u.heap x.1).vals x.2 = .int w) ∧
      (∀ o f, (o, f) ∉ lb → (u.heap o).vals f = (h o).vals f) ∧ ∀ o, (u.heap o).fields = (h o).fields := by
  obtain ⟨q, e, hc, -⟩ := packAll_stored _ (fits_at hv) (init be) (by intro i _; simp [init])
  have hw : width (fieldsAt h la) = 32 * la.length := by rw [fieldsAt, width_const]; simp [valuesAt]
  simp only [init, Nat.zero_add, hw] at hc
  have hlen' : (pre ++ v :: List.replicate m 0).length = la.length := by rw [← hva]; simp [valuesAt]
  have e' := e
  rw [fieldsAt, hva] at e'
  obtain ⟨es, p', h1, h2, h3⟩ := unpack_packed be pre v m (fun x hx => hv x (by rw [hva]; simp [hx])) (hv v (by rw [hva]; simp)) hv0 e'
  have hmap : (pre ++ v :: List.replicate m 0).map (fun _ => 32) = lb.map fun _ => 32 := by
    rw [List.map_const', List.map_const', hlen', hlen]
  rw [hmap] at h1
  refine ⟨q.bits, _, ?_, unpack_eq be q.bits hb hd h1, ?_, h2, h3, ?_, ?_, ?_⟩
  · simp only [pack, pack_eq be ha hd, e, lift, setPackedSize, hc]
  · apply store_values _ _ _ hn
    rw [hlen, ← hlen']; simp
  · exact store_int h lb _ (by rw [hlen, ← hlen']; simp)
  · exact fun o f ho => store_other h lb _ o f ho
  · exact fun o => store_fields h lb _ o

/-- C176: an object whose integers are all zero is restored. -/
theorem C176_unpack_zeros_partial (h : Heap) (d deep a b : Nat) (la lb : List (Nat × Nat)) (be : Bool) (ha : places h (d + 1) a = some la)
    (hb : places h (d + 1) b = some lb) (hd : d ≤ deep) (hn : lb.Nodup) (hlen : lb.length = la.length) (hva : ∀ x ∈ valuesAt h la, x = 0) :
    ∃ u, pack h deep be a = .ok (32 * la.length, 0) ∧ unpack h deep be b 0 = .ok u ∧ valuesAt u.heap lb = valuesAt h la := by
  have hr : valuesAt h la = List.replicate la.length 0 := by
    apply List.eq_replicate_iff.2 ⟨by simp [valuesAt], hva⟩
  have hv : ∀ v ∈ valuesAt h la, v < 2 ^ 32 := fun v hv' => by rw [hva v hv']; simp
  obtain ⟨bits, h1, h2, h3⟩ := C176_pack_layout h d deep a la be ha hd hv
  have h0 : bits = 0 := by
    apply Nat.eq_of_testBit_eq
    intro i
    rw [Nat.zero_testBit]
    by_cases hi : i < 32 * la.length
    · have hlen' : i / 32 < (valuesAt h la).length := by rw [hr, List.length_replicate]; omega
      have := h3 (i / 32) hlen' (if be then 31 - i % 32 else i % 32) (by split <;> omega)
      have e : 32 * (i / 32) + (if be then 31 - (if be then 31 - i % 32 else i % 32) else (if be then 31 - i % 32 else i % 32)) = i := by
        cases be <;> simp <;> omega
      rw [e] at this
      rw [this, hva _ (List.getElem_mem hlen'), Nat.zero_testBit]
    · exact testBit_high h2 (by omega)
  subst h0
  have hb0 : binLen 0 ≤ 31 := by rw [binLen_le_iff]; simp
  have hu := unpackAll_none (putBits (init be) 0) lb.length (by simp [putBits]; omega)
  rw [← List.map_const'] at hu
  refine ⟨_, h1, unpack_eq be 0 hb hd hu, ?_⟩
  rw [hr, ← hlen]
  exact store_values _ _ _ hn (by simp)

/-- C176 (round trip): the values are restored if and only if the last value that is not zero is odd (big endian) or at least `2^31` (little endian). -/
theorem C176_roundtrip_iff_partial (h : Heap) (d deep a b : Nat) (la lb : List (Nat × Nat)) (be : Bool) (ha : places h (d + 1) a = some la)
    (hb : places h (d + 1) b = some lb) (hd : d ≤ deep) (hn : lb.Nodup) (hlen : lb.length = la.length) (hv : ∀ x ∈ valuesAt h la, x < 2 ^ 32) :
    ∃ bits u, pack h deep be a = .ok (32 * la.length, bits) ∧ unpack h deep be b bits = .ok u ∧
      (valuesAt u.heap lb = valuesAt h la ↔ ∀ v, lastNonzero (valuesAt h la) = some v → if be then v % 2 = 1 else 2 ^ 31 ≤ v) := by
  cases hz : lastNonzero (valuesAt h la) with
  | none =>
    have hz' : ∀ x ∈ valuesAt h la, x = 0 := by
      intro x hx
      have := List.find?_eq_none.1 hz x (by simpa using hx)
      simpa using this
    obtain ⟨u, h1, h2, h3⟩ := C176_unpack_zeros_partial h d deep a b la lb be ha hb hd hn hlen hz'
    exact ⟨0, u, h1, h2, by simp [h3]⟩
  | some v =>
    obtain ⟨hv0, as, bs, e, hs⟩ := List.find?_eq_some_iff_append.1 hz
    have e2 : valuesAt h la = bs.reverse ++ v :: List.replicate as.length 0 := by
      have := congrArg List.reverse e
      rw [List.reverse_reverse] at this
      rw [this]
      have hr : as.reverse = List.replicate as.length 0 := by
        apply List.eq_replicate_iff.2
        refine ⟨by simp, fun x hx => ?_⟩
        have := hs x (by simpa using hx)
        simpa using this
      simp [hr]
    obtain ⟨bits, u, h1, h2, h3, -⟩ := C176_unpack_exact_partial h d deep a b la lb be ha hb hd hn hlen _ v as.length e2 (by simpa using hv0) hv
    refine ⟨bits, u, h1, h2, ?_⟩
    rw [h3, e2]
    constructor
    · intro hx w hw
      rw [Option.some.injEq] at hw; subst hw
      have := List.append_cancel_left hx
      simp only [List.cons.injEq, and_true] at this
      by_cases ht : (if be then v % 2 = 1 else 2 ^ 31 ≤ v)
      · exact ht
      · rw [if_neg ht] at this; simp at hv0; omega
    · intro hx
      rw [if_pos (hx v rfl)]

/-- An object with one integer. -/
def single (v : Nat) : Heap := fun _ => ⟨[(0, 1)], fun _ => .int v⟩

/-- C176 fails: with the default byte order an even value does not survive: it is unpacked as 0, with an error. -/
theorem C176_even_value_fails (v : Nat) (hv : v < 2 ^ 32) (h0 : v ≠ 0) (he : v % 2 = 0) :
    ∃ bits u, pack (single v) 1 true 0 = .ok (32, bits) ∧ unpack (single v) 1 true 0 bits = .ok u ∧ (u.heap 0).vals 0 = .int 0 ∧ u.errors = 1 ∧ u.size = 0 := by
  obtain ⟨bits, u, h1, h2, h3, h4, h5, h7, -⟩ := C176_unpack_exact_partial (single v) 0 1 0 0 [(0, 0)] [(0, 0)] true rfl rfl (by omega) (by simp) rfl [] v 0 rfl h0
    (by intro x hx; simp [valuesAt, single] at hx; omega)
  have h6 : ¬ v % 2 = 1 := by omega
  simp only [if_true, h6, if_false, List.nil_append] at h3 h4 h5
  obtain ⟨w, hw⟩ := h7 (0, 0) (by simp)
  simp only [valuesAt, List.map_cons, List.map_nil, hw, List.replicate_zero, List.cons.injEq, and_true] at h3
  exact ⟨bits, u, h1, h2, by rw [hw, h3], h5, h4⟩

/-- An object with two integers and an object between them, which has one integer and one that is not packed. -/
def nested (x y z : Nat) : Heap := fun o => if o = 0 then ⟨[(0, 1), (1, 1), (2, 1)], fun f => if f = 0 then .int x else if f = 1 then .obj 1 else .int z⟩
  else ⟨[(0, 1), (1, 513)], fun f => if f = 0 then .int y else .other⟩

example : places (nested 7 8 9) 2 0 = some [(0, 0), (1, 0), (0, 2)] := by decide
example : valuesAt (nested 7 8 9) [(0, 0), (1, 0), (0, 2)] = [7, 8, 9] := by decide
example : pack (nested 1 2 3) 1 false 0 = .ok (96, 1 + 2 * 2 ^ 32 + 3 * 2 ^ 64) := by rfl

/-! ## Termination -/

def room (dom busy : List Nat) : Nat := (dom.filter fun o => decide (o ∉ busy)).length

theorem room_cons {dom busy : List Nat} {o : Nat} (ho : o ∈ dom) (hb : o ∉ busy) : room dom (o :: busy) < room dom busy := by
  unfold room
  have h1 : (dom.filter fun x => decide (x ∉ o :: busy)) = (dom.filter fun x => decide (x ∉ busy)).filter fun x => decide (x ≠ o) := by
    rw [List.filter_filter]
    congr 1
    funext x
    by_cases h : x = o <;> simp [h]
  rw [h1]
  apply Nat.lt_of_le_of_ne (List.length_filter_le _ _)
  intro he
  have := List.length_filter_eq_length_iff.1 he o (by simp [ho, hb])
  simp at this

theorem packFields_total {h : Heap} {rec : Nat → State → Except Err State} {dom : List Nat} (hc : Closed h dom) (hr : ∀ q ∈ dom, ∀ p, rec q p ≠ .error .recursion) {o : Nat}
    (ho : o ∈ dom) (fs : List (Nat × Nat)) (p : State) : packFields h rec o fs p ≠ .error .recursion := by
  induction fs generalizing p with
  | nil => simp [packFields]
  | cons x fs ih =>
    obtain ⟨f, mask⟩ := x
    simp only [packFields]
    split
    · have hv : packVal rec p ((h o).vals f) ≠ .error .recursion := by
        cases hq : (h o).vals f with
        | int v => simp only [packVal]; cases packFieldInt p v 32 <;> simp [lift]
        | str s => simp only [packVal]; cases packString p s <;> simp [lift]
        | other => simp [packVal]
        | obj q => exact hr q (hc o ho f q hq) p
      cases hp : packVal rec p ((h o).vals f) with
      | ok p' => exact ih p'
      | error e => intro he; simp only at he; rw [hp] at hv; exact hv he
    · exact ih p

theorem packObj_total {h : Heap} {dom : List Nat} (hc : Closed h dom) (n : Nat) (busy : List Nat) (hn : room dom busy < n) (o : Nat) (ho : o ∈ dom) (p : State) :
    packObj h n busy o p ≠ .error .recursion := by
  induction n generalizing busy o p with
  | zero => omega
  | succ n ih =>
    rw [packObj]
    split
    · simp
    · next hb =>
      have := room_cons ho hb
      exact packFields_total hc (fun q hq p' => ih (o :: busy) (by omega) q hq p') ho _ p

theorem unpackFields_total {rec : Nat → USt → Except Err USt} {dom : List Nat}
    (hr : ∀ q ∈ dom, ∀ s : USt, Closed s.heap dom → rec q s ≠ .error .recursion ∧ ∀ s', rec q s = .ok s' → Closed s'.heap dom) {o : Nat}
    (ho : o ∈ dom) (fs : List (Nat × Nat)) (s : USt) (hc : Closed s.heap dom) :
    unpackFields rec o fs s ≠ .error .recursion ∧ ∀ s', unpackFields rec o fs s = .ok s' → Closed s'.heap dom := by
  have hset : ∀ (h : Heap) (f : Nat) (v : Val), Closed h dom → (∀ q, v = .obj q → q ∈ dom) → Closed (setVal h o f v) dom := by
    intro h f v hcl hv o' ho' f' q hq
    unfold setVal at hq
    by_cases h1 : o' = o
    · subst h1
      simp only [if_true] at hq
      by_cases h2 : f' = f
      · simp only [h2, if_true] at hq; exact hv q hq
      · simp only [h2, if_false] at hq; exact hcl o' ho' f' q hq
    · simp only [h1, if_false] at hq; exact hcl o' ho' f' q hq
  induction fs generalizing s with
  | nil =>
    refine ⟨by simp [unpackFields], fun s' e => ?_⟩
    simp only [unpackFields, Except.ok.injEq] at e; subst e; exact hc
  | cons x fs ih =>
    obtain ⟨f, mask⟩ := x
    simp only [unpackFields]
    split
    · have hv : unpackVal rec o f s ≠ .error .recursion ∧ ∀ s', unpackVal rec o f s = .ok s' → Closed s'.heap dom := by
        cases hq : (s.heap o).vals f with
        | int v =>
          simp only [unpackVal, hq]
          cases hu : unpackFieldInt s.packer 32 with
          | none => simp
          | some u =>
            refine ⟨by simp, fun s' e => ?_⟩
            simp only [Except.ok.injEq] at e; subst e
            exact hset _ _ _ hc (by simp)
        | str b =>
          simp only [unpackVal, hq]
          refine ⟨by simp, fun s' e => ?_⟩
          simp only [Except.ok.injEq] at e; subst e
          exact hset _ _ _ hc (by simp)
        | other => simp [unpackVal, hq]
        | obj q =>
          have hqd := hc o ho f q hq
          obtain ⟨h1, h2⟩ := hr q hqd s hc
          simp only [unpackVal, hq]
          cases hx : rec q s with
          | error e => exact ⟨fun he => h1 (by rw [hx]; simpa using he), by simp⟩
          | ok s1 =>
            refine ⟨by simp, fun s' e => ?_⟩
            simp only [Except.ok.injEq] at e; subst e
            exact hset _ _ _ (h2 s1 hx) (by intro q' e; cases e; exact hqd)
      cases hp : unpackVal rec o f s with
      | ok s1 => exact ih s1 (hv.2 s1 hp)
      | error e => exact ⟨fun he => hv.1 (by rw [hp]; simpa using he), by simp⟩
    · exact ih s hc

theorem unpackObj_total {dom : List Nat} (n : Nat) (busy : List Nat) (hn : room dom busy < n) (o : Nat) (ho : o ∈ dom) (s : USt) (hc : Closed s.heap dom) :
    unpackObj n busy o s ≠ .error .recursion ∧ ∀ s', unpackObj n busy o s = .ok s' → Closed s'.heap dom := by
  induction n generalizing busy o s with
  | zero => omega
  | succ n ih =>
    rw [unpackObj]
    split
    · exact ⟨by simp, fun s' e => by rw [Except.ok.injEq] at e; subst e; exact hc⟩
    · next hb =>
      have := room_cons ho hb
      exact unpackFields_total (fun q hq s' hs => ih (o :: busy) (by omega) q hq s' hs) ho _ s hc

/-- C177: packing any finite graph of objects ends, cycles included. -/
theorem C177_pack_ends (h : Heap) (dom : List Nat) (hc : Closed h dom) (deep : Nat) (hd : dom.length < deep) (be : Bool) (o : Nat) (ho : o ∈ dom) :
    pack h deep be o ≠ .error .recursion := by
  have hr : room dom [] < deep := Nat.lt_of_le_of_lt (List.length_filter_le _ _) hd
  have := packFields_total hc (fun q hq p => packObj_total hc deep [] hr q hq p) ho (h o).fields (init be)
  simp only [pack]
  cases hp : packFields h (packObj h deep []) o (h o).fields (init be) with
  | ok p => simp
  | error e => intro he; simp only [Except.error.injEq] at he; rw [hp, he] at this; exact this rfl

/-- C177: so does unpacking. -/
theorem C177_unpack_ends (h : Heap) (dom : List Nat) (hc : Closed h dom) (deep : Nat) (hd : dom.length < deep) (be : Bool) (o : Nat) (ho : o ∈ dom) (bits : Nat) :
    unpack h deep be o bits ≠ .error .recursion := by
  have hr : room dom [] < deep := Nat.lt_of_le_of_lt (List.length_filter_le _ _) hd
  have := (unpackFields_total (fun q hq s hs => unpackObj_total deep [] hr q hq s hs) ho (h o).fields ⟨h, putBits (init be) bits, 0⟩ hc).1
  simp only [unpack]
  cases hp : unpackFields (unpackObj deep []) o (h o).fields ⟨h, putBits (init be) bits, 0⟩ with
  | ok p => simp
  | error e => intro he; simp only [Except.error.injEq] at he; rw [hp, he] at this; exact this rfl

/-- Two objects that refer to each other. -/
def loop : Heap := fun o => ⟨[(0, 1), (1, 1)], fun f => if f = 0 then .int (o + 5) else .obj (1 - o)⟩

example : Closed loop [0, 1] := by
  intro o _ f q hq
  simp only [loop] at hq
  split at hq
  · cases hq
  · cases hq; simp; omega

-- the object on which `pack` is called is packed twice when it is on a cycle: it is not among the objects known to be in progress
example : pack loop 3 false 0 = .ok (96, 5 + 6 * 2 ^ 32 + 5 * 2 ^ 64) := by rfl

/-! ## Lists of integers -/

/-- C178: `pack_ints` gives the integers of the object, in order, whatever the byte order. -/
theorem C178_pack_ints_partial (h : Heap) (d deep o : Nat) (l : List (Nat × Nat)) (be : Bool) (hl : places h (d + 1) o = some l) (hd : d ≤ deep)
    (hv : ∀ v ∈ valuesAt h l, v < 2 ^ 32) : packElems 32 h deep be o = .ok (valuesAt h l, 32 * l.length) := by
  obtain ⟨q, e, hc, hbe, hclean, _, hs⟩ := packAll_stored _ (fits_at hv) (init be) (by intro i _; simp [init])
  simp only [init, Nat.zero_add] at hc hs
  have hw : width (fieldsAt h l) = 32 * l.length := by rw [fieldsAt, width_const]; simp [valuesAt]
  rw [hw] at hc
  simp only [packElems, pack_eq be hl hd, e, lift]
  rw [getElems_eq 32 (by omega)]
  simp only [setPackedSize, hc]
  have hlt : q.bits < 2 ^ (32 * l.length) := by
    rw [← hc]; exact Nat.lt_pow_two_of_testBit _ fun i hi => hclean i hi
  have hd : (32 * l.length + (32 - 1)) / 32 = l.length := by omega
  rw [hd, Nat.mod_eq_of_lt hlt]
  have hq : q.bigEndian = be := by simpa [init] using hbe
  rw [hq]
  congr 2
  have hlen : (valuesAt h l).length = l.length := by simp [valuesAt]
  apply List.ext_getElem
  · simp [hlen]
  · intro i h1 h2
    have hvi := hv _ (List.getElem_mem h2)
    simp only [List.getElem_map, List.getElem_range]
    rw [show slice q.bits (i * 32) 32 = enc be 32 ((valuesAt h l)[i]) from ?_]
    · exact enc_enc be 32 _ hvi
    · apply Nat.eq_of_testBit_eq
      intro j
      rw [slice_testBit]
      by_cases hj : j < 32
      · cases be with
        | false =>
          have := stored_bit (valuesAt h l) hs i h2 j hj
          simp only [Bool.false_eq_true, if_false, Nat.zero_add] at this
          simp only [enc, hj, decide_true, Bool.true_and, Bool.false_eq_true, if_false]
          rw [← this, Nat.mul_comm]
        | true =>
          have := stored_bit (valuesAt h l) hs i h2 (31 - j) (by omega)
          have e2 : 31 - (31 - j) = j := by omega
          simp only [if_true, Nat.zero_add, e2] at this
          simp only [enc, hj, decide_true, Bool.true_and, if_true, rev_testBit]
          rw [Nat.mul_comm, this]
      · have : ¬ j < 32 := hj
        simp only [this, decide_false, Bool.false_and]
        have := enc_lt be 32 ((valuesAt h l)[i]) hvi
        rw [testBit_high this (by omega)]

/-- C178 fails: what `pack_ints` gives cannot be unpacked: `unpack_ints` always raises (there is no `put_ints`). -/
theorem C178_unpack_ints_fails (h : Heap) (be : Bool) (o : Nat) (ints : List Nat) : unpackBytes h be o ints = .error .raised := rfl

example : packElems 32 (nested 7 8 9) 1 true 0 = .ok ([7, 8, 9], 96) :=
  C178_pack_ints_partial (nested 7 8 9) 1 1 0 [(0, 0), (1, 0), (0, 2)] true rfl (by omega) (by decide)

/-! ## Missing bits -/

theorem unpackFieldInt_size {p : State} {v e p'} (h : unpackFieldInt p 32 = some (v, e, p')) : p'.packedSize = p.packedSize := by
  by_cases hb : p.packedSize < p.count + 32
  · rw [unpackFieldInt_short p 32 hb (.inl (by omega)), Option.some.injEq, Prod.mk.injEq, Prod.mk.injEq] at h
    rw [← h.2.2]
  · rw [unpackFieldInt_enough p 32 (.inl (by omega)) (by omega), Option.some.injEq, Prod.mk.injEq, Prod.mk.injEq] at h
    rw [← h.2.2]

theorem unpackFields_size {rec : Nat → USt → Except Err USt} (hr : ∀ q s s', rec q s = .ok s' → s'.packer.packedSize = s.packer.packedSize) (o : Nat)
    (fs : List (Nat × Nat)) {s s' : USt} (h : unpackFields rec o fs s = .ok s') : s'.packer.packedSize = s.packer.packedSize := by
  induction fs generalizing s with
  | nil => simp only [unpackFields, Except.ok.injEq] at h; subst h; rfl
  | cons x fs ih =>
    obtain ⟨f, mask⟩ := x
    simp only [unpackFields] at h
    cases hm : packs mask with
    | false => simp only [hm, Bool.false_eq_true, if_false] at h; exact ih h
    | true =>
      simp only [hm, if_true] at h
      cases hx : unpackVal rec o f s with
      | error e => simp [hx] at h
      | ok s1 =>
        simp only [hx] at h
        rw [ih h]
        clear h
        cases hv : (s.heap o).vals f with
        | int v =>
          simp only [unpackVal, hv] at hx
          cases hu : unpackFieldInt s.packer 32 with
          | none => simp [hu] at hx
          | some u =>
            simp only [hu, Except.ok.injEq] at hx; subst hx
            exact unpackFieldInt_size hu
        | str b =>
          simp only [unpackVal, hv, Except.ok.injEq] at hx; subst hx
          rfl
        | other => simp [unpackVal, hv] at hx
        | obj q =>
          simp only [unpackVal, hv] at hx
          cases hq : rec q s with
          | error e => simp [hq] at hx
          | ok s2 =>
            simp only [hq, Except.ok.injEq] at hx; subst hx
            exact hr q s s2 hq

theorem unpackObj_size (n : Nat) (busy : List Nat) (o : Nat) {s s' : USt} (h : unpackObj n busy o s = .ok s') : s'.packer.packedSize = s.packer.packedSize := by
  induction n generalizing busy o s s' with
  | zero => simp [unpackObj] at h
  | succ n ih =>
    rw [unpackObj] at h
    by_cases hb : o ∈ busy
    · rw [if_pos hb, Except.ok.injEq] at h; subst h; rfl
    · rw [if_neg hb] at h
      exact unpackFields_size (fun q s s' hq => ih (o :: busy) q hq) o _ h

/-- C179 fails: the warning that unpacking was unsuccessful (BDUNPK) is never given, whatever the object and the bits. -/
theorem C179_warning_never_given_fails (h : Heap) (deep : Nat) (be : Bool) (o bits : Nat) (u : Unpacked) (hu : unpack h deep be o bits = .ok u) : u.warned = false := by
  simp only [unpack] at hu
  cases hx : unpackFields (unpackObj deep []) o (h o).fields ⟨h, putBits (init be) bits, 0⟩ with
  | error e => simp [hx] at hu
  | ok s =>
    simp only [hx, Except.ok.injEq] at hu
    subst hu
    have := unpackFields_size (fun q s s' hq => unpackObj_size deep [] q hq) o _ hx
    simp [this]

theorem fill_short (s : USt) (l : List (Nat × Nat)) (hs : s.packer.packedSize < s.packer.count + 32 * l.length) (hi : s.packer.count ≤ s.packer.packedSize) :
    ∃ s', fill s l = some s' ∧ s.errors < s'.errors := by
  have mono : ∀ (l : List (Nat × Nat)) (s : USt), ∃ s', fill s l = some s' ∧ s.errors ≤ s'.errors := by
    intro l
    induction l with
    | nil => exact fun s => ⟨s, rfl, Nat.le_refl _⟩
    | cons x l ih =>
      intro s
      by_cases hb : s.packer.packedSize < s.packer.count + 32
      · obtain ⟨s', h1, h2⟩ := ih ⟨setVal s.heap x.1 x.2 (.int 0), s.packer, s.errors + 1⟩
        refine ⟨s', ?_, Nat.le_trans (Nat.le_succ _) h2⟩
        simp only [fill, unpackFieldInt_short s.packer 32 hb (.inl (by omega)), Option.bind_some, if_true, h1]
      · obtain ⟨s', h1, h2⟩ := ih ⟨setVal s.heap x.1 x.2 (.int (enc s.packer.bigEndian 32 (slice s.packer.bits s.packer.count 32))), { s.packer with count := s.packer.count + 32 }, s.errors⟩
        refine ⟨s', ?_, h2⟩
        simp only [fill, unpackFieldInt_enough s.packer 32 (.inl (by omega)) (by omega), Option.bind_some, Bool.false_eq_true, if_false, Nat.add_zero, h1]
  induction l generalizing s with
  | nil => simp at hs; omega
  | cons x l ih =>
    by_cases hb : s.packer.packedSize < s.packer.count + 32
    · obtain ⟨s', h1, h2⟩ := mono l ⟨setVal s.heap x.1 x.2 (.int 0), s.packer, s.errors + 1⟩
      refine ⟨s', ?_, h2⟩
      simp only [fill, unpackFieldInt_short s.packer 32 hb (.inl (by omega)), Option.bind_some, if_true, h1]
    · obtain ⟨s', h1, h2⟩ := ih ⟨setVal s.heap x.1 x.2 (.int (enc s.packer.bigEndian 32 (slice s.packer.bits s.packer.count 32))), { s.packer with count := s.packer.count + 32 }, s.errors⟩
        (by simp only [List.length_cons] at hs; simp only; omega) (by simp only; omega)
      refine ⟨s', ?_, h2⟩
      simp only [fill, unpackFieldInt_enough s.packer 32 (.inl (by omega)) (by omega), Option.bind_some, Bool.false_eq_true, if_false, Nat.add_zero, h1]

/-- C179: a stream with fewer significant bits than the object needs is always reported as an error. -/
theorem C179_missing_bits_reported_partial (h : Heap) (d deep o : Nat) (l : List (Nat × Nat)) (be : Bool) (hl : places h (d + 1) o = some l) (hd : d ≤ deep) (bits : Nat)
    (hb : bits < 2 ^ (32 * l.length - 1)) (hne : l ≠ []) : ∃ u, unpack h deep be o bits = .ok u ∧ 0 < u.errors := by
  have hlen : 1 ≤ l.length := by cases l with
    | nil => exact absurd rfl hne
    | cons x l => simp
  have hbl : binLen bits ≤ 32 * l.length - 1 := by rw [binLen_le_iff]; exact ⟨by omega, hb⟩
  obtain ⟨s', h1, h2⟩ := fill_short ⟨h, putBits (init be) bits, 0⟩ l (by simp [putBits]; omega) (by simp [putBits])
  rw [places] at hl
  have h3 := (unpackFields_places (h := h) (r := places h d) (rec := unpackObj deep [])
    (fun q l' hq s hs => unpackObj_places hq (by simp) hd s hs) o _ hl ⟨h, putBits (init be) bits, 0⟩ (Shape.refl h)).1
  rw [h1] at h3
  exact ⟨_, by simp only [unpack, h3, lift]; rfl, h2⟩

example : (places (nested 7 8 9) 2 0).map List.length = some 3 ∧ (5 : Nat) < 2 ^ (32 * 3 - 1) := by decide

end Verif.ObjPack
