import Verif.Lemmas.Reg
import Verif.Props.RegField
/-! # C16 (registers as unions of fields), register-level C13 and C15, and C58 (mirror checks) -/
namespace Verif.Reg
open Verif.RegField (intBit maskInt Fits)

/-! ## Building a register -/

theorem noOverlap_perm {xs ys : List RF} (h : xs.Perm ys) : NoOverlap xs ↔ NoOverlap ys :=
  h.pairwise_iff fun {_ _} hxy ⟨i, a, b⟩ => hxy ⟨i, b, a⟩

/-- One `add_field`: where the field goes, and exactly when errors are reported. -/
theorem addField_step (r : Reg) (x : RF) (hs : Sorted r.fields) (hsz : ∀ y ∈ r.fields, 1 ≤ y.f.size) (hx : 1 ≤ x.f.size) :
    Sorted (addField r x).1.fields ∧ (addField r x).1.fields.Perm (r.fields ++ [x]) ∧
    (NoOverlap r.fields → ((addField r x).2 = [] ↔ NoOverlap (addField r x).1.fields ∧ r.nUsed + x.f.size ≤ r.nBits)) := by
  obtain ⟨pre, post, e, ef, h1, h2, he⟩ := addField_errors r x hs
  rw [e] at hs hsz
  refine ⟨by rw [ef]; exact sorted_insert hs h1 h2, ?_, ?_⟩
  · rw [ef, e, List.append_assoc]
    exact List.Perm.append_left pre (List.perm_append_singleton x post).symm
  · intro hd
    rw [e] at hd
    rw [he, ef]
    have hs' := List.pairwise_append.1 hs
    have hd' := List.pairwise_append.1 hd
    have hpre : ∀ y ∈ pre, 1 ≤ y.f.size := fun y hy => hsz y (by simp [hy])
    have hpost : ∀ y ∈ post, 1 ≤ y.f.size := fun y hy => hsz y (by simp [hy])
    have split : NoOverlap (pre ++ x :: post) ↔ (∀ y ∈ pre, ¬ Overlap y x) ∧ (∀ y ∈ post, ¬ Overlap x y) := by
      constructor
      · intro h
        have h' := List.pairwise_append.1 h
        exact ⟨fun y hy => h'.2.2 y hy x (by simp), (List.pairwise_cons.1 h'.2.1).1⟩
      · rintro ⟨a, b⟩
        refine List.pairwise_append.2 ⟨hd'.1, List.pairwise_cons.2 ⟨b, hd'.2.1⟩, ?_⟩
        intro y hy z hz
        rcases List.mem_cons.1 hz with rfl | hz
        · exact a y hy
        · exact hd'.2.2 y hy z hz
    have hprev : errPrev pre x = [] ↔ ∀ y ∈ pre, ¬ Overlap y x := by
      constructor
      · intro h y hy ho
        obtain ⟨p, hp, hpo⟩ := neighbours_prev hs'.1 hd'.1 hpre hx h1 y hy ho
        have hm : p ∈ pre := List.mem_of_getLast? hp
        rw [overlap_iff p x (hpre p hm) hx] at hpo
        simp only [errPrev, hp] at h
        rw [if_pos (by omega)] at h
        simp at h
      · intro h
        cases hp : pre.getLast? with
        | none => simp [errPrev, hp]
        | some p =>
          have hm : p ∈ pre := List.mem_of_getLast? hp
          have ho := h p hm
          rw [overlap_iff p x (hpre p hm) hx] at ho
          have := h1 p hm
          simp only [errPrev, errNext, hp]
          rw [if_neg (by omega)]
    have hnext : errNext post x = [] ↔ ∀ y ∈ post, ¬ Overlap x y := by
      constructor
      · intro h y hy ho
        obtain ⟨p, hp, hpo⟩ := neighbours_next hs'.2.1 hpost hx h2 y hy ho
        have hm : p ∈ post := List.mem_of_head? hp
        rw [overlap_iff x p hx (hpost p hm)] at hpo
        simp only [errPrev, errNext, hp] at h
        rw [if_pos (by omega)] at h
        simp at h
      · intro h
        cases hp : post.head? with
        | none => simp [errNext, hp]
        | some p =>
          have hm : p ∈ post := List.mem_of_head? hp
          have ho := h p hm
          rw [overlap_iff x p hx (hpost p hm)] at ho
          have := h2 p hm
          simp only [errPrev, errNext, hp]
          rw [if_neg (by omega)]
    rw [List.append_eq_nil_iff, List.append_eq_nil_iff, hprev, hnext, split]
    constructor
    · rintro ⟨⟨a, b⟩, c⟩
      refine ⟨⟨b, c⟩, ?_⟩
      by_cases hu : r.nUsed + x.f.size > r.nBits
      · rw [if_pos hu] at a; simp at a
      · omega
    · rintro ⟨⟨b, c⟩, a⟩
      exact ⟨⟨if_neg (by omega), b⟩, c⟩

/-- C16. Whatever fields are added in whatever order: the register holds exactly those fields, ordered by bit position,
and no error was reported if and only if no two of them overlap and their sizes fit the register's width. -/
theorem C16_fields_ordered_and_overlaps_reported (n : Nat) (xs : List RF) (hsz : ∀ x ∈ xs, 1 ≤ x.f.size) :
    Sorted (build n xs).1.fields ∧ (build n xs).1.fields.Perm xs ∧
    ((build n xs).2 = [] ↔ NoOverlap xs ∧ (xs.map fun x => x.f.size).sum ≤ max n 1) := by
  have key : ∀ (xs pre : List RF) (s : Reg × List AddError), (∀ x ∈ xs, 1 ≤ x.f.size) → (∀ x ∈ pre, 1 ≤ x.f.size) →
      Sorted s.1.fields → s.1.fields.Perm pre → s.1.nUsed = (pre.map fun x => x.f.size).sum → s.1.nBits = max n 1 →
      (s.2 = [] ↔ NoOverlap pre ∧ s.1.nUsed ≤ max n 1) →
      let t := xs.foldl (fun s x => let (r, e) := addField s.1 x; (r, s.2 ++ e)) s
      Sorted t.1.fields ∧ t.1.fields.Perm (pre ++ xs) ∧
        (t.2 = [] ↔ NoOverlap (pre ++ xs) ∧ ((pre ++ xs).map fun x => x.f.size).sum ≤ max n 1) := by
    intro xs
    induction xs with
    | nil =>
      intro pre s _ _ h1 h2 h3 _ h5
      simp only [List.foldl_nil, List.append_nil]
      rw [h3] at h5
      exact ⟨h1, h2, h5⟩
    | cons x xs ih =>
      intro pre s hxs hpre h1 h2 h3 h4 h5
      have hx := hxs x (by simp)
      have hfs : ∀ y ∈ s.1.fields, 1 ≤ y.f.size := fun y hy => hpre y (h2.mem_iff.1 hy)
      obtain ⟨a, b, c⟩ := addField_step s.1 x h1 hfs hx
      have hperm : (addField s.1 x).1.fields.Perm (pre ++ [x]) := b.trans (List.Perm.append_right [x] h2)
      have hused : (addField s.1 x).1.nUsed = ((pre ++ [x]).map fun x => x.f.size).sum := by
        simp only [addField, h3]; simp
      have hnb : (addField s.1 x).1.nBits = max n 1 := by simp only [addField, h4]
      have hu : (addField s.1 x).1.nUsed = s.1.nUsed + x.f.size := rfl
      have h := ih (pre ++ [x]) ((addField s.1 x).1, s.2 ++ (addField s.1 x).2)
        (fun y hy => hxs y (by simp [hy]))
        (fun y hy => by
          rcases List.mem_append.1 hy with h | h
          · exact hpre y h
          · simp at h; subst h; exact hx)
        a hperm hused hnb ?_
      · simpa using h
      · simp only [List.append_eq_nil_iff]
        rw [h5, ← noOverlap_perm hperm, hu]
        constructor
        · rintro ⟨⟨d, _⟩, e⟩
          have := (c ((noOverlap_perm h2).2 d)).1 e
          rw [h4] at this
          exact this
        · rintro ⟨d, e⟩
          have hd1 : NoOverlap pre := by
            have := (noOverlap_perm hperm).1 d
            exact (List.pairwise_append.1 this).1
          refine ⟨⟨hd1, by omega⟩, ?_⟩
          exact (c ((noOverlap_perm h2).2 hd1)).2 ⟨d, by rw [h4]; exact e⟩
  have := key xs [] (new n, []) hsz (by simp) List.Pairwise.nil (List.Perm.refl _) (by simp [new])
    (by simp only [new]; split <;> omega) (by simp [new, NoOverlap])
  simpa [build] using this

/-- C92 fails for a field placed beyond the register's width: nothing is reported, and the register then
has a value that does not fit its width. -/
theorem C92_field_beyond_width_fails :
    ∃ x : RF, (build 8 [x]).2 = [] ∧ ¬ get (set (build 8 [x]).1 (-1)) < 2 ^ 8 :=
  ⟨⟨100, RegField.configure [] 4 .RW false 0 true⟩, by decide, by decide⟩

/-! ## Values -/

/-- A register a user can have: fields added without error, then any history of operations. -/
def Reachable (r : Reg) : Prop :=
  ∃ n xs ops, (∀ x ∈ xs, RegField.Reachable x.f) ∧ (build n xs).2 = [] ∧ r = steps (build n xs).1 ops

theorem reachable_good {r : Reg} (h : Reachable r) : Good r := by
  obtain ⟨n, xs, ops, hx, he, rfl⟩ := h
  have hf : ∀ x ∈ xs, Fits x.f := fun x h => RegField.reachable_fits (hx x h)
  obtain ⟨_, hp, hb⟩ := C16_fields_ordered_and_overlaps_reported n xs (fun x h => (hf x h).size)
  refine (good_steps ops ⟨(noOverlap_perm hp).2 (hb.1 he).1, ?_⟩).1
  exact fun x h => hf x (hp.mem_iff.1 h)

/-- C16. The register's value is, bit by bit, the value of the field at that position, and 0 where there is none. -/
theorem C16_value_is_union_of_fields (r : Reg) (hr : Reachable r) (i : Nat) :
    (get r).testBit i = assembled r.fields (fun x => x.f.desired) i ∧
    (getMirrored r).testBit i = assembled r.fields (fun x => x.f.mirrored) i := by
  have h := reachable_good hr
  exact ⟨assemble_testBit _ h.disj _ (fun x hx => (h.fits x hx).desired) i,
    assemble_testBit _ h.disj _ (fun x hx => (h.fits x hx).mirrored) i⟩

/-- C16. `set(v)` acts on every bit according to the policy of the field at that position, with bit `i` of `v`. -/
theorem C16_set_bitwise (r : Reg) (hr : Reachable r) (v : Int) (i : Nat) :
    (get (set r v)).testBit i =
      match r.fields.find? (fun x => decide (Covers x i)) with
      | some x => (RegField.doc x.f.access).1.bit x.f.written ((get r).testBit i) (intBit v i)
      | none => false := by
  have h := reachable_good hr
  have h' := (good_step h (.set v)).1
  rw [(C16_value_is_union_of_fields r hr i).1]
  have : (get (set r v)).testBit i = assembled (set r v).fields (fun x => x.f.desired) i :=
    assemble_testBit _ h'.disj _ (fun x hx => (h'.fits x hx).desired) i
  rw [this]
  simp only [assembled, set]
  rw [find_map r.fields (fun x => { x with f := RegField.set x.f (slice v x.lsb x.f.size) }) (fun x _ => ⟨rfl, rfl⟩)]
  cases hf : r.fields.find? (fun x => decide (Covers x i)) with
  | none => rfl
  | some x =>
    have hm := List.mem_of_find?_eq_some hf
    have hc : Covers x i := by simpa using List.find?_some hf
    have hF := h.fits x hm
    have hw := RegField.set_desired x.f (slice v x.lsb x.f.size) hF.acc hF.desired
    simp only [Option.map_some]
    have hi : i - x.lsb < x.f.size := by have := hc.1; have := hc.2; omega
    rw [hw.2 _ hi, RegField.maskInt_of_lt (slice_lt _ _ _), slice_testBit _ _ _ _ hi]
    have : x.lsb + (i - x.lsb) = i := by have := hc.1; omega
    rw [this]

/-- C16 as stated: with plain read/write fields, `get()` after `set(v)` is `v` restricted to the covered bits. -/
theorem C16_get_after_set (r : Reg) (hr : Reachable r) (hp : ∀ x ∈ r.fields, PlainWrite x.f.access) (v : Int) (i : Nat) :
    (get (set r v)).testBit i = ((r.fields.any fun x => decide (Covers x i)) && intBit v i) := by
  rw [C16_set_bitwise r hr v i]
  cases hf : r.fields.find? (fun x => decide (Covers x i)) with
  | none =>
    have : (r.fields.any fun x => decide (Covers x i)) = false := by
      rw [List.any_eq_false]; exact fun x hx => by simpa using List.find?_eq_none.1 hf x hx
    simp [this]
  | some x =>
    have hm := List.mem_of_find?_eq_some hf
    have hc := List.find?_some hf
    have : (r.fields.any fun x => decide (Covers x i)) = true := List.any_eq_true.2 ⟨x, hm, hc⟩
    have hpx := hp x hm
    simp only [PlainWrite] at hpx
    simp [this, hpx, RegField.WEffect.bit]

/-- C92 fails in general: fields that do not overlap and are in sum not wider than the register are accepted without a report wherever they are
placed; if one of them reaches beyond the register, setting the register gives a value that does not fit its width. -/
theorem C92_any_field_beyond_width_fails (n : Nat) (xs : List RF) (hr : ∀ x ∈ xs, RegField.Reachable x.f) (hsz : ∀ x ∈ xs, 1 ≤ x.f.size) (ho : NoOverlap xs)
    (hsum : (xs.map fun x => x.f.size).sum ≤ max n 1) (hp : ∀ x ∈ xs, PlainWrite x.f.access) (x : RF) (hx : x ∈ xs) (h : n < x.lsb + x.f.size) :
    (build n xs).2 = [] ∧ ¬ get (set (build n xs).1 (-1)) < 2 ^ n := by
  obtain ⟨_, hperm, hiff⟩ := C16_fields_ordered_and_overlaps_reported n xs hsz
  have he := hiff.2 ⟨ho, hsum⟩
  refine ⟨he, ?_⟩
  have hreach : Reachable (build n xs).1 := ⟨n, xs, [], hr, he, rfl⟩
  have hbit := C16_get_after_set (build n xs).1 hreach (fun y hy => hp y (hperm.mem_iff.1 hy)) (-1) (x.lsb + x.f.size - 1)
  have h1 := hsz x hx
  have hany : ((build n xs).1.fields.any fun y => decide (Covers y (x.lsb + x.f.size - 1))) = true :=
    List.any_eq_true.2 ⟨x, hperm.mem_iff.2 hx, decide_eq_true (show Covers x (x.lsb + x.f.size - 1) from ⟨by omega, by omega⟩)⟩
  have hone : intBit (-1) (x.lsb + x.f.size - 1) = true := by
    have hpos : (0 : Int) < ((2 ^ (x.lsb + x.f.size - 1) : Nat) : Int) := by exact_mod_cast Nat.two_pow_pos _
    have hd : (-1 : Int) / ((2 ^ (x.lsb + x.f.size - 1) : Nat) : Int) = -1 := by
      rw [Int.ediv_eq_iff_of_pos hpos] <;> omega
    simp only [intBit, hd]; decide
  rw [hany, hone] at hbit
  have := Nat.ge_two_pow_of_testBit hbit
  have h2 : 2 ^ n ≤ 2 ^ (x.lsb + x.f.size - 1) := Nat.pow_le_pow_right (by decide) (by omega)
  omega

/-- C92, the part that holds: fields that cannot fit because they are in sum wider than the register are reported. -/
theorem C92_too_wide_reported_partial (n : Nat) (xs : List RF) (hsz : ∀ x ∈ xs, 1 ≤ x.f.size) (h : max n 1 < (xs.map fun x => x.f.size).sum) :
    (build n xs).2 ≠ [] := by
  intro h0
  have := ((C16_fields_ordered_and_overlaps_reported n xs hsz).2.2.1 h0).2
  omega

example : NoOverlap [⟨6, RegField.configure [] 4 .RW false 0 true⟩] ∧ PlainWrite .RW ∧ 8 < 6 + 4 := by
  refine ⟨by simp [NoOverlap], rfl, by decide⟩

/-- C16. The number of bytes of a register is the least that holds its bits. -/
theorem C16_number_of_bytes (r : Reg) (hr : 1 ≤ r.nBits) : r.nBits ≤ 8 * nBytes r ∧ ∀ k, r.nBits ≤ 8 * k → nBytes r ≤ k := by
  simp only [nBytes]
  exact ⟨by omega, fun k hk => by omega⟩

example : nBytes (new 17) = 3 ∧ nBytes (new 16) = 2 := by decide

/-- C16. Byte enables: a prediction goes through exactly if the byte enable of the lowest byte of every field is set; otherwise the
code raises an exception (`uvm_reg_field.py` calls a method of an integer). -/
theorem C16_byte_enables (r : Reg) (v : Int) (k : RegField.PKind) (p : RegField.Path) (rt : RegField.Rights) (be : Int)
    (hb : ¬ (r.busy = true ∧ k = .direct)) :
    (doPredict r v k p rt be).isSome ↔ ∀ x ∈ r.fields, intBit be (x.lsb / 8) = true := by
  simp only [doPredict, hb, if_false]
  have key : ∀ x : RF, (predictField v k p rt be r.busy x).isSome = intBit be (x.lsb / 8) := by
    intro x
    have hi : intBit be (x.lsb / 8) = ((be / (2 ^ (x.lsb / 8) : Nat)) % 2 == 1) := by
      simp only [intBit]
      try rfl
    rw [hi]
    simp only [predictField, Option.isSome_map]
    cases hq : ((be / (2 ^ (x.lsb / 8) : Nat)) % 2 == 1)
    · simp [RegField.doPredict]
    · simp only [RegField.doPredict]
      cases k <;> simp
      split
      · split <;> rfl
      · rfl
  have hm : ∀ l : List RF, (l.mapM (predictField v k p rt be r.busy)).isSome ↔ ∀ x ∈ l, intBit be (x.lsb / 8) = true := by
    intro l
    induction l with
    | nil => simp
    | cons x l ih =>
      rw [List.mapM_cons]
      have hx := key x
      cases hp : predictField v k p rt be r.busy x with
      | none => rw [hp] at hx; simp at hx; simp [hx]
      | some y =>
        rw [hp] at hx
        simp only [Option.isSome_some] at hx
        simp only [List.mem_cons, forall_eq_or_imp, ← hx, true_and, ← ih]
        cases l.mapM (predictField v k p rt be r.busy) <;> simp
  rw [← hm]
  cases r.fields.mapM (predictField v k p rt be r.busy) <;> simp

/-- C16. A predicted front-door write of `v` changes every mirrored bit according to the policy in force there; the
desired value is then the mirrored one. -/
theorem C16_predicted_write_bitwise (r : Reg) (hr : Reachable r) (v : Int) (rt : RegField.Rights) :
    ∃ r', doPredict r v .write .front rt (-1) = some (r', true) ∧ getMirrored r' = get r' ∧
      ∀ i, (getMirrored r').testBit i =
        match r.fields.find? (fun x => decide (Covers x i)) with
        | some x => (RegField.doc (RegField.getAccess x.f rt)).1.bit x.f.written ((getMirrored r).testBit i) (intBit v i)
        | none => false := by
  have h := reachable_good hr
  have hbe : ∀ n : Nat, ((-1 : Int) / (2 ^ n : Nat)) % 2 == 1 := by
    intro n
    have : (-1 : Int) / ((2 ^ n : Nat) : Int) = -1 := by
      have hp := Nat.two_pow_pos n
      rw [Int.neg_one_ediv, Int.sign_eq_one_of_pos (by exact_mod_cast hp)]
    rw [this]; rfl
  let upd (x : RF) : RF := { x with f := { x.f with
    mirrored := RegField.xpredict x.f x.f.mirrored (slice v x.lsb x.f.size) rt,
    desired := RegField.xpredict x.f x.f.mirrored (slice v x.lsb x.f.size) rt,
    value := RegField.xpredict x.f x.f.mirrored (slice v x.lsb x.f.size) rt, written := true } }
  have hstep : ∀ x ∈ r.fields, predictField v .write .front rt (-1) r.busy x = some (upd x) := by
    intro x hx
    have hF := h.fits x hx
    have hres := RegField.xpredict_result x.f x.f.mirrored (slice v x.lsb x.f.size) rt hF.mirrored (slice_lt _ _ _)
    have e : RegField.xpredict x.f x.f.mirrored (slice v x.lsb x.f.size) rt &&& (2 ^ x.f.size - 1) =
        RegField.xpredict x.f x.f.mirrored (slice v x.lsb x.f.size) rt := by
      rw [Nat.and_two_pow_sub_one_eq_mod, Nat.mod_eq_of_lt hres.1]
    simp only [predictField, hbe, RegField.doPredict, RegField.maskInt_of_lt (slice_lt _ _ _), RegField.mask, upd]
    simp only [if_true, e, Option.map_some]
    simp
  have hm : r.fields.mapM (predictField v .write .front rt (-1) r.busy) = some (r.fields.map upd) :=
    mapM_eq_map _ _ _ hstep
  have hd : doPredict r v .write .front rt (-1) = some ({ r with fields := r.fields.map upd }, true) := by
    simp [doPredict, hm]
  have hg := (good_doPredict h hd).1
  refine ⟨_, hd, ?_, ?_⟩
  · simp [getMirrored, get, List.foldl_map, upd]
  · intro i
    have e1 : (getMirrored { r with fields := r.fields.map upd }).testBit i =
        assembled (r.fields.map upd) (fun x => x.f.mirrored) i :=
      assemble_testBit _ hg.disj _ (fun x hx => (hg.fits x hx).mirrored) i
    rw [e1, (C16_value_is_union_of_fields r hr i).2]
    simp only [assembled]
    rw [find_map r.fields upd (fun x _ => ⟨rfl, rfl⟩)]
    cases hf : r.fields.find? (fun x => decide (Covers x i)) with
    | none => rfl
    | some x =>
      have hmx := List.mem_of_find?_eq_some hf
      have hc : Covers x i := by simpa using List.find?_some hf
      have hF := h.fits x hmx
      have hres := RegField.xpredict_result x.f x.f.mirrored (slice v x.lsb x.f.size) rt hF.mirrored (slice_lt _ _ _)
      simp only [Option.map_some, upd]
      have hi : i - x.lsb < x.f.size := by have := hc.1; have := hc.2; omega
      rw [hres.2 _ hi, slice_testBit _ _ _ _ hi]
      have : x.lsb + (i - x.lsb) = i := by have := hc.1; omega
      rw [this]

/-- C16. A direct prediction of a register that is being accessed is refused and changes nothing. -/
theorem C16_direct_prediction_while_busy (r : Reg) (hb : r.busy = true) (v : Int) (p : RegField.Path) (rt : RegField.Rights) (be : Int) :
    doPredict r v .direct p rt be = some (r, false) := by simp [doPredict, hb]

/-! ## C15 at register level -/

/-- C15. After `reset(kind)`: the register is idle, and every field with a reset of that kind is at it; the others keep
their values. -/
theorem C15_register_reset (r : Reg) (hr : Reachable r) (k : RegField.Kind) (i : Nat) :
    (reset r k).busy = false ∧
    (get (reset r k)).testBit i = assembled r.fields (fun x => (x.f.reset k).getD x.f.desired) i ∧
    (getMirrored (reset r k)).testBit i = assembled r.fields (fun x => (x.f.reset k).getD x.f.mirrored) i := by
  have h := reachable_good hr
  have h' := (good_step h (.reset k)).1
  have hg : ∀ x ∈ r.fields, ({ x with f := RegField.reset x.f k } : RF).lsb = x.lsb ∧
      ({ x with f := RegField.reset x.f k } : RF).f.size = x.f.size :=
    fun x hx => ⟨rfl, (RegField.fits_step (h.fits x hx) (.reset k)).2⟩
  have hc : ∀ f : RegField.Field, (RegField.reset f k).desired = (f.reset k).getD f.desired ∧
      (RegField.reset f k).mirrored = (f.reset k).getD f.mirrored := by
    intro f
    simp only [RegField.reset]
    cases f.reset k with
    | none => exact ⟨rfl, rfl⟩
    | some v => simp only [Option.getD_some]; split <;> exact ⟨rfl, rfl⟩
  refine ⟨rfl, ?_, ?_⟩
  · have : (get (reset r k)).testBit i = assembled (reset r k).fields (fun x => x.f.desired) i :=
      assemble_testBit _ h'.disj _ (fun x hx => (h'.fits x hx).desired) i
    rw [this]
    simp only [assembled, reset]
    rw [find_map r.fields (fun x => { x with f := RegField.reset x.f k }) hg]
    cases r.fields.find? (fun x => decide (Covers x i)) with
    | none => rfl
    | some x => simp [(hc x.f).1]
  · have : (getMirrored (reset r k)).testBit i = assembled (reset r k).fields (fun x => x.f.mirrored) i :=
      assemble_testBit _ h'.disj _ (fun x hx => (h'.fits x hx).mirrored) i
    rw [this]
    simp only [assembled, reset]
    rw [find_map r.fields (fun x => { x with f := RegField.reset x.f k }) hg]
    cases r.fields.find? (fun x => decide (Covers x i)) with
    | none => rfl
    | some x => simp [(hc x.f).2]

/-! ## C58: mirror checks -/

/-- C58. A mirror check passes exactly when the value read and the expected value agree on every bit that does not belong
to a field excluded from comparison. -/
theorem C58_mirror_check_iff (r : Reg) (rt : RegField.Rights) (e a : Nat) :
    doCheck r rt e a = true ↔
      ∀ i, (∀ x ∈ r.fields, Covers x i → x.f.check = true) → a.testBit i = e.testBit i := by
  have hdc : ∀ i, (dcMask r rt).testBit i = r.fields.any fun x => (!x.f.check) && decide (Covers x i) := by
    intro i
    have : dcMask r rt = r.fields.foldl (fun acc x => acc ||| (if x.f.check = false then (2 ^ x.f.size - 1) <<< x.lsb else 0)) 0 := by
      simp only [dcMask, accPrefixIsWO]
      congr 1
      funext dc x
      cases x.f.check <;> simp
    rw [this, foldl_or_testBit, Nat.zero_testBit, Bool.false_or]
    congr 1
    funext x
    cases hx : x.f.check with
    | true => simp
    | false =>
      have hp := Nat.two_pow_pos x.f.size
      simp only [if_true, Bool.not_false, Bool.true_and]
      rw [shift_testBit_covers x _ (by omega)]
      by_cases hc : Covers x i
      · have := hc.1; have := hc.2
        simp [hc, Nat.testBit_two_pow_sub_one]; omega
      · simp [hc]
  have hdc' : ∀ i, (dcMask r rt).testBit i = true ↔ ∃ x ∈ r.fields, Covers x i ∧ x.f.check = false := by
    intro i
    rw [hdc, List.any_eq_true]
    constructor
    · rintro ⟨x, hx, h⟩
      simp at h
      exact ⟨x, hx, h.2, h.1⟩
    · rintro ⟨x, hx, h, h'⟩
      exact ⟨x, hx, by simp [h, h']⟩
  simp only [doCheck, beq_iff_eq]
  constructor
  · intro h i hi
    have hn : (dcMask r rt).testBit i = false := by
      rw [Bool.eq_false_iff]
      intro ht
      obtain ⟨x, hx, hc, hf⟩ := (hdc' i).1 ht
      rw [hi x hx hc] at hf; simp at hf
    have := congrArg (fun n => n.testBit i) h
    simpa [Nat.testBit_or, hn] using this
  · intro h
    apply Nat.eq_of_testBit_eq
    intro i
    rw [Nat.testBit_or, Nat.testBit_or]
    by_cases hd : (dcMask r rt).testBit i = true
    · simp [hd]
    · rw [h i ?_]
      intro x hx hc
      cases hcx : x.f.check with
      | true => rfl
      | false => exact absurd ((hdc' i).2 ⟨x, hx, hc, hcx⟩) hd

/-- C109 fails in general: the policy of a field plays no part in a mirror check.  Values that differ anywhere in a field that is not excluded
by `set_compare`, write-only or not, are a mismatch, whatever the register. -/
theorem C109_policy_ignored_fails (r : Reg) (hr : Reachable r) (rt : RegField.Rights) (e a : Nat) (x : RF) (hx : x ∈ r.fields) (hc : x.f.check = true)
    (i : Nat) (hi : Covers x i) (hd : a.testBit i ≠ e.testBit i) : doCheck r rt e a = false := by
  rw [← Bool.not_eq_true, C58_mirror_check_iff]
  intro h
  refine hd (h i fun y hy hci => ?_)
  have : y = x := covers_unique (reachable_good hr).disj hy hx hci hi
  rw [this, hc]

/-- C109 fails for write-only fields: they are meant to be left out of the comparison, but the test of the policy name
compares one character with "WO", so they are compared as well. -/
theorem C109_write_only_field_compared_fails :
    ∃ r : Reg, Reachable r ∧ (∀ x ∈ r.fields, RegField.getAccess x.f .RW = .WO) ∧ doCheck r .RW 0 1 = false :=
  ⟨(build 8 [⟨0, RegField.configure [] 8 .WO false 0 true⟩]).1,
    ⟨8, _, [], by
      intro x hx
      simp at hx; subst hx
      exact ⟨[], 8, .WO, false, 0, true, [], rfl⟩, by decide, rfl⟩, by
      intro x hx
      have : x = ⟨0, RegField.configure [] 8 .WO false 0 true⟩ := by
        simpa [build, addField, insertAt, new] using hx
      subst this; rfl, by decide⟩

/-! ## C13 at register level -/

/-- The policies under which any write destroys the value (write clears / write sets). -/
def Destructive (a : RegField.Acc) : Prop := (RegField.doc a).1 = .clears ∨ (RegField.doc a).1 = .sets

/-- A `set` of the whole register or of its field number `i`. -/
inductive SetOp where
  | whole (v : Int) | field (i : Nat) (v : Int)

def setOp (r : Reg) : SetOp → Reg
  | .whole v => step r (.set v)
  | .field i v => step r (.fieldOp i (.set v))

theorem reachable_step {r : Reg} (h : Reachable r) (op : Op) : Reachable (step r op) := by
  obtain ⟨n, xs, ops, hx, he, rfl⟩ := h
  exact ⟨n, xs, ops ++ [op], hx, he, by simp [steps, List.foldl_append]⟩

theorem reachable_setOps {r : Reg} (h : Reachable r) (ops : List SetOp) : Reachable (ops.foldl setOp r) := by
  induction ops generalizing r with
  | nil => exact h
  | cons op ops ih =>
    refine ih ?_
    cases op with
    | whole v => exact reachable_step h (.set v)
    | field i v => exact reachable_step h (.fieldOp i (.set v))

/-- Desired and mirrored value related as after sets only, for every field. -/
def Rel (r : Reg) : Prop := ∀ x ∈ r.fields,
  RegField.SetRel x.f.size (RegField.doc x.f.access).1 x.f.written x.f.mirrored x.f.desired

theorem rel_set {x : RF} (hF : Fits x.f) (v : Int)
    (h : RegField.SetRel x.f.size (RegField.doc x.f.access).1 x.f.written x.f.mirrored x.f.desired) :
    RegField.SetRel x.f.size (RegField.doc x.f.access).1 x.f.written x.f.mirrored (RegField.set x.f v).desired :=
  RegField.setRel_step hF.desired hF.mirrored h (RegField.set_desired x.f v hF.acc hF.desired)

theorem modify_mem {α} (P Q : α → Prop) (g : α → α) (hPQ : ∀ x, P x → Q x) (hg : ∀ x, P x → Q (g x)) :
    ∀ (l : List α) (i : Nat), (∀ x ∈ l, P x) → ∀ y ∈ l.modify i g, Q y := by
  intro l
  induction l with
  | nil => intro i h y hy; cases i <;> simp at hy
  | cons a l ih =>
    intro i h y hy
    cases i with
    | zero =>
      simp at hy
      rcases hy with rfl | hy
      · exact hg _ (h _ (by simp))
      · exact hPQ _ (h y (by simp [hy]))
    | succ i =>
      simp only [List.modify_succ_cons, List.mem_cons] at hy
      rcases hy with rfl | hy
      · exact hPQ _ (h _ (by simp))
      · exact ih i (fun x hx => h x (by simp [hx])) y hy

theorem rel_setOp {r : Reg} (hG : Good r) (h : Rel r) (op : SetOp) : Rel (setOp r op) := by
  cases op with
  | whole v =>
    intro y hy
    obtain ⟨x, hx, rfl⟩ := List.mem_map.1 hy
    exact rel_set (hG.fits x hx) _ (h x hx)
  | field i v =>
    refine modify_mem (fun x : RF => Fits x.f ∧ RegField.SetRel x.f.size (RegField.doc x.f.access).1 x.f.written x.f.mirrored x.f.desired)
      _ _ (fun x hx => hx.2) (fun x hx => rel_set hx.1 v hx.2) r.fields i (fun x hx => ⟨hG.fits x hx, h x hx⟩)

theorem rel_setOps {r : Reg} (hr : Reachable r) (h : Rel r) (ops : List SetOp) : Rel (ops.foldl setOp r) := by
  induction ops generalizing r with
  | nil => exact h
  | cons op ops ih =>
    refine ih ?_ (rel_setOp (reachable_good hr) h op)
    exact reachable_setOps hr [op]

theorem access_setOps (P : RegField.Acc → Prop) (ops : List SetOp) (r : Reg) (h : ∀ x ∈ r.fields, P x.f.access) :
    ∀ x ∈ (ops.foldl setOp r).fields, P x.f.access := by
  induction ops generalizing r with
  | nil => exact h
  | cons op ops ih =>
    refine ih _ ?_
    cases op with
    | whole v => intro y hy; obtain ⟨x, hx, rfl⟩ := List.mem_map.1 hy; exact h x hx
    | field i v =>
      exact modify_mem (fun x : RF => P x.f.access) _ (fun x => { x with f := RegField.step x.f (.set v) })
        (fun x hx => hx) (fun x hx => hx) r.fields i h

/-- The value `update` chooses brings the mirror to the desired value. -/
theorem update_mirrors (g : Reg) (hg : Reachable g) (hrel : Rel g)
    (hcl : ∀ x ∈ g.fields, (RegField.doc x.f.access).1 = .clears → x.f.desired = 0)
    (hst : ∀ x ∈ g.fields, (RegField.doc x.f.access).1 = .sets → x.f.desired = 2 ^ x.f.size - 1) :
    ∃ g', doPredict g (updateValue g) .write .front .RW (-1) = some (g', true) ∧ getMirrored g' = get g ∧ get g' = get g := by
  obtain ⟨g', h1, h2, h3⟩ := C16_predicted_write_bitwise g hg (updateValue g) .RW
  have hG := reachable_good hg
  have key : getMirrored g' = get g := by
    apply Nat.eq_of_testBit_eq
    intro i
    rw [h3 i, (C16_value_is_union_of_fields g hg i).1, (C16_value_is_union_of_fields g hg i).2]
    have hu : intBit (updateValue g : Int) i = assembled g.fields (fun x => RegField.xupdate x.f) i := by
      rw [intBit_nat]
      exact assemble_testBit _ hG.disj _ (fun x _ => RegField.xupdate_lt x.f) i
    rw [hu]
    simp only [assembled]
    cases hf : g.fields.find? (fun x => decide (Covers x i)) with
    | none => rfl
    | some x =>
      have hmx := List.mem_of_find?_eq_some hf
      have hc : Covers x i := by simpa using List.find?_some hf
      have hF := hG.fits x hmx
      have hi : i - x.lsb < x.f.size := by have := hc.1; have := hc.2; omega
      have hx := RegField.xupdate_testBit x.f hF.desired hF.mirrored (i - x.lsb) hi
      have hr1 := hrel x hmx
      have hcl := hcl x hmx
      have hst := hst x hmx
      simp only [RegField.getAccess]
      rw [hx]
      generalize (RegField.doc x.f.access).1 = e at hr1 hcl hst ⊢
      cases e with
      | noEffect => simp only [RegField.SetRel] at hr1; simp [RegField.WEffect.bit, hr1]
      | asIs => rfl
      | clears => simp [RegField.WEffect.bit, hcl rfl]
      | sets => simp [RegField.WEffect.bit, hst rfl, Nat.testBit_two_pow_sub_one, hi]
      | oneClears =>
        have := hr1 (i - x.lsb)
        cases hd : x.f.desired.testBit (i - x.lsb) <;> simp [RegField.WEffect.bit, hd] at this ⊢; exact this
      | oneSets =>
        have := hr1 (i - x.lsb)
        cases hd : x.f.desired.testBit (i - x.lsb) <;> simp [RegField.WEffect.bit, hd] at this ⊢; exact this
      | oneToggles =>
        cases x.f.desired.testBit (i - x.lsb) <;> cases x.f.mirrored.testBit (i - x.lsb) <;> rfl
      | zeroClears =>
        have := hr1 (i - x.lsb)
        cases hd : x.f.desired.testBit (i - x.lsb) <;> simp [RegField.WEffect.bit, hd] at this ⊢; exact this
      | zeroSets =>
        have := hr1 (i - x.lsb)
        cases hd : x.f.desired.testBit (i - x.lsb) <;> simp [RegField.WEffect.bit, hd] at this ⊢; exact this
      | zeroToggles =>
        cases x.f.desired.testBit (i - x.lsb) <;> cases x.f.mirrored.testBit (i - x.lsb) <;> rfl
      | firstAsIs =>
        cases hw : x.f.written with
        | true => simp only [RegField.SetRel] at hr1; simp [RegField.WEffect.bit, hr1 hw]
        | false => rfl
  exact ⟨g', h1, key, h2 ▸ key⟩

/-- C13 for registers. From a register in sync, after any history of sets of the register or single fields that ends with a
set of the whole register, the value `update` writes brings the mirror to exactly the desired value. -/
theorem C13_register_update (r : Reg) (hr : Reachable r) (hs : ∀ x ∈ r.fields, x.f.desired = x.f.mirrored)
    (ops : List SetOp) (v : Int) :
    let g := set (ops.foldl setOp r) v
    ∃ g', doPredict g (updateValue g) .write .front .RW (-1) = some (g', true) ∧ getMirrored g' = get g ∧ get g' = get g := by
  intro g
  have h0 : Rel r := fun x hx => by rw [hs x hx]; exact RegField.setRel_refl _ _ _ _
  have hr1 := reachable_setOps hr ops
  have h1 := rel_setOps hr h0 ops
  have hG := reachable_good hr1
  have hd : ∀ x ∈ g.fields, ∃ y ∈ (ops.foldl setOp r).fields, x.f.access = y.f.access ∧ x.f.size = y.f.size ∧
      RegField.IsWriteResult y.f.size (RegField.doc y.f.access).1 y.f.written y.f.desired
        (maskInt y.f.size (slice v y.lsb y.f.size)) x.f.desired := by
    intro x hx
    obtain ⟨y, hy, rfl⟩ := List.mem_map.1 hx
    have hF := hG.fits y hy
    exact ⟨y, hy, rfl, rfl, RegField.set_desired y.f _ hF.acc hF.desired⟩
  refine update_mirrors g (reachable_step hr1 (.set v)) (rel_setOp hG h1 (.whole v)) ?_ ?_
  · intro x hx hc
    obtain ⟨y, hy, ha, hz, hw⟩ := hd x hx
    rw [ha] at hc
    rw [hc] at hw
    exact RegField.isWriteResult_unique hw ⟨Nat.two_pow_pos _, fun i hi => by simp [RegField.WEffect.bit]⟩
  · intro x hx hc
    obtain ⟨y, hy, ha, hz, hw⟩ := hd x hx
    rw [ha] at hc
    rw [hc] at hw
    have hp := Nat.two_pow_pos y.f.size
    rw [hz]
    exact RegField.isWriteResult_unique hw ⟨by omega, fun i hi => by simp [RegField.WEffect.bit, Nat.testBit_two_pow_sub_one, hi]⟩

/-- C13 for registers, sets of single fields included: holds when no field is of a kind that every write clears or sets. -/
theorem C13_register_update_partial (r : Reg) (hr : Reachable r) (hs : ∀ x ∈ r.fields, x.f.desired = x.f.mirrored)
    (hnd : ∀ x ∈ r.fields, ¬ Destructive x.f.access) (ops : List SetOp) :
    let g := ops.foldl setOp r
    ∃ g', doPredict g (updateValue g) .write .front .RW (-1) = some (g', true) ∧ getMirrored g' = get g ∧ get g' = get g := by
  intro g
  have h0 : Rel r := fun x hx => by rw [hs x hx]; exact RegField.setRel_refl _ _ _ _
  have ha := access_setOps (fun a => ¬ Destructive a) ops r hnd
  exact update_mirrors g (reachable_setOps hr ops) (rel_setOps hr h0 ops)
    (fun x hx h => absurd (.inl h) (ha x hx)) (fun x hx h => absurd (.inr h) (ha x hx))

/-- A register with a plain field and a write-clears field holding 5. -/
def wcReg : Reg := steps (build 8 [⟨0, RegField.configure [] 4 .RW false 0 true⟩, ⟨4, RegField.configure [] 4 .WC false 5 true⟩]).1
  [.reset "HARD"]

theorem wcReg_reachable : Reachable wcReg := by
  refine ⟨8, [⟨0, RegField.configure [] 4 .RW false 0 true⟩, ⟨4, RegField.configure [] 4 .WC false 5 true⟩], [.reset "HARD"], ?_, by decide, rfl⟩
  intro x hx
  simp at hx
  rcases hx with rfl | rfl
  · exact ⟨[], 4, .RW, false, 0, true, [], rfl⟩
  · exact ⟨[], 4, .WC, false, 5, true, [], rfl⟩

/-- C13 fails for registers with a write-clears field when another field is set and updated: the update writes the whole
register and destroys the write-clears field. -/
theorem C13_register_update_destroys_fails :
    ∃ (r : Reg) (op : SetOp) (g' : Reg), Reachable r ∧ get r = getMirrored r ∧
      needsUpdate (setOp r op) = true ∧
      doPredict (setOp r op) (updateValue (setOp r op)) .write .front .RW (-1) = some (g', true) ∧
      getMirrored g' ≠ get (setOp r op) := by
  refine ⟨wcReg, .field 0 3, ⟨8, _, 8, false⟩, wcReg_reachable, by decide, by decide, rfl, by decide⟩

-- Non-vacuity: the register above is reachable, in sync, has fields at two positions, and really changes.
example : getMirrored wcReg = 0x50 ∧ get (set wcReg 0x37) = 0x07 ∧ updateValue (set wcReg 0x37) = 0x07 := by decide
example : ∀ x ∈ wcReg.fields, x.f.desired = x.f.mirrored := by
  intro x hx
  have : x ∈ [(⟨0, RegField.reset (RegField.configure [] 4 .RW false 0 true) "HARD"⟩ : RF),
      ⟨4, RegField.reset (RegField.configure [] 4 .WC false 5 true) "HARD"⟩] := hx
  simp at this
  rcases this with rfl | rfl <;> decide
example : (build 8 [⟨0, RegField.configure [] 4 .RW false 0 true⟩, ⟨3, RegField.configure [] 4 .RW false 0 true⟩]).2 = [.overlapsPrev] := by decide
example : doCheck wcReg .RW 0x50 0x50 = true ∧ doCheck wcReg .RW 0x50 0x51 = false := by decide

end Verif.Reg
