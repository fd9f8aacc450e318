import Verif.Spec.ObjPack
import Verif.Lemmas.Packer
namespace Verif.ObjPack
open Verif.Packer

theorem packs_iff (mask : Nat) : packs mask = true ↔ ¬ (mask &&& 512 ≠ 0) := by simp [packs]

/-! ## places -/

theorem placesOf_mono {h : Heap} {r r' : Nat → Option (List (Nat × Nat))} (hr : ∀ q l, r q = some l → r' q = some l) (o : Nat) (fs : List (Nat × Nat)) {l}
    (hl : placesOf h r o fs = some l) : placesOf h r' o fs = some l := by
  induction fs generalizing l with
  | nil => exact hl
  | cons x fs ih =>
    obtain ⟨f, mask⟩ := x
    simp only [placesOf] at hl ⊢
    split
    · next hm => rw [if_pos hm] at hl; exact ih hl
    · next hm =>
      rw [if_neg hm] at hl
      split
      · next e =>
        simp only [e, Option.map_eq_some_iff] at hl ⊢
        obtain ⟨l', h1, h2⟩ := hl
        exact ⟨l', ih h1, h2⟩
      · next q e =>
        simp only [e, Option.bind_eq_some_iff, Option.map_eq_some_iff] at hl ⊢
        obtain ⟨l1, h1, l2, h2, h3⟩ := hl
        exact ⟨l1, hr q l1 h1, l2, ih h2, h3⟩
      · next e1 e2 =>
        exfalso
        cases hv : (h o).vals f with
        | int n => exact e1 n hv
        | obj q => exact e2 q hv
        | str s => simp [hv] at hl
        | other => simp [hv] at hl

theorem places_succ {h : Heap} {d o : Nat} {l} (hl : places h d o = some l) : places h (d + 1) o = some l := by
  induction d generalizing o l with
  | zero => cases hl
  | succ d ih =>
    rw [places] at hl ⊢
    exact placesOf_mono (fun q l hq => ih hq) o _ hl

theorem places_none_pred {h : Heap} {d o : Nat} (hn : places h (d + 1) o = none) : places h d o = none := by
  cases hp : places h d o with
  | none => rfl
  | some l => rw [places_succ hp] at hn; cases hn

/-! ## packing -/

/-- The fields packed for the places. -/
def fieldsAt (h : Heap) (l : List (Nat × Nat)) : List (Nat × Nat) := (valuesAt h l).map (·, 32)

theorem fieldsAt_append (h : Heap) (l l' : List (Nat × Nat)) : fieldsAt h (l ++ l') = fieldsAt h l ++ fieldsAt h l' := by simp [fieldsAt, valuesAt]

theorem packAll_append (p : State) (a b : List (Nat × Nat)) : packAll p (a ++ b) = (packAll p a).bind (packAll · b) := by
  simp only [packAll, List.foldlM_append]; rfl

theorem packFields_places {h : Heap} {rec : Nat → State → Except Err State} {r : Nat → Option (List (Nat × Nat))}
    (hr : ∀ q l, r q = some l → ∀ p, rec q p = lift (packAll p (fieldsAt h l))) (o : Nat) (fs : List (Nat × Nat)) {l} (hl : placesOf h r o fs = some l) (p : State) :
    packFields h rec o fs p = lift (packAll p (fieldsAt h l)) := by
  induction fs generalizing l p with
  | nil => simp only [placesOf, Option.some.injEq] at hl; subst hl; rfl
  | cons x fs ih =>
    obtain ⟨f, mask⟩ := x
    simp only [placesOf] at hl
    simp only [packFields]
    by_cases hm : mask &&& 512 ≠ 0
    · rw [if_pos hm] at hl
      have : packs mask = false := by cases hp : packs mask with
        | false => rfl
        | true => exact absurd hm ((packs_iff mask).1 hp)
      simp only [this, Bool.false_eq_true, if_false]
      exact ih hl p
    · rw [if_neg hm] at hl
      have : packs mask = true := (packs_iff mask).2 hm
      simp only [this, if_true]
      cases hv : (h o).vals f with
      | str s => simp [hv] at hl
      | other => simp [hv] at hl
      | int v =>
        simp only [hv, Option.map_eq_some_iff] at hl
        obtain ⟨l', h1, rfl⟩ := hl
        have e : fieldsAt h ((o, f) :: l') = (v, 32) :: fieldsAt h l' := by simp [fieldsAt, valuesAt, hv]
        rw [e, packVal]
        simp only [packAll, List.foldlM_cons, Option.bind_eq_bind]
        cases packFieldInt p v 32 with
        | none => rfl
        | some p' => exact ih h1 p'
      | obj q =>
        simp only [hv, Option.bind_eq_some_iff, Option.map_eq_some_iff] at hl
        obtain ⟨l1, h1, l2, h2, rfl⟩ := hl
        rw [fieldsAt_append, packAll_append, packVal, hr q l1 h1 p]
        cases packAll p (fieldsAt h l1) with
        | none => rfl
        | some p' => exact ih h2 p'

theorem packObj_places {h : Heap} {d n o : Nat} {busy : List Nat} {l} (hl : places h d o = some l) (hb : ∀ b ∈ busy, places h d b = none) (hn : d ≤ n) (p : State) :
    packObj h n busy o p = lift (packAll p (fieldsAt h l)) := by
  induction d generalizing n o busy l p with
  | zero => cases hl
  | succ d ih =>
    cases hd : places h d o with
    | some l' =>
      have := places_succ hd
      rw [hl, Option.some.injEq] at this
      subst this
      exact ih hd (fun b hbm => places_none_pred (hb b hbm)) (by omega) p
    | none =>
      cases n with
      | zero => omega
      | succ m =>
        have ho : o ∉ busy := fun hm => by rw [hb o hm] at hl; cases hl
        rw [packObj, if_neg ho]
        rw [places] at hl
        refine packFields_places (fun q l' hq p' => ih hq (fun b hbm => ?_) (by omega) p') o _ hl p
        rcases List.mem_cons.1 hbm with rfl | hbm
        · exact hd
        · exact places_none_pred (hb b hbm)

/-! ## unpacking -/

/-- Two values of one kind: integers, or equal. -/
def Kin : Val → Val → Prop
  | .int _, .int _ => True
  | a, b => a = b

theorem Kin.refl (v : Val) : Kin v v := by cases v <;> simp [Kin]

/-- Heaps that differ only in integers. -/
def Shape (h h' : Heap) : Prop := ∀ o, (h' o).fields = (h o).fields ∧ ∀ f, Kin ((h o).vals f) ((h' o).vals f)

theorem Shape.refl (h : Heap) : Shape h h := fun _ => ⟨rfl, fun _ => Kin.refl _⟩

theorem Kin.trans {a b c : Val} (h1 : Kin a b) (h2 : Kin b c) : Kin a c := by
  cases a <;> cases b <;> cases c <;> simp_all [Kin]

theorem Shape.trans {a b c : Heap} (h1 : Shape a b) (h2 : Shape b c) : Shape a c :=
  fun o => ⟨(h2 o).1.trans (h1 o).1, fun f => ((h1 o).2 f).trans ((h2 o).2 f)⟩

theorem kin_obj {a b : Val} {q : Nat} (h : Kin a b) (ha : a = .obj q) : b = .obj q := by subst ha; cases b <;> simp_all [Kin]
theorem kin_int {a b : Val} {v : Nat} (h : Kin a b) (ha : a = .int v) : ∃ w, b = .int w := by subst ha; cases b <;> simp_all [Kin]

theorem placesOf_shape {h h' : Heap} (hs : Shape h h') {r r' : Nat → Option (List (Nat × Nat))} (hr : ∀ q l, r q = some l → r' q = some l) (o : Nat) (fs : List (Nat × Nat)) {l}
    (hl : placesOf h r o fs = some l) : placesOf h' r' o fs = some l := by
  induction fs generalizing l with
  | nil => exact hl
  | cons x fs ih =>
    obtain ⟨f, mask⟩ := x
    simp only [placesOf] at hl ⊢
    by_cases hm : mask &&& 512 ≠ 0
    · rw [if_pos hm] at hl ⊢; exact ih hl
    · rw [if_neg hm] at hl ⊢
      have hk := (hs o).2 f
      cases hv : (h o).vals f with
      | str s => simp [hv] at hl
      | other => simp [hv] at hl
      | int v =>
        obtain ⟨w, hw⟩ := kin_int hk hv
        simp only [hv, hw, Option.map_eq_some_iff] at hl ⊢
        obtain ⟨l', h1, h2⟩ := hl
        exact ⟨l', ih h1, h2⟩
      | obj q =>
        have hw := kin_obj hk hv
        simp only [hv, hw, Option.bind_eq_some_iff, Option.map_eq_some_iff] at hl ⊢
        obtain ⟨l1, h1, l2, h2, h3⟩ := hl
        exact ⟨l1, hr q l1 h1, l2, ih h2, h3⟩

theorem places_shape {h h' : Heap} (hs : Shape h h') {d o : Nat} {l} (hl : places h d o = some l) : places h' d o = some l := by
  induction d generalizing o l with
  | zero => cases hl
  | succ d ih =>
    rw [places] at hl ⊢
    rw [(hs o).1]
    exact placesOf_shape hs (fun q l hq => ih hq) o _ hl

/-- Reading integers into places, in order. -/
def fill (s : USt) : List (Nat × Nat) → Option USt
  | [] => some s
  | x :: l => (unpackFieldInt s.packer 32).bind fun u =>
    fill ⟨setVal s.heap x.1 x.2 (.int u.1), u.2.2, s.errors + (if u.2.1 then 1 else 0)⟩ l

theorem fill_append (s : USt) (a b : List (Nat × Nat)) : fill s (a ++ b) = (fill s a).bind (fill · b) := by
  induction a generalizing s with
  | nil => rfl
  | cons x a ih =>
    simp only [List.cons_append, fill]
    cases unpackFieldInt s.packer 32 with
    | none => rfl
    | some u => exact ih _

theorem setVal_shape {h : Heap} {o f v w : Nat} (hv : (h o).vals f = .int v) : Shape h (setVal h o f (.int w)) := by
  intro i
  unfold setVal
  by_cases hi : i = o
  · subst hi
    simp only [if_true]
    refine ⟨trivial, fun g => ?_⟩
    by_cases hg : g = f
    · subst hg; simp [hv, Kin]
    · simp [hg, Kin.refl]
  · simp only [hi, if_false]; exact ⟨trivial, fun g => Kin.refl _⟩

theorem setVal_self {h : Heap} {o f : Nat} {v : Val} (hv : (h o).vals f = v) : setVal h o f v = h := by
  funext i
  unfold setVal
  by_cases hi : i = o
  · subst hi
    simp only [if_true]
    have : (fun g => if g = f then v else (h i).vals g) = (h i).vals := by
      funext g
      by_cases hg : g = f
      · subst hg; simp [hv]
      · simp [hg]
    rw [this]
  · simp [hi]

theorem unpackFields_places {rec : Nat → USt → Except Err USt} {r : Nat → Option (List (Nat × Nat))} {h : Heap}
    (hr : ∀ q l, r q = some l → ∀ s, Shape h s.heap → rec q s = lift (fill s l) ∧ ∀ s', fill s l = some s' → Shape h s'.heap) (o : Nat) (fs : List (Nat × Nat)) {l}
    (hl : placesOf h r o fs = some l) (s : USt) (hs : Shape h s.heap) :
    unpackFields rec o fs s = lift (fill s l) ∧ ∀ s', fill s l = some s' → Shape h s'.heap := by
  induction fs generalizing l s with
  | nil =>
    simp only [placesOf, Option.some.injEq] at hl; subst hl
    exact ⟨rfl, fun s' e => by simp only [fill, Option.some.injEq] at e; subst e; exact hs⟩
  | cons x fs ih =>
    obtain ⟨f, mask⟩ := x
    simp only [placesOf] at hl
    simp only [unpackFields]
    by_cases hm : mask &&& 512 ≠ 0
    · rw [if_pos hm] at hl
      have : packs mask = false := by cases hp : packs mask with
        | false => rfl
        | true => exact absurd hm ((packs_iff mask).1 hp)
      simp only [this, Bool.false_eq_true, if_false]
      exact ih hl s hs
    · rw [if_neg hm] at hl
      have : packs mask = true := (packs_iff mask).2 hm
      simp only [this, if_true]
      cases hv : (h o).vals f with
      | str s => simp [hv] at hl
      | other => simp [hv] at hl
      | int v =>
        obtain ⟨w, hw⟩ := kin_int ((hs o).2 f) hv
        simp only [hv, Option.map_eq_some_iff] at hl
        obtain ⟨l', h1, rfl⟩ := hl
        simp only [unpackVal, hw, fill]
        cases hu : unpackFieldInt s.packer 32 with
        | none => exact ⟨rfl, fun s' e => by simp at e⟩
        | some u =>
          obtain ⟨v', e', p'⟩ := u
          simp only [Option.bind_some]
          exact ih h1 _ (hs.trans (setVal_shape hw))
      | obj q =>
        have hw := kin_obj ((hs o).2 f) hv
        simp only [hv, Option.bind_eq_some_iff, Option.map_eq_some_iff] at hl
        obtain ⟨l1, h1, l2, h2, rfl⟩ := hl
        obtain ⟨hq, hq'⟩ := hr q l1 h1 s hs
        rw [fill_append]
        simp only [unpackVal, hw, hq]
        cases hf : fill s l1 with
        | none => exact ⟨rfl, fun s' e => by simp at e⟩
        | some s1 =>
          have hs1 := hq' s1 hf
          simp only [lift, Option.bind_some]
          rw [setVal_self (kin_obj ((hs1 o).2 f) hv)]
          exact ih h2 s1 hs1

theorem unpackObj_places {h : Heap} {d n o : Nat} {busy : List Nat} {l} (hl : places h d o = some l) (hb : ∀ b ∈ busy, places h d b = none) (hn : d ≤ n) (s : USt)
    (hs : Shape h s.heap) : unpackObj n busy o s = lift (fill s l) ∧ ∀ s', fill s l = some s' → Shape h s'.heap := by
  induction d generalizing n o busy l s with
  | zero => cases hl
  | succ d ih =>
    cases hd : places h d o with
    | some l' =>
      have := places_succ hd
      rw [hl, Option.some.injEq] at this
      subst this
      exact ih hd (fun b hbm => places_none_pred (hb b hbm)) (by omega) s hs
    | none =>
      cases n with
      | zero => omega
      | succ m =>
        have ho : o ∉ busy := fun hm => by rw [hb o hm] at hl; cases hl
        rw [unpackObj, if_neg ho, (hs o).1]
        rw [places] at hl
        refine unpackFields_places (fun q l' hq s' hs' => ih hq (fun b hbm => ?_) (by omega) s' hs') o _ hl s hs
        rcases List.mem_cons.1 hbm with rfl | hbm
        · exact hd
        · exact places_none_pred (hb b hbm)

/-- Storing values at places. -/
def store (h : Heap) : List (Nat × Nat) → List Nat → Heap
  | x :: l, v :: vs => store (setVal h x.1 x.2 (.int v)) l vs
  | _, _ => h

theorem fill_eq (s : USt) (l : List (Nat × Nat)) {vs es p} (h : unpackAll s.packer (l.map fun _ => 32) = some (vs, es, p)) :
    fill s l = some ⟨store s.heap l vs, p, s.errors + (es.filter id).length⟩ := by
  induction l generalizing s vs es p with
  | nil => simp only [List.map_nil, unpackAll, Option.some.injEq, Prod.mk.injEq] at h; obtain ⟨rfl, rfl, rfl⟩ := h; rfl
  | cons x l ih =>
    simp only [List.map_cons, unpackAll, Option.bind_eq_bind, Option.bind_eq_some_iff] at h
    obtain ⟨u, hu, v, hv, h⟩ := h
    obtain ⟨v1, e1, p1⟩ := u
    obtain ⟨vs', es', p'⟩ := v
    simp only [pure, Option.some.injEq, Prod.mk.injEq] at h
    obtain ⟨rfl, rfl, rfl⟩ := h
    simp only [fill, hu, Option.bind_some]
    rw [ih _ hv]
    cases e1 <;> simp [store] <;> omega

theorem store_other (h : Heap) (l : List (Nat × Nat)) (vs : List Nat) (o f : Nat) (hn : (o, f) ∉ l) : (store h l vs o).vals f = (h o).vals f := by
  induction l generalizing h vs with
  | nil => cases vs <;> rfl
  | cons x l ih =>
    cases vs with
    | nil => rfl
    | cons v vs =>
      simp only [store]
      rw [ih _ _ (fun hm => hn (by simp [hm]))]
      unfold setVal
      by_cases ho : o = x.1
      · subst ho
        simp only [if_true]
        have : f ≠ x.2 := fun e => hn (by rw [e]; simp)
        simp [this]
      · simp [ho]

theorem store_values (h : Heap) (l : List (Nat × Nat)) (vs : List Nat) (hn : l.Nodup) (hlen : vs.length = l.length) : valuesAt (store h l vs) l = vs := by
  induction l generalizing h vs with
  | nil => cases vs <;> simp_all [valuesAt]
  | cons x l ih =>
    cases vs with
    | nil => simp at hlen
    | cons v vs =>
      rw [List.nodup_cons] at hn
      have h1 := ih (setVal h x.1 x.2 (.int v)) vs hn.2 (by simpa using hlen)
      have h2 := store_other (setVal h x.1 x.2 (.int v)) l vs x.1 x.2 hn.1
      have h3 : ((setVal h x.1 x.2 (.int v)) x.1).vals x.2 = .int v := by simp [setVal]
      simp only [valuesAt] at h1
      simp only [store, valuesAt, List.map_cons, h2, h3, h1]

theorem store_int (h : Heap) (l : List (Nat × Nat)) (vs : List Nat) (hlen : vs.length = l.length) (x : Nat × Nat) (hx : x ∈ l) :
    ∃ v, (store h l vs x.1).vals x.2 = .int v := by
  induction l generalizing h vs with
  | nil => simp at hx
  | cons y l ih =>
    cases vs with
    | nil => simp at hlen
    | cons v vs =>
      simp only [store]
      by_cases hm : x ∈ l
      · exact ih _ vs (by simpa using hlen) hm
      · have : x = y := by simpa [hm] using hx
        subst this
        exact ⟨v, by rw [store_other _ _ _ _ _ hm]; simp [setVal]⟩

theorem store_fields (h : Heap) (l : List (Nat × Nat)) (vs : List Nat) (o : Nat) : (store h l vs o).fields = (h o).fields := by
  induction l generalizing h vs with
  | nil => cases vs <;> rfl
  | cons x l ih =>
    cases vs with
    | nil => rfl
    | cons v vs =>
      simp only [store]
      rw [ih]
      unfold setVal
      by_cases ho : o = x.1 <;> simp [ho]

/-! ## Bits -/

theorem unpackAll_append (p : State) (a b : List Nat) {vs es q} (h : unpackAll p a = some (vs, es, q)) {vs' es' q'} (h' : unpackAll q b = some (vs', es', q')) :
    unpackAll p (a ++ b) = some (vs ++ vs', es ++ es', q') := by
  induction a generalizing p vs es with
  | nil => simp only [unpackAll, Option.some.injEq, Prod.mk.injEq] at h; obtain ⟨rfl, rfl, rfl⟩ := h; exact h'
  | cons x a ih =>
    simp only [unpackAll, Option.bind_eq_bind, Option.bind_eq_some_iff] at h
    obtain ⟨u, hu, v, hv, h⟩ := h
    obtain ⟨vs1, es1, q1⟩ := v
    simp only [pure, Option.some.injEq, Prod.mk.injEq] at h
    obtain ⟨rfl, rfl, rfl⟩ := h
    simp only [List.cons_append, unpackAll, Option.bind_eq_bind, hu, Option.bind_some, ih u.2.2 hv]
    rfl

theorem unpackAll_none (p : State) (m : Nat) (h : p.packedSize < p.count + 32) :
    unpackAll p (List.replicate m 32) = some (List.replicate m 0, List.replicate m true, p) := by
  induction m with
  | zero => rfl
  | succ m ih =>
    rw [List.replicate_succ]
    simp only [unpackAll, Option.bind_eq_bind, unpackFieldInt_short p 32 h (.inl (by omega)), Option.bind_some, ih]
    rfl

theorem stored_append {be : Bool} {b c : Nat} {xs ys : List (Nat × Nat)} (h : Stored be b c (xs ++ ys)) : Stored be b c xs ∧ Stored be b (c + width xs) ys := by
  induction xs generalizing c with
  | nil => exact ⟨trivial, by simpa [width] using h⟩
  | cons x xs ih =>
    obtain ⟨h1, h2⟩ := h
    obtain ⟨h3, h4⟩ := ih h2
    exact ⟨⟨h1, h3⟩, by simpa [width, Nat.add_assoc] using h4⟩

theorem enc_zero (be : Bool) (n : Nat) : enc be n 0 = 0 := by
  cases be
  · rfl
  · simp only [enc, if_true]
    apply Nat.eq_of_testBit_eq
    intro i
    rw [rev_testBit]; simp

theorem stored_zero_bits {be : Bool} {b c m : Nat} (h : Stored be b c (List.replicate m (0, 32))) (i : Nat) (h1 : c ≤ i) (h2 : i < c + 32 * m) : b.testBit i = false := by
  induction m generalizing c with
  | zero => omega
  | succ m ih =>
    rw [List.replicate_succ] at h
    obtain ⟨h3, h4⟩ := h
    by_cases hi : i < c + 32
    · have := congrArg (fun x => x.testBit (i - c)) h3
      simp only [slice_testBit, enc_zero, Nat.zero_testBit] at this
      have e : c + (i - c) = i := by omega
      rw [e] at this
      have h5 : i - c < 32 := by omega
      simpa [h5] using this
    · exact ih h4 (by simp; omega) (by simp; omega)

/-- The top bit of the code of a 32-bit value. -/
theorem enc_top (be : Bool) (v : Nat) (hv : v < 2 ^ 32) : (enc be 32 v).testBit 31 = true ↔ (if be then v % 2 = 1 else 2 ^ 31 ≤ v) := by
  cases be with
  | true =>
    simp only [enc, if_true, rev_testBit]
    simp [Nat.testBit_zero]
  | false =>
    simp only [enc, Bool.false_eq_true, if_false]
    constructor
    · exact fun h => Nat.ge_two_pow_of_testBit h
    · intro h
      rw [Nat.testBit_eq_decide_div_mod_eq]
      have : v / 2 ^ 31 = 1 := by omega
      simp [this]

theorem width_const (l : List Nat) : width (l.map (·, 32)) = 32 * l.length := by
  induction l with
  | nil => rfl
  | cons x l ih => simp only [width, List.map_cons, List.sum_cons, List.length_cons] at ih ⊢; omega

/-- What comes out of the bits of values followed by zeros. -/
theorem unpack_packed (be : Bool) (pre : List Nat) (v m : Nat) (hp : ∀ x ∈ pre, x < 2 ^ 32) (hv : v < 2 ^ 32) (hv0 : v ≠ 0) {q : State}
    (hq : packAll (init be) ((pre ++ v :: List.replicate m 0).map (·, 32)) = some q) :
    ∃ es p', unpackAll (putBits (init be) q.bits) ((pre ++ v :: List.replicate m 0).map fun _ => 32) =
      some (pre ++ (if (if be then v % 2 = 1 else 2 ^ 31 ≤ v) then v else 0) :: List.replicate m 0, es, p') ∧
      p'.count = 32 * pre.length + (if (if be then v % 2 = 1 else 2 ^ 31 ≤ v) then 32 else 0) ∧
      (es.filter id).length = m + (if (if be then v % 2 = 1 else 2 ^ 31 ≤ v) then 0 else 1) := by
  have hf : Fits ((pre ++ v :: List.replicate m 0).map (·, 32)) := by
    intro f hfm
    obtain ⟨x, hx, rfl⟩ := List.mem_map.1 hfm
    refine ⟨by simp, ?_⟩
    rcases List.mem_append.1 hx with hx | hx
    · exact hp x hx
    · rcases List.mem_cons.1 hx with rfl | hx
      · exact hv
      · rw [List.eq_of_mem_replicate hx]; simp
  obtain ⟨q', e, hc, _, hclean, _, hs⟩ := packAll_stored _ hf (init be) (by intro i _; simp [init])
  rw [hq, Option.some.injEq] at e
  subst e
  simp only [init, Nat.zero_add] at hc hs
  rw [width_const] at hc
  simp only [List.length_append, List.length_cons, List.length_replicate] at hc
  rw [List.map_append] at hs
  obtain ⟨hs1, hs2⟩ := stored_append hs
  rw [width_const, Nat.zero_add, List.map_cons] at hs2
  obtain ⟨hs2, hs3⟩ := hs2
  simp only [List.map_replicate] at hs3
  simp only at hs2
  -- the bits above the last value
  have hhigh : ∀ i, 32 * pre.length + 32 ≤ i → q.bits.testBit i = false := by
    intro i hi
    by_cases h2 : i < 32 * pre.length + 32 + 32 * m
    · exact stored_zero_bits hs3 i hi h2
    · exact hclean i (by omega)
  have hlt : q.bits < 2 ^ (32 * pre.length + 32) := by
    apply Nat.lt_pow_two_of_testBit
    exact fun i hi => hhigh i hi
  have hge : 2 ^ (32 * pre.length) ≤ q.bits := by
    apply Nat.le_of_not_lt
    intro hl
    have : enc be 32 v = 0 := by
      rw [← hs2]
      apply Nat.eq_of_testBit_eq
      intro i
      rw [slice_testBit, testBit_high hl (by omega)]
      simp
    have h2 := enc_enc be 32 v hv
    rw [this, enc_zero] at h2
    exact hv0 h2.symm
  have hbl1 : ¬ binLen q.bits ≤ 32 * pre.length := by
    rw [binLen_le_iff]; omega
  have hbl2 : binLen q.bits ≤ 32 * pre.length + 32 := by
    rw [binLen_le_iff]; exact ⟨by omega, hlt⟩
  have htop : q.bits.testBit (32 * pre.length + 31) = true ↔ (if be then v % 2 = 1 else 2 ^ 31 ≤ v) := by
    rw [← enc_top be v hv, ← hs2, slice_testBit]
    simp
  have hbl3 : binLen q.bits = 32 * pre.length + 32 ↔ (if be then v % 2 = 1 else 2 ^ 31 ≤ v) := by
    rw [← htop]
    constructor
    · intro h
      have : ¬ binLen q.bits ≤ 32 * pre.length + 31 := by omega
      rw [binLen_le_iff] at this
      have h2 : ¬ q.bits < 2 ^ (32 * pre.length + 31) := fun h' => this ⟨by omega, h'⟩
      have h3 : q.bits / 2 ^ (32 * pre.length + 31) = 1 := by
        have e : 2 ^ (32 * pre.length + 32) = 2 ^ (32 * pre.length + 31) * 2 := by rw [← Nat.pow_succ]
        rw [e] at hlt
        have hpos : 0 < 2 ^ (32 * pre.length + 31) := Nat.pow_pos (by omega)
        have h4 : q.bits / 2 ^ (32 * pre.length + 31) < 2 := by
          rw [Nat.div_lt_iff_lt_mul hpos, Nat.mul_comm]; exact hlt
        have h5 : 1 ≤ q.bits / 2 ^ (32 * pre.length + 31) := by
          rw [Nat.le_div_iff_mul_le hpos]; omega
        omega
      rw [Nat.testBit_eq_decide_div_mod_eq, h3]; simp
    · intro h
      have := Nat.ge_two_pow_of_testBit h
      have h2 : ¬ binLen q.bits ≤ 32 * pre.length + 31 := by
        rw [binLen_le_iff]; omega
      omega
  -- unpacking
  have hfp : Fits (pre.map (·, 32)) := fun f hf' => hf f (by simp only [List.map_append, List.mem_append]; exact .inl hf')
  have u1 := unpackAll_stored (pre.map (·, 32)) hfp (putBits (init be) q.bits) (by simpa [putBits, init] using hs1) (by
    rw [width_const]; simp [putBits]; omega)
  simp only [List.map_map, width_const] at u1
  have e1 : pre.map ((fun x : Nat × Nat => x.2) ∘ fun x => (x, 32)) = pre.map fun _ => 32 := by apply List.map_congr_left; intros; rfl
  have e2 : pre.map ((fun x : Nat × Nat => x.1) ∘ fun x => (x, 32)) = pre := by
    have : ((fun x : Nat × Nat => x.1) ∘ fun x => (x, 32)) = id := rfl
    rw [this, List.map_id]
  have e3 : pre.map ((fun _ : Nat × Nat => false) ∘ fun x => (x, 32)) = List.replicate pre.length false := by
    apply List.ext_getElem <;> simp
  rw [e1, e2, e3] at u1
  let p1 : State := { putBits (init be) q.bits with count := 32 * pre.length }
  have u1' : unpackAll (putBits (init be) q.bits) (pre.map fun _ => 32) = some (pre, List.replicate pre.length false, p1) := by
    rw [u1]; simp [p1, putBits]
  have hflt : ((List.replicate pre.length false).filter id).length = 0 := by simp
  simp only [List.map_append, List.map_cons, List.map_replicate]
  by_cases ht : (if be then v % 2 = 1 else 2 ^ 31 ≤ v)
  · simp only [ht, if_true]
    have hbl := hbl3.2 ht
    have u2 := unpackFieldInt_enough p1 32 (.inl (by omega)) (by simp [p1, putBits, hbl])
    have u3 := unpackAll_none { p1 with count := p1.count + 32 } m (by simp [p1, putBits, hbl])
    have u4 : unpackAll p1 (32 :: List.replicate m 32) = some (v :: List.replicate m 0, false :: List.replicate m true, { p1 with count := p1.count + 32 }) := by
      simp only [unpackAll, Option.bind_eq_bind, u2, Option.bind_some, u3]
      have : enc p1.bigEndian 32 (slice p1.bits p1.count 32) = v := by
        simp only [p1, putBits, init]; rw [hs2]; exact enc_enc be 32 v hv
      rw [this]; rfl
    refine ⟨_, _, unpackAll_append _ _ _ u1' u4, rfl, ?_⟩
    rw [List.filter_append, List.length_append, hflt]
    simp
  · simp only [ht, if_false]
    have hbl : binLen q.bits < 32 * pre.length + 32 := by
      have : binLen q.bits ≠ 32 * pre.length + 32 := fun h => ht (hbl3.1 h)
      omega
    have u3 := unpackAll_none p1 (m + 1) (by simp [p1, putBits]; omega)
    rw [List.replicate_succ] at u3
    refine ⟨_, _, unpackAll_append _ _ _ u1' (by rw [u3]; rfl), rfl, ?_⟩
    rw [List.filter_append, List.length_append, hflt]
    simp

end Verif.ObjPack
