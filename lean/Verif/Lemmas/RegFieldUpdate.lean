import Verif.Lemmas.RegField
namespace Verif.RegField

/-- How the desired value relates to the mirrored value after sets only. -/
def SetRel (n : Nat) (e : WEffect) (w : Bool) (m d : Nat) : Prop :=
  match e with
  | .noEffect => d = m
  | .asIs | .oneToggles | .zeroToggles => True
  | .clears => d = m ∨ d = 0
  | .sets => d = m ∨ d = 2 ^ n - 1
  | .oneClears | .zeroClears => ∀ i, d.testBit i = true → m.testBit i = true
  | .oneSets | .zeroSets => ∀ i, m.testBit i = true → d.testBit i = true
  | .firstAsIs => w = true → d = m

theorem setRel_refl (n : Nat) (e : WEffect) (w : Bool) (m : Nat) : SetRel n e w m m := by
  cases e <;> simp [SetRel]

theorem setRel_step {n : Nat} {e : WEffect} {w : Bool} {m d v d' : Nat} (hd : d < 2 ^ n) (hm : m < 2 ^ n)
    (h : SetRel n e w m d) (hr : IsWriteResult n e w d v d') : SetRel n e w m d' := by
  have out : ∀ i, ¬ i < n → d'.testBit i = false := fun i hi => testBit_high hr.1 (by omega)
  have outm : ∀ i, ¬ i < n → m.testBit i = false := fun i hi => testBit_high hm (by omega)
  cases e with
  | noEffect =>
    have : d' = d := isWriteResult_unique hr ⟨hd, fun i hi => rfl⟩
    simp only [SetRel] at h ⊢; rw [this, h]
  | asIs => trivial
  | oneToggles => trivial
  | zeroToggles => trivial
  | clears =>
    right
    exact isWriteResult_unique hr ⟨Nat.two_pow_pos n, fun i hi => by simp [WEffect.bit]⟩
  | sets =>
    right
    have hp := Nat.two_pow_pos n
    exact isWriteResult_unique hr ⟨by omega, fun i hi => by simp [WEffect.bit, Nat.testBit_two_pow_sub_one, hi]⟩
  | oneClears =>
    intro i hi
    by_cases hin : i < n
    · rw [hr.2 i hin] at hi
      simp only [WEffect.bit] at hi
      split at hi
      · simp at hi
      · exact h i hi
    · rw [out i hin] at hi; simp at hi
  | zeroClears =>
    intro i hi
    by_cases hin : i < n
    · rw [hr.2 i hin] at hi
      simp only [WEffect.bit] at hi
      split at hi
      · exact h i hi
      · simp at hi
    · rw [out i hin] at hi; simp at hi
  | oneSets =>
    intro i hi
    by_cases hin : i < n
    · rw [hr.2 i hin]
      simp only [WEffect.bit]
      split
      · rfl
      · exact h i hi
    · rw [outm i hin] at hi; simp at hi
  | zeroSets =>
    intro i hi
    by_cases hin : i < n
    · rw [hr.2 i hin]
      simp only [WEffect.bit]
      split
      · exact h i hi
      · rfl
    · rw [outm i hin] at hi; simp at hi
  | firstAsIs =>
    intro hw
    have : d' = d := isWriteResult_unique hr ⟨hd, fun i hi => by simp [WEffect.bit, hw]⟩
    rw [this, h hw]

/-- The value chosen for an update, bit by bit. -/
theorem xupdate_testBit (f : Field) (hd : f.desired < 2 ^ f.size) (hm : f.mirrored < 2 ^ f.size) (i : Nat) (hi : i < f.size) :
    (xupdate f).testBit i = match (doc f.access).1 with
      | .oneClears | .zeroSets => !f.desired.testBit i
      | .oneToggles => (f.desired.testBit i).xor (f.mirrored.testBit i)
      | .zeroToggles => !((f.desired.testBit i).xor (f.mirrored.testBit i))
      | _ => f.desired.testBit i := by
  have hx : f.desired ^^^ f.mirrored < 2 ^ f.size := Nat.xor_lt_two_pow hd hm
  have a := maskInt_inv f.size f.desired hd i hi
  have b := maskInt_inv f.size (f.desired ^^^ f.mirrored) hx i hi
  have c := maskInt_of_lt hd
  have d := maskInt_of_lt hx
  simp only [xupdate]
  cases f.access <;> simp only [doc] <;> first
    | rw [a]
    | rw [b, Nat.testBit_xor]
    | rw [c]
    | rw [d, Nat.testBit_xor]

theorem xupdate_lt (f : Field) : xupdate f < 2 ^ f.size := maskInt_lt _ _

/-- Writing the update value over the mirrored value gives the desired value, or nothing was changed. -/
theorem update_core (f : Field) (hd : f.desired < 2 ^ f.size) (hm : f.mirrored < 2 ^ f.size)
    (h : SetRel f.size (doc f.access).1 f.written f.mirrored f.desired) :
    f.desired = f.mirrored ∨ core f.size f.written f.mirrored (xupdate f) f.access = f.desired := by
  have hc := policy_core f.size f.access f.written f.mirrored (xupdate f) hm (xupdate_lt f)
  have hu := xupdate_testBit f hd hm
  generalize hx : xupdate f = x at *
  generalize hr : core f.size f.written f.mirrored x f.access = r at *
  generalize he : (doc f.access).1 = e at *
  have key : (∀ i, i < f.size → e.bit f.written (f.mirrored.testBit i) (x.testBit i) = f.desired.testBit i) →
      r = f.desired := fun hk => isWriteResult_unique hc ⟨hd, fun i hi => (hk i hi).symm⟩
  cases e with
  | noEffect => exact .inl h
  | asIs => right; apply key; intro i hi; rw [hu i hi]; rfl
  | clears =>
    rcases h with h | h
    · exact .inl h
    · right; apply key; intro i hi; rw [h]; simp [WEffect.bit]
  | sets =>
    rcases h with h | h
    · exact .inl h
    · right; apply key; intro i hi; rw [h]; simp [WEffect.bit, Nat.testBit_two_pow_sub_one, hi]
  | oneClears =>
    right; apply key; intro i hi; have := h i; rw [hu i hi]; simp only [WEffect.bit]
    cases hdb : f.desired.testBit i <;> simp [hdb] at this ⊢; exact this
  | oneSets =>
    right; apply key; intro i hi; have := h i; rw [hu i hi]; simp only [WEffect.bit]
    cases hdb : f.desired.testBit i <;> simp [hdb] at this ⊢; exact this
  | oneToggles =>
    right; apply key; intro i hi; rw [hu i hi]; simp only [WEffect.bit]
    cases f.desired.testBit i <;> cases f.mirrored.testBit i <;> rfl
  | zeroClears =>
    right; apply key; intro i hi; have := h i; rw [hu i hi]; simp only [WEffect.bit]
    cases hdb : f.desired.testBit i <;> simp [hdb] at this ⊢; exact this
  | zeroSets =>
    right; apply key; intro i hi; have := h i; rw [hu i hi]; simp only [WEffect.bit]
    cases hdb : f.desired.testBit i <;> simp [hdb] at this ⊢; exact this
  | zeroToggles =>
    right; apply key; intro i hi; rw [hu i hi]; simp only [WEffect.bit]
    cases f.desired.testBit i <;> cases f.mirrored.testBit i <;> rfl
  | firstAsIs =>
    cases hw : f.written with
    | true => exact .inl (h hw)
    | false => right; apply key; intro i hi; rw [hu i hi, hw]; rfl

theorem sets_fold (vs : List Int) (f : Field) (hf : Fits f) (m : Nat) (hm : m < 2 ^ f.size)
    (h : SetRel f.size (doc f.access).1 f.written m f.desired) :
    let g := vs.foldl set f
    Fits g ∧ g.size = f.size ∧ g.access = f.access ∧ g.written = f.written ∧ g.mirrored = f.mirrored ∧
      g.volatile = f.volatile ∧ SetRel g.size (doc g.access).1 g.written m g.desired := by
  induction vs generalizing f with
  | nil => exact ⟨hf, rfl, rfl, rfl, rfl, rfl, h⟩
  | cons v vs ih =>
    have h1 := (fits_step hf (.set v)).1
    have h2 : SetRel f.size (doc f.access).1 f.written m (set f v).desired :=
      setRel_step hf.desired hm h (set_desired f v hf.acc hf.desired)
    obtain ⟨a, b, c, d, e, g, k⟩ := ih (set f v) h1 hm h2
    exact ⟨a, b, c, d, e, g, k⟩

end Verif.RegField
