import Verif.Model.PackSize
import Verif.Props.Packer
/-!
# C310: packing lists with a size
-/
namespace Verif.PackSize
open Verif.Packer

theorem eff_neg (w n : Nat) (size : Int) (h : size < 0) : effSize w n size = (n * w : Nat) := if_pos h

/-- C310, what holds: a size that is negative or that of the whole list packs the whole list, as without a size. -/
theorem C310_whole_partial (w : Nat) (p : State) (value : List Nat) (size : Int)
    (h : size < 0 ∨ size = (value.length * w : Nat)) :
    packSized w p value size = (packElems w p value).map fun q => (q, false) := by
  unfold packSized
  have : effSize w value.length size = (value.length * w : Nat) := by
    unfold effSize; split <;> omega
  rw [this, if_neg (by omega)]

/-- C310, what holds: a size larger than the list is refused with an error, by packing and by unpacking, and nothing changes. -/
theorem C310_too_large_partial (w : Nat) (p : State) (value : List Nat) (size : Int)
    (h : size > (value.length * w : Nat)) :
    packSized w p value size = some (p, true) ∧ unpackSized w p value size = some (.badSize, true, p) := by
  have : effSize w value.length size = size := by unfold effSize; rw [if_neg (by omega)]
  unfold packSized unpackSized
  rw [this, if_pos h, if_pos h]
  exact ⟨rfl, rfl⟩

/-- C310, what holds: unpacking moves the position by exactly the size if that many bits are left; otherwise it reports an
error and changes neither the list nor the packer. -/
theorem C310_unpack_position_partial (w : Nat) (hw : 1 ≤ w) (p : State) (value : List Nat) (size : Nat)
    (h : size ≤ value.length * w) :
    ∃ l, unpackSized w p value size =
      if p.count + size ≤ p.packedSize then some (.list l, false, { p with count := p.count + size })
      else some (.list value, true, p) := by
  have he : effSize w value.length (size : Int) = size := by unfold effSize; rw [if_neg (by omega)]
  have hr : ∃ l, readAll w p value.length = some l := by
    unfold readAll
    rw [mapM_some _ (fun b => enc p.bigEndian w (slice p.bits (b * w) w))]
    · exact ⟨_, rfl⟩
    · intro b _
      simp only [and_mask, enc]
      cases p.bigEndian
      · rfl
      · simp [flip_eq, hw]
        exact ⟨Nat.mod_lt _ (Nat.two_pow_pos w), rfl⟩
  obtain ⟨l, hl⟩ := hr
  refine ⟨l, ?_⟩
  unfold unpackSized
  rw [he, if_neg (by omega), hl, Int.toNat_natCast]
  by_cases hb : p.count + size ≤ p.packedSize
  · rw [if_pos ((enoughBits_iff p size).2 hb), if_pos hb]; rfl
  · rw [if_neg (fun x => hb ((enoughBits_iff p size).1 x)), if_neg hb]

/-- C310, round trip: a list packed into a reset packer with any admissible size and unpacked into a list of the same length
with that size is obtained again. -/
theorem C310_roundtrip_partial (w : Nat) (hw : 1 ≤ w) (be : Bool) (vs value : List Nat) (hl : value.length = vs.length)
    (hv : ∀ v ∈ vs, v < 2 ^ w) (size : Nat) (h : size ≤ vs.length * w) :
    ∃ q r, packSized w (init be) vs size = some (q, false) ∧
      unpackSized w (setPackedSize q) value size = some (.list vs, false, r) ∧ r.count = size := by
  obtain ⟨q, r, h1, h2, h3⟩ := C10_elements_roundtrip w hw be vs hv
  have he : effSize w vs.length (size : Int) = size := by unfold effSize; rw [if_neg (by omega)]
  refine ⟨q, { setPackedSize q with count := (setPackedSize q).count + size }, ?_, ?_, by simp [setPackedSize]⟩
  · unfold packSized; rw [he, if_neg (by omega), h1]; rfl
  · have hread : readAll w (setPackedSize q) vs.length = some vs := by
      have hb := (enoughBits_iff (setPackedSize q) (vs.length * w)).2 (by simp [setPackedSize, h2])
      simp only [unpackElems, hb, if_true] at h3
      unfold readAll
      cases hm : (List.range vs.length).mapM (fun b =>
          let e := ((setPackedSize q).bits >>> (b * w)) &&& (2 ^ w - 1)
          if (setPackedSize q).bigEndian then flip e w else some e) with
      | none => rw [hm] at h3; cases h3
      | some es =>
        rw [hm] at h3
        simp only [bind, Option.bind, pure, Option.some.injEq, Prod.mk.injEq] at h3 ⊢
        exact h3.1
    unfold unpackSized
    rw [hl, he, if_neg (by omega), Int.toNat_natCast, hread,
      if_pos ((enoughBits_iff _ _).2 (by simp [setPackedSize, h2]; exact h))]
    rfl

/-- C310 fails for every smaller size: packing ignores it, the whole list is packed. -/
theorem C310_pack_fails (w : Nat) (hw : 1 ≤ w) (be : Bool) (vs : List Nat) (hv : ∀ v ∈ vs, v < 2 ^ w) (size : Nat)
    (h : size < vs.length * w) :
    ∃ q, packSized w (init be) vs size = some (q, false) ∧ q.count = vs.length * w ∧ q.count ≠ size := by
  obtain ⟨q, _, h1, h2, _⟩ := C10_elements_roundtrip w hw be vs hv
  have he : effSize w vs.length (size : Int) = size := by unfold effSize; rw [if_neg (by omega)]
  refine ⟨q, ?_, h2, by omega⟩
  unfold packSized; rw [he, if_neg (by omega), h1]; rfl

/-- C310 fails for unpacking: elements past the size are overwritten too, with bits that do not belong to the packed ones. -/
theorem C310_unpack_fails : ∃ p : State, p.packedSize = 8 ∧
    unpackSized 8 p [1, 2] (8 : Int) = some (.list [5, 0], false, { p with count := 8 }) :=
  ⟨⟨false, 0, 5, 8⟩, by decide, by decide⟩

example : packSized 8 (init false) [1, 2, 3] (8 : Int) = some (⟨false, 24, 0x030201, 0⟩, false) := by decide
example : unpackSized 8 (setPackedSize ⟨false, 24, 0x030201, 0⟩) [0, 0, 0] (8 : Int) =
  some (.list [1, 2, 3], false, ⟨false, 8, 0x030201, 24⟩) := by decide
example : unpackSized 8 (setPackedSize ⟨false, 24, 0x030201, 0⟩) [0, 0, 0, 0] (25 : Int) =
  some (.list [0, 0, 0, 0], true, ⟨false, 0, 0x030201, 24⟩) := by decide

end Verif.PackSize
