import Verif.Spec.Hdl
import Verif.Lemmas.RegAccessTrack
import Verif.Props.Reg
/-! # Lemmas about HDL paths and accesses through them -/
namespace Verif.Hdl
open Verif.Reg Verif.RegField
open Verif.SvBits (andNot)

theorem locate_names {v : Bool} {o o' : Obj} {p : HdlPath} (h : Names o p o') (hs : Simple v p) : locate v o p = some o' := by
  induction h with
  | here o => rfl
  | @child cs c m m' o p h1 h2 h3 ih =>
    have ih := ih fun x hx => hs x (by simp [hx])
    have hc := hs c (by simp)
    simp only [locate] at ih ⊢
    simp only [List.flatMap_cons, List.foldlM_append]
    cases hi : c.idx with
    | nil =>
      rw [hi] at h2
      cases h2
      simp [splitComp, hi, next, h1, ih]
    | cons i is =>
      have h0 : is = [] := by
        have := hc.1; rw [hi] at this
        cases is with
        | nil => rfl
        | cons _ _ => simp at this
      subst h0
      have hv : v = true := by
        cases v with
        | true => rfl
        | false => have := hc.2 rfl; simp [hi] at this
      rw [hi] at h2
      cases h2 with
      | elem e1 e2 =>
        cases e2
        subst hv
        simp [splitComp, hi, next, h1, e1, ih]

theorem read_signal {d : Dut} {p : HdlPath} {i : Nat} (h : Signal d p i) : hdlRead d p = some (d.val i) := by
  simp [hdlRead, locate_names h.1 h.2]

/-- The device after a deposit. -/
def put (d : Dut) (i v : Nat) : Dut := { d with val := fun j => if j = i then v % 2 ^ d.width i else d.val j }

theorem deposit_signal {d : Dut} {p : HdlPath} {i : Nat} (h : Signal d p i) (v : Nat) : hdlDeposit d p v = some (put d i v) := by
  simp [hdlDeposit, locate_names h.1 h.2, put]

theorem signal_put {d : Dut} {p : HdlPath} {i : Nat} (h : Signal d p i) (j v : Nat) : Signal (put d j v) p i := h

theorem bdWrite_whole {d : Dut} {paths : List (List Slice)} {sigs : List Nat} (h : Whole d paths sigs) (v : Nat) :
    bdWrite paths d v = some (sigs.foldl (fun d i => put d i v) d) := by
  induction paths generalizing d sigs with
  | nil => cases h; rfl
  | cons c cs ih =>
    cases h with
    | cons h1 h2 =>
      obtain ⟨p, rfl, hp⟩ := h1
      rename_i b _
      have ih := ih (d := put d b v) h2
      simp only [bdWrite, List.foldlM_cons, List.foldl_cons] at ih ⊢
      simpa [List.foldlM_nil, writeSlice, deposit_signal hp] using ih

theorem foldl_put (d : Dut) (sigs : List Nat) (v : Nat) :
    (sigs.foldl (fun d i => put d i v) d).verilator = d.verilator ∧ (sigs.foldl (fun d i => put d i v) d).top = d.top ∧
    (sigs.foldl (fun d i => put d i v) d).width = d.width ∧
    ∀ j, (sigs.foldl (fun d i => put d i v) d).val j = if j ∈ sigs then v % 2 ^ d.width j else d.val j := by
  induction sigs generalizing d with
  | nil => simp
  | cons i is ih =>
    obtain ⟨a, b, c, e⟩ := ih (put d i v)
    simp only [List.foldl_cons]
    refine ⟨a, b, c, fun j => ?_⟩
    rw [e]
    by_cases hj : j = i <;> by_cases hm : j ∈ is <;> simp [hj, hm, put]

theorem readRest_whole {n : Nat} {d : Dut} {paths : List (List Slice)} {sigs : List Nat} (h : Whole d paths sigs) (v : Nat) :
    readRest n d v paths = some (decide (∀ j ∈ sigs, d.val j % 2 ^ n = v)) := by
  induction h with
  | nil => simp [readRest]
  | cons h1 h2 ih =>
    obtain ⟨p, rfl, hp⟩ := h1
    simp only [readRest, List.foldlM_cons, List.foldlM_nil, readSlice, read_signal hp, Nat.and_two_pow_sub_one_eq_mod, ih]
    rename_i b _ _
    by_cases hv : d.val b % 2 ^ n = v
    · simp [hv]
    · simp [hv]

theorem bdRead_whole {n : Nat} {d : Dut} {paths : List (List Slice)} {i : Nat} {sigs : List Nat} (h : Whole d paths (i :: sigs)) (old : Nat) :
    bdRead n paths d old = some (decide (∀ j ∈ sigs, d.val j % 2 ^ n = d.val i % 2 ^ n), d.val i % 2 ^ n) := by
  cases h with
  | cons h1 h2 =>
    obtain ⟨p, rfl, hp⟩ := h1
    simp [bdRead, readSlice, read_signal hp, Nat.and_two_pow_sub_one_eq_mod, readRest_whole h2]

/-- The register after a back-door prediction. -/
def after (r : Reg) (v : Nat) (k : PKind) : Reg := { r with fields := r.fields.map fun x => { x with f :=
      { x.f with mirrored := slice v x.lsb x.f.size, desired := slice v x.lsb x.f.size, value := slice v x.lsb x.f.size,
                 written := if k = .write then true else x.f.written } } }

theorem doPredict_other (r : Reg) (v : Nat) (k : PKind) (hk : k ≠ .direct) (rt : Rights) :
    Reg.doPredict r v k .other rt (-1) = some (after r v k, true) := by
  simp only [after, Reg.doPredict, hk, and_false, if_false]
  rw [mapM_eq_map]
  · rfl
  · intro x _
    have hs := RegField.and_mask_lt
    have h1 : maskInt x.f.size (slice v x.lsb x.f.size : Nat) &&& RegField.mask x.f = slice v x.lsb x.f.size := by
      rw [maskInt_of_lt (slice_lt _ _ _)]
      exact RegAccess.and_mask_of_lt (slice_lt _ _ _)
    rw [RegAccess.predictField_all]
    cases k with
    | direct => exact absurd rfl hk
    | write => simp [RegField.doPredict, h1]
    | read => simp [RegField.doPredict, h1]

end Verif.Hdl
