import Verif.Spec.RegAccess
import Verif.Props.Reg
namespace Verif.RegAccess
open Verif.Reg Verif.RegField Verif.SvBits

theorem callAll_quiet {w : Nat → Who} {fs : List (Item → Item)} (h : ∀ f ∈ fs, ∀ x, f x = x) (s : Item × List Who) :
    (callAll w fs s).1 = s.1 := by
  unfold callAll
  have : ∀ (l : List ((Item → Item) × Nat)) s, (∀ p ∈ l, ∀ x, p.1 x = x) →
      (l.foldl (fun s p => call (w p.2) p.1 s) s).1 = s.1 := by
    intro l
    induction l with
    | nil => intro s _; rfl
    | cons p l ih =>
      intro s hl
      rw [List.foldl_cons, ih _ fun q hq => hl q (by simp [hq])]
      exact hl p (by simp) _
  exact this _ s fun p hp => h p.1 (List.fst_mem_of_mem_zipIdx hp)

theorem callAll_log (w : Nat → Who) (fs : List (Item → Item)) (s : Item × List Who) :
    (callAll w fs s).2 = s.2 ++ (List.range fs.length).map w := by
  unfold callAll
  have : ∀ (l : List ((Item → Item) × Nat)) s,
      (l.foldl (fun s p => call (w p.2) p.1 s) s).2 = s.2 ++ l.map fun p => w p.2 := by
    intro l
    induction l with
    | nil => intro s; simp
    | cons p l ih => intro s; rw [List.foldl_cons, ih]; simp [call]
  rw [this]
  congr 1
  rw [show (fun p : (Item → Item) × Nat => w p.2) = w ∘ Prod.snd from rfl, ← List.map_map,
    List.zipIdx_map_snd, List.range_eq_range']

theorem putBack (value lsb msk : Nat) (hm : ∀ i, i < lsb → msk.testBit i = false) :
    andNot value msk ||| (((value &&& msk) >>> lsb) <<< lsb) = value := by
  apply Nat.eq_of_testBit_eq
  intro i
  rw [Nat.testBit_or, Nat.testBit_shiftLeft, Nat.testBit_shiftRight, Nat.testBit_and, andNot_testBit]
  by_cases h : lsb ≤ i
  · have : lsb + (i - lsb) = i := by omega
    simp only [this, h, decide_true, ge_iff_le]
    cases value.testBit i <;> cases msk.testBit i <;> rfl
  · simp [h, hm i (by omega)]

theorem preWriteField_quiet {h : Hooks} (hq : Quiet h) (s : Item × List Who) (p : RF × Nat) :
    (preWriteField h s p).1 = s.1 := by
  simp only [preWriteField, callAll_quiet (hq.fieldCbs p.2), call, hq.field]
  rw [putBack]
  intro i hi
  rw [Nat.testBit_shiftLeft]; simp; omega

theorem preWrite_quiet {h : Hooks} (hq : Quiet h) (r : Reg) (v : Nat) :
    (preWrite h r v).1 = ⟨v % 2 ^ r.nBits, true⟩ := by
  have hf : ∀ (l : List (RF × Nat)) s, (l.foldl (preWriteField h) s).1 = s.1 := by
    intro l
    induction l with
    | nil => intro s; rfl
    | cons p l ih => intro s; rw [List.foldl_cons, ih, preWriteField_quiet hq]
  simp only [preWrite]
  rw [callAll_quiet]
  · simp only [call, hq.reg, hf]
  · intro f hf
    unfold lastCbs at hf
    split at hf
    · exact hq.regCbs f hf
    · exact hq.fieldCbs _ f hf

theorem postWrite_quiet {h : Hooks} (hq : Quiet h) (r : Reg) (it : Item) : (postWrite h r it).1 = it := by
  have hl : ∀ f ∈ (lastCbs h r.fields.length).2, ∀ x, f x = x := by
    intro f hf
    unfold lastCbs at hf
    split at hf
    · exact hq.regCbs f hf
    · exact hq.fieldCbs _ f hf
  have hf : ∀ (l : List (RF × Nat)) (s : Item × List Who),
      (l.foldl (fun s p => call (.fieldHook p.2) (h.field p.2) (⟨(it.value >>> p.1.lsb) &&& (2 ^ p.1.f.size - 1), s.1.ok⟩, s.2)) s).1.ok = s.1.ok := by
    intro l
    induction l with
    | nil => intro s; rfl
    | cons p l ih => intro s; rw [List.foldl_cons, ih]; simp [call, hq.field]
  unfold postWrite
  simp only [hf]
  simp only [call, hq.reg, callAll_quiet hl]

theorem preRead_quiet {h : Hooks} (hq : Quiet h) (r : Reg) : (preRead h r).1 = ⟨0, true⟩ := by
  have hf : ∀ (l : List (RF × Nat)) (s : Item × List Who),
      (l.foldl (fun s p => callAll (.fieldCb p.2) (h.fieldCbs p.2) (call (.fieldHook p.2) (h.field p.2) s)) s).1 = s.1 := by
    intro l
    induction l with
    | nil => intro s; rfl
    | cons p l ih => intro s; rw [List.foldl_cons, ih, callAll_quiet (hq.fieldCbs p.2)]; simp [call, hq.field]
  simp only [preRead, call, hq.reg]
  exact hf _ _

theorem postRead_quiet {h : Hooks} (hq : Quiet h) (r : Reg) (it : Item) : (postRead h r it).1 = it := by
  have hf : ∀ (l : List (RF × Nat)) (s : Item × List Who),
      (l.foldl (fun s p => call (.fieldHook p.2) (h.field p.2) (callAll (.fieldCb p.2) (h.fieldCbs p.2)
        (⟨(it.value >>> p.1.lsb) &&& (2 ^ p.1.f.size - 1), s.1.ok⟩, s.2))) s).1.ok = s.1.ok := by
    intro l
    induction l with
    | nil => intro s; rfl
    | cons p l ih =>
      intro s; rw [List.foldl_cons, ih]
      simp only [call, hq.field, callAll_quiet (hq.fieldCbs p.2)]
  unfold postRead
  simp only [hf]
  simp only [call, hq.reg, callAll_quiet hq.regCbs]

/-! ### Prediction in closed form -/

theorem predictField_all (v : Nat) (k : PKind) (p : Path) (rt : Rights) (busy : Bool) (x : RF) :
    predictField v k p rt (-1) busy x =
      (RegField.doPredict x.f (slice v x.lsb x.f.size) k p rt true busy).map fun q => { x with f := q.1 } := by
  have : ((-1 : Int) / (2 ^ (x.lsb / 8) : Nat)) % 2 == 1 := by
    have h : (-1 : Int) / (2 ^ (x.lsb / 8) : Nat) = -1 := by
      have hp : 0 < 2 ^ (x.lsb / 8) := Nat.two_pow_pos _
      generalize 2 ^ (x.lsb / 8) = m at hp
      have h1 : (0:Int) < (m : Int) := by omega
      have := Int.neg_one_ediv (m : Int)
      rw [this]
      exact congrArg _ (Int.sign_eq_one_of_pos h1)
    rw [h]; decide
  simp only [predictField, this]

/-- The field after a prediction. -/
def predF (v : Nat) (k : PKind) (rt : Rights) (busy : Bool) (x : RF) : RF :=
  match RegField.doPredict x.f (slice v x.lsb x.f.size) k .front rt true busy with
  | some q => { x with f := q.1 }
  | none => x

theorem doPredict_some (f : Field) (v : Int) (k : PKind) (p : Path) (rt : Rights) (busy : Bool) :
    ∃ q, RegField.doPredict f v k p rt true busy = some q := by
  cases k with
  | write => exact ⟨_, rfl⟩
  | direct => exact ⟨_, rfl⟩
  | read =>
    simp only [RegField.doPredict]
    split
    · simp at *
    · split
      · split <;> exact ⟨_, rfl⟩
      · exact ⟨_, rfl⟩

theorem predict_front {c : Cfg} (hb : ∀ i, c.bare i = false) (r : Reg) (v : Nat) (k : PKind) (hk : k ≠ .direct) (rt : Rights) :
    predict c r v k .front rt = some { r with fields := r.fields.map (predF v k rt r.busy) } := by
  have h1 : (r.fields.zipIdx.any fun q => c.bare q.2 && reachesCbs k .front rt q.1) = false := by
    rw [List.any_eq_false]; intro q _; simp [hb]
  simp only [predict, h1, Reg.doPredict, hk, and_false, if_false]
  rw [mapM_eq_map (predictField v k .front rt (-1) r.busy) (predF v k rt r.busy)]
  · rfl
  · intro x _
    obtain ⟨q, hq⟩ := doPredict_some x.f (slice v x.lsb x.f.size) k .front rt r.busy
    rw [predictField_all, predF, hq]; rfl

end Verif.RegAccess
