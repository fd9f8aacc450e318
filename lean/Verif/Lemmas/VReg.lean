import Verif.Spec.VReg
import Verif.Props.Reg
/-!
# Virtual fields behave as register fields
-/
namespace Verif.VReg

/-- A register field with the same place. -/
def toRF (x : VF) : Reg.RF := ⟨x.lsb, { RegField.configure [] 1 .RW false 0 true with size := x.size }⟩

def toErr : Report → Reg.AddError
  | .tooManyBits => .tooManyBits
  | .overlapsPrev => .overlapsPrev
  | .overlapsNext => .overlapsNext

theorem insertAt_map (x : VF) : ∀ fs : List VF,
    Reg.insertAt (toRF x) (fs.map toRF) = ((fs.take (place x.lsb fs) ++ x :: fs.drop (place x.lsb fs)).map toRF, place x.lsb fs)
  | [] => rfl
  | y :: ys => by
    simp only [List.map_cons, Reg.insertAt, place]
    by_cases h : x.lsb < y.lsb
    · simp [h, toRF]
    · have : ¬ (toRF x).lsb < (toRF y).lsb := h
      rw [if_neg this, if_neg h, insertAt_map x ys]
      simp

theorem addField_map (n : Nat) (s : Fields) (x : VF) (r : Reg.Reg) (hn : r.nBits = n) (hf : r.fields = s.fields.map toRF) (hu : r.nUsed = s.used) :
    (Reg.addField r (toRF x)).1.nBits = n ∧ (Reg.addField r (toRF x)).1.fields = (addField n s x).1.fields.map toRF ∧
    (Reg.addField r (toRF x)).1.nUsed = (addField n s x).1.used ∧ (Reg.addField r (toRF x)).2 = (addField n s x).2.map toErr := by
  have hs : (toRF x).f.size = x.size := rfl
  have hl : (toRF x).lsb = x.lsb := rfl
  refine ⟨by simp [Reg.addField, hn], by simp only [Reg.addField, hf, insertAt_map, addField], by simp [Reg.addField, hu, hs, addField], ?_⟩
  simp only [Reg.addField, hf, insertAt_map, addField, hn, hu, hs, hl]
  generalize s.fields.take (place x.lsb s.fields) ++ x :: s.fields.drop (place x.lsb s.fields) = fs
  generalize place x.lsb s.fields = k
  have e1 : (if s.used + x.size > n then [Reg.AddError.tooManyBits] else []) = (if s.used + x.size > n then [Report.tooManyBits] else []).map toErr := by
    split <;> rfl
  simp only [List.map_append, List.getElem?_map, List.length_map, e1]
  congr 1
  · congr 1
    split
    · cases fs[k - 1]? with
      | none => rfl
      | some p =>
        have h1 : (toRF p).lsb = p.lsb := rfl
        have h2 : (toRF p).f.size = p.size := rfl
        simp only [Option.map_some, h1, h2]
        split <;> rfl
    · rfl
  · split
    · cases fs[k + 1]? with
      | none => rfl
      | some p =>
        have h1 : (toRF p).lsb = p.lsb := rfl
        simp only [Option.map_some, h1]
        split <;> rfl
    · rfl

theorem build_map (n : Nat) (hn : 1 ≤ n) (xs : List VF) :
    (Reg.build n (xs.map toRF)).1.fields = (build n xs).1.fields.map toRF ∧ (Reg.build n (xs.map toRF)).2 = (build n xs).2.map toErr := by
  have key : ∀ (xs : List VF) (s : Fields × List Report) (t : Reg.Reg × List Reg.AddError), t.1.nBits = n → t.1.fields = s.1.fields.map toRF →
      t.1.nUsed = s.1.used → t.2 = s.2.map toErr →
      ((xs.map toRF).foldl (fun s x => let (r, e) := Reg.addField s.1 x; (r, s.2 ++ e)) t).1.fields =
        (xs.foldl (fun s x => let r := addField n s.1 x; (r.1, s.2 ++ r.2)) s).1.fields.map toRF ∧
      ((xs.map toRF).foldl (fun s x => let (r, e) := Reg.addField s.1 x; (r, s.2 ++ e)) t).2 =
        (xs.foldl (fun s x => let r := addField n s.1 x; (r.1, s.2 ++ r.2)) s).2.map toErr := by
    intro xs
    induction xs with
    | nil => intro s t _ h2 _ h4; exact ⟨h2, h4⟩
    | cons x xs ih =>
      intro s t h1 h2 h3 h4
      obtain ⟨a, b, c, d⟩ := addField_map n s.1 x t.1 h1 h2 h3
      exact ih _ _ a b c (by simp only [h4, d, List.map_append])
  refine key xs _ _ ?_ rfl rfl rfl
  simp only [Reg.new]
  rw [if_neg (by omega)]

end Verif.VReg
