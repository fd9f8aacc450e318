import Verif.Model.Mam
/-!
# C53: memory regions
-/
namespace Verif.Mam

/-- Two regions share a location. -/
def Overlap (a b : Region) : Prop := ∃ x, a.first ≤ x ∧ x ≤ a.last ∧ b.first ≤ x ∧ x ≤ b.last

theorem inv_run (ops : List (Int × Int)) : ∀ s : Mam, s.inUse.length ≤ 1 → (∀ r ∈ s.inUse, s.start ≤ r.first ∧ r.last ≤ s.stop) →
    (run s ops).inUse.length ≤ 1 ∧ (run s ops).start = s.start ∧ (run s ops).stop = s.stop ∧
    ∀ r ∈ (run s ops).inUse, s.start ≤ r.first ∧ r.last ≤ s.stop := by
  induction ops with
  | nil => intro s h1 h2; exact ⟨h1, rfl, rfl, h2⟩
  | cons o ops ih =>
    intro s h1 h2
    have key : (reserve s o.1 o.2).1.inUse.length ≤ 1 ∧ (reserve s o.1 o.2).1.start = s.start ∧ (reserve s o.1 o.2).1.stop = s.stop ∧
        ∀ r ∈ (reserve s o.1 o.2).1.inUse, s.start ≤ r.first ∧ r.last ≤ s.stop := by
      simp only [reserve]
      split
      · exact ⟨h1, rfl, rfl, h2⟩
      split
      · exact ⟨h1, rfl, rfl, h2⟩
      split
      · exact ⟨h1, rfl, rfl, h2⟩
      split
      · exact ⟨h1, rfl, rfl, h2⟩
      · next he =>
        rw [he]
        refine ⟨by simp, rfl, rfl, ?_⟩
        intro r hr
        simp only [List.nil_append, List.mem_singleton] at hr
        subst hr
        simp only
        omega
    obtain ⟨k1, k2, k3, k4⟩ := key
    obtain ⟨g1, g2, g3, g4⟩ := ih (reserve s o.1 o.2).1 k1 (by rw [k2, k3]; exact k4)
    rw [k2, k3] at g4
    exact ⟨g1, g2.trans k2, g3.trans k3, g4⟩

/-- C53.  After every history of reservations the regions in use lie within the memory and no two of them share a
location.  Partial: this holds because at most one region is ever reserved (see `C53_second_fails`), and nothing can
be released. -/
theorem C53_regions_partial (size width : Nat) (ops : List (Int × Int)) :
    (∀ r ∈ (run (new size width) ops).inUse, 0 ≤ r.first ∧ r.last ≤ (size : Int) - 1) ∧
    (run (new size width) ops).inUse.Pairwise (fun a b => ¬ Overlap a b) := by
  obtain ⟨h1, _, _, h4⟩ := inv_run ops (new size width) (by simp [new]) (by simp [new])
  refine ⟨h4, ?_⟩
  match hl : (run (new size width) ops).inUse, h1 with
  | [], _ => exact .nil
  | [r], _ => exact List.pairwise_singleton _ _
  | _ :: _ :: _, h => simp at h

/-- C53.  The first reservation of at least one byte gives a region that starts where asked, is just long enough for the
bytes asked for, and is refused if and only if it does not fit in the memory. -/
theorem C53_first (size width : Nat) (hw : 0 < width) (off n : Int) (hn : 0 < n) :
    let fits := 0 ≤ off ∧ (off + (n - 1) / width ≤ (size : Int) - 1)
    (fits → ∃ r, (reserve (new size width) off n).2 = .region r ∧ (reserve (new size width) off n).1.inUse = [r] ∧ r.first = off ∧
      r.len = r.last - r.first + 1 ∧ r.nBytes = r.len * width ∧ n ≤ r.nBytes ∧ r.nBytes < n + width) ∧
    (¬ fits → reserve (new size width) off n = (new size width, .refused)) := by
  intro fits
  have hd : (n - 1).tdiv width = (n - 1) / width := Int.tdiv_eq_ediv_of_nonneg (by omega)
  have hw' : (0 : Int) < width := by omega
  have hne : n ≠ 0 := by omega
  constructor
  · intro hf
    have h1 : ¬ off < 0 := by have := hf.1; omega
    have h2 : ¬ (off + (n - 1) / (width : Int) > (size : Int) - 1) := by have := hf.2; omega
    simp only [reserve, new, hne, if_false, h1, hd, h2, List.nil_append]
    refine ⟨_, rfl, rfl, rfl, rfl, rfl, ?_⟩
    simp only
    have e : off + (n - 1) / (width : Int) - off + 1 = (n - 1) / width + 1 := by omega
    rw [e]
    have hdm := Int.mul_ediv_add_emod (n - 1) width
    have hm1 := Int.emod_nonneg (n - 1) (Int.ne_of_gt hw')
    have hm2 := Int.emod_lt_of_pos (n - 1) hw'
    rw [Int.add_mul, Int.one_mul, Int.mul_comm]
    omega
  · intro hf
    by_cases h1 : off < 0
    · simp [reserve, new, hne, h1]
    · have h2 : off + (n - 1) / (width : Int) > (size : Int) - 1 := by
        have : ¬ (off + (n - 1) / (width : Int) ≤ (size : Int) - 1) := fun h => hf ⟨by omega, h⟩
        omega
      simp only [reserve, new, hne, if_false, h1, hd, h2, if_true]

example : (reserve (new 16 4) 2 9).2 = .region ⟨2, 4, 3, 12⟩ := by decide

/-- C53.  Zero bytes and offsets before the memory are refused in every state. -/
theorem C53_refused (s : Mam) (off n : Int) (h : n = 0 ∨ off < s.start) : reserve s off n = (s, .refused) := by
  rcases h with h | h
  · simp [reserve, h]
  · simp only [reserve, h, if_true]; split <;> rfl

/-- C53 fails for the second reservation: whatever it asks for, it is either refused for its range or raises an
exception, even when the two do not overlap. -/
theorem C53_second_fails (size width : Nat) (ops : List (Int × Int)) (r : Region) (hr : r ∈ (run (new size width) ops).inUse) (off n : Int) :
    (reserve (run (new size width) ops) off n).1 = run (new size width) ops ∧
    ((reserve (run (new size width) ops) off n).2 = .refused ∨ (reserve (run (new size width) ops) off n).2 = .raised) := by
  generalize run (new size width) ops = s at *
  simp only [reserve]
  split
  · exact ⟨rfl, .inl rfl⟩
  split
  · exact ⟨rfl, .inl rfl⟩
  split
  · exact ⟨rfl, .inl rfl⟩
  split
  · exact ⟨rfl, .inr rfl⟩
  · next he => rw [he] at hr; cases hr

example : (reserve (run (new 16 4) [(0, 4)]) 8 4).2 = .raised := by decide

/-- C53 fails for a negative number of bytes: it is accepted. -/
theorem C53_negative_fails : (reserve (new 16 4) 10 (-11)).2 = .region ⟨10, 7, -2, -8⟩ := by decide

end Verif.Mam
