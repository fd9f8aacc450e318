import Verif.Model.RegFile
/-!
# Properties of register files: C317, C318
-/
namespace Verif.RegFile

/-! ## Specification -/

/-- The names of a block and of those above it, from the top. -/
def Blk.path : Blk → List Str
  | .top n => [n]
  | .sub p n => p.path ++ [n]

/-- A register file in a block, perhaps inside other register files of the block: the names of the files, from the outermost. -/
inductive In (b : Blk) : File → List Str → Prop
  | outer (n : Str) : In b (.mk none (some b) n) [n]
  | inner {f : File} {ns : List Str} (p : Option Blk) (n : Str) : In b f ns → In b (.mk (some f) p n) (ns ++ [n])

/-- Texts joined by dots. -/
def dots : List Str → Str
  | [] => []
  | [a] => a
  | a :: l => a ++ '.' :: dots l

theorem dots_snoc (l : List Str) (n : Str) (h : l ≠ []) : dots (l ++ [n]) = dots l ++ ['.'] ++ n := by
  induction l with
  | nil => exact absurd rfl h
  | cons a l ih =>
    cases l with
    | nil => simp [dots]
    | cons b l =>
      have := ih (by simp)
      simp only [List.cons_append] at this ⊢
      simp [dots, this]

theorem Blk.path_ne (b : Blk) : b.path ≠ [] := by cases b <;> simp [Blk.path]

theorem blk_fullName (b : Blk) : b.fullName = dots b.path := by
  induction b with
  | top n => rfl
  | sub p n ih => rw [Blk.fullName, Blk.path, dots_snoc _ _ p.path_ne, ih]

theorem file_fullName {b : Blk} {f : File} {ns : List Str} (h : In b f ns) : f.fullName = dots (b.path ++ ns) ∧ ns ≠ [] := by
  induction h with
  | outer n =>
    refine ⟨?_, by simp⟩
    rw [dots_snoc _ _ b.path_ne]
    simp [File.fullName, blk_fullName]
  | inner p n hf ih =>
    refine ⟨?_, by simp⟩
    rw [← List.append_assoc, dots_snoc _ _ (by simp [b.path_ne]), ← ih.1]
    simp [File.fullName]

/-! ## C317 -/

/-- C317: the full name of a register is the names of the blocks and register files around it and its own, joined by dots. -/
theorem C317_full_name (b : Blk) (n : Str) :
    (Reg.fullName ⟨none, some b, n⟩ = dots (b.path ++ [n])) ∧
    (∀ f ns, In b f ns → Reg.fullName ⟨some f, some b, n⟩ = dots (b.path ++ ns ++ [n])) ∧
    (∀ f ns, In b f ns → f.fullName = dots (b.path ++ ns)) ∧ b.fullName = dots b.path := by
  refine ⟨?_, ?_, fun f ns h => (file_fullName h).1, blk_fullName b⟩
  · rw [dots_snoc _ _ b.path_ne]; simp [Reg.fullName, blk_fullName]
  · intro f ns h
    rw [dots_snoc _ _ (by simp [b.path_ne])]
    simp [Reg.fullName, (file_fullName h).1]

/-- No dot in any of the names. -/
def Plain (l : List Str) : Prop := ∀ a ∈ l, '.' ∉ a

theorem cut {x y : Str} {r s : Str} (hx : '.' ∉ x) (hy : '.' ∉ y) (h : x ++ '.' :: r = y ++ '.' :: s) : x = y ∧ r = s := by
  induction x generalizing y with
  | nil =>
    cases y with
    | nil => simp at h; exact ⟨rfl, h⟩
    | cons c y => simp at h; exact absurd (by rw [h.1]; exact List.mem_cons_self) hy
  | cons c x ih =>
    cases y with
    | nil => simp at h; exact absurd (by rw [h.1]; exact List.mem_cons_self) hx
    | cons d y =>
      simp only [List.cons_append, List.cons.injEq] at h
      have := ih (fun m => hx (List.mem_cons_of_mem _ m)) (fun m => hy (List.mem_cons_of_mem _ m)) h.2
      exact ⟨by rw [h.1, this.1], this.2⟩

theorem dots_inj (l m : List Str) (hl : Plain l) (hm : Plain m) (h1 : l ≠ []) (h2 : m ≠ []) (h : dots l = dots m) : l = m := by
  induction l generalizing m with
  | nil => exact absurd rfl h1
  | cons a l ih =>
    cases m with
    | nil => exact absurd rfl h2
    | cons c m =>
      have ha := hl a (by simp)
      have hc := hm c (by simp)
      cases l with
      | nil =>
        cases m with
        | nil => simp [dots] at h; rw [h]
        | cons d m => simp only [dots] at h; exact absurd (by rw [h]; simp) ha
      | cons b l =>
        cases m with
        | nil => simp only [dots] at h; exact absurd (by rw [← h]; simp) hc
        | cons d m =>
          simp only [dots] at h
          obtain ⟨e1, e2⟩ := cut ha hc h
          rw [e1, ih (d :: m) (fun x hx => hl x (by simp [hx])) (fun x hx => hm x (by simp [hx])) (by simp) (by simp) e2]

/-- C317: if no name contains a dot, registers of different places or names have different full names: the full name tells the whole path. -/
theorem C317_tells_path (b c : Blk) (f g : File) (ns ms : List Str) (n m : Str) (hf : In b f ns) (hg : In c g ms)
    (hp : Plain (b.path ++ ns ++ [n])) (hq : Plain (c.path ++ ms ++ [m]))
    (h : Reg.fullName ⟨some f, some b, n⟩ = Reg.fullName ⟨some g, some c, m⟩) : b.path ++ ns = c.path ++ ms ∧ n = m := by
  rw [(C317_full_name b n).2.1 f ns hf, (C317_full_name c m).2.1 g ms hg] at h
  have := dots_inj _ _ hp hq (by simp) (by simp) h
  have h2 := List.append_inj' this rfl
  exact ⟨h2.1, by simpa using h2.2⟩

example : Reg.fullName ⟨some (.mk (some (.mk none (some (.sub (.top ['t']) ['b'])) ['f'])) none ['g']), some (.sub (.top ['t']) ['b']), ['r']⟩ =
    ['t', '.', 'b', '.', 'f', '.', 'g', '.', 'r'] := by decide
example : In (.top ['t']) (.mk (some (.mk none (some (.top ['t'])) ['f'])) (some (.top ['t'])) ['g']) [['f'], ['g']] := .inner _ _ (.outer _)
example : Plain ((Blk.top ['t']).path ++ [['f'], ['g']] ++ [['r']]) := by
  intro a h; simp [Blk.path] at h; rcases h with rfl | rfl | rfl | rfl <;> decide

/-! ## C318 -/

/-- C318 (part): a register in a block, not in a register file: it has an HDL path of the default kind exactly if one was given, and its full paths are its own
below each of the block's. -/
theorem C318_in_block_partial (b : Blk) (n dflt kind : Str) (own : List (Str × List Str)) (up : Str → List Str) (hd : dflt ≠ []) :
    (∀ kinds, hasHdlPath ⟨none, some b, n⟩ dflt kinds kind = .ok (decide ((if kind = [] then dflt else kind) ∈ kinds)) 0) ∧
    (∀ ps, own.lookup (if kind = [] then dflt else kind) = some ps → ∀ x,
      (∃ l, getFullHdlPath ⟨none, some b, n⟩ dflt own up kind = .ok l 0 ∧
        (x ∈ l ↔ ∃ p ∈ ps, ∃ u ∈ up (if kind = [] then dflt else kind), x = if p = [] then u else u ++ ['.'] ++ p))) ∧
    (own.lookup (if kind = [] then dflt else kind) = none → getFullHdlPath ⟨none, some b, n⟩ dflt own up kind = .ok [] 1) := by
  refine ⟨?_, ?_, ?_⟩
  · intro kinds
    by_cases h : kind = [] <;> simp [hasHdlPath, h]
  · intro ps hps x
    by_cases h : kind = []
    · rw [if_pos h] at hps ⊢
      refine ⟨_, by simp only [getFullHdlPath, if_pos h, hps]; rfl, ?_⟩
      simp only [List.mem_flatMap, List.mem_map]
      constructor
      · rintro ⟨p, hp, u, hu, rfl⟩; exact ⟨p, hp, u, hu, rfl⟩
      · rintro ⟨p, hp, u, hu, rfl⟩; exact ⟨p, hp, u, hu, rfl⟩
    · rw [if_neg h] at hps ⊢
      refine ⟨_, by simp only [getFullHdlPath, if_neg h, hps]; rfl, ?_⟩
      simp only [List.mem_flatMap, List.mem_map]
      constructor
      · rintro ⟨p, hp, u, hu, rfl⟩; exact ⟨p, hp, u, hu, rfl⟩
      · rintro ⟨p, hp, u, hu, rfl⟩; exact ⟨p, hp, u, hu, rfl⟩
  · intro hn
    by_cases h : kind = []
    · rw [if_pos h] at hn; simp only [getFullHdlPath, if_pos h, hn]
    · rw [if_neg h] at hn; simp only [getFullHdlPath, if_neg h, hn]

example : getFullHdlPath ⟨none, some (.top ['t']), ['r']⟩ ['R'] [(['R'], [['q']])] (fun _ => [['d']]) [] = .ok [['d', '.', 'q']] 0 := by decide

/-- C318 fails in the code for every register in a register file: asking for a path of the default kind raises AttributeError, and so does asking for the full
paths of any kind for which the register has one. -/
theorem C318_in_file_fails (f : File) (p : Option Blk) (n dflt kind : Str) (own : List (Str × List Str)) (up : Str → List Str) :
    (∀ kinds, hasHdlPath ⟨some f, p, n⟩ dflt kinds [] = .attributeError) ∧ getFullHdlPath ⟨some f, p, n⟩ dflt own up [] = .attributeError ∧
    (∀ ps, own.lookup kind = some ps → getFullHdlPath ⟨some f, p, n⟩ dflt own up kind = .attributeError) := by
  refine ⟨fun _ => rfl, rfl, ?_⟩
  intro ps h
  by_cases hk : kind = []
  · subst hk; rfl
  · simp only [getFullHdlPath, if_neg hk, h]

end Verif.RegFile
