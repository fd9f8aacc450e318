import Verif.Spec.MapSel
namespace Verif.MapSel

theorem loopUp_iff (m : Nat) (l : RMap) : loopUp m l = true ↔ ∃ a ∈ above l, a.name = m := by
  induction l with
  | root n => simp [loopUp, above]
  | sub n p ih =>
    simp only [loopUp, above, List.mem_cons, exists_eq_or_imp]
    by_cases h : p.name = m
    · simp [h]
    · rw [if_neg h, ih]; simp [h]

/-- The map itself is one of the element's. -/
theorem any_iff (maps : List RMap) (m : RMap) : maps.any (fun l => l.name == m.name) = true ↔ ∃ l ∈ maps, l.name = m.name := by
  simp

/-- C157. An access through a given map is served by a map of the element that the given map reaches: the given map itself if the
element is in it, otherwise the first of the element's maps that lies below it; there is none exactly when the element is not in the
given map, at any depth; and then (only then) a warning is given. -/
theorem C157_local_map (dflt : RMap → Option RMap) (maps : List RMap) (m : RMap) (hn : Named maps m) :
    (∀ l, (localReg dflt maps (some m)).1 = some l → l ∈ maps ∧ Reaches m.name l ∧ (m ∈ maps → l = m) ∧
      (m ∉ maps → ∃ xs ys, maps = xs ++ l :: ys ∧ ∀ x ∈ xs, ¬ Reaches m.name x)) ∧
    ((localReg dflt maps (some m)).1 = none ↔ ∀ l ∈ maps, ¬ Reaches m.name l) ∧
    ((localReg dflt maps (some m)).1 = none → (localReg dflt maps (some m)).2 = 1) ∧
    ((localReg dflt maps (some m)).1 ≠ none → (localReg dflt maps (some m)).2 = 0) := by
  have hin : (∃ l ∈ maps, l.name = m.name) ↔ m ∈ maps :=
    ⟨fun ⟨l, hl, e⟩ => hn l hl e ▸ hl, fun h => ⟨m, h, rfl⟩⟩
  simp only [localReg, localOf]
  by_cases ha : maps.any (fun l => l.name == m.name) = true
  · rw [if_pos ha]
    have hm := hin.1 ((any_iff maps m).1 ha)
    refine ⟨?_, ?_, by simp⟩
    · intro l hl
      simp only [Option.some.injEq] at hl
      subst hl
      exact ⟨hm, .inl rfl, fun _ => rfl, fun h => absurd hm h⟩
    · constructor
      · intro h; simp at h
      · intro h; exact absurd (.inl rfl) (h m hm)
  · rw [if_neg ha]
    have hm : m ∉ maps := fun h => ha ((any_iff maps m).2 (hin.2 h))
    have hno : ∀ l ∈ maps, l.name ≠ m.name := fun l hl e => hm (hn l hl e ▸ hl)
    cases hf : maps.find? (loopUp m.name) with
    | none =>
      refine ⟨by intro l hl; simp at hl, ?_, by simp⟩
      simp only [true_iff]
      intro l hl hr
      rw [List.find?_eq_none] at hf
      rcases hr with hr | hr
      · exact hno l hl hr
      · exact hf l hl ((loopUp_iff _ _).2 hr)
    | some x =>
      obtain ⟨hx, xs, ys, e, hxs⟩ := List.find?_eq_some_iff_append.1 hf
      have hxm : x ∈ maps := by rw [e]; simp
      refine ⟨?_, ?_, by simp⟩
      · intro l hl
        simp only [Option.some.injEq] at hl
        subst hl
        refine ⟨hxm, .inr ((loopUp_iff _ _).1 hx), fun h => absurd h hm, fun _ => ⟨xs, ys, e, ?_⟩⟩
        intro y hy hr
        rcases hr with hr | hr
        · exact hno y (by rw [e]; simp [hy]) hr
        · have := hxs y hy
          rw [(loopUp_iff _ _).2 hr] at this
          simp at this
      · constructor
        · intro h; simp at h
        · intro h; exact absurd (.inr ((loopUp_iff _ _).1 hx)) (h x hxm)

/-- C157. `is_in_map` says whether some map of the element is reached by the given one. -/
theorem C157_is_in_map (maps : List RMap) (m : RMap) :
    isInMap maps m = true ↔ ∃ l ∈ maps, Reaches m.name l := by
  unfold isInMap
  split
  · next h => simp only [true_iff]; obtain ⟨l, hl, e⟩ := (any_iff maps m).1 h; exact ⟨l, hl, .inl e⟩
  · next h =>
    simp only [List.any_eq_true]
    constructor
    · rintro ⟨l, hl, e⟩; exact ⟨l, hl, .inr ((loopUp_iff _ _).1 e)⟩
    · rintro ⟨l, hl, hr | hr⟩
      · exact absurd ((any_iff maps m).2 ⟨l, hl, hr⟩) h
      · exact ⟨l, hl, (loopUp_iff _ _).2 hr⟩

/-- A default map of the block of one of the maps `ls` that reaches the element. -/
def Serves (dflt : RMap → Option RMap) (maps : List RMap) (l d : RMap) : Prop :=
  dflt l = some d ∧ ∃ x ∈ maps, Reaches d.name x

theorem localOf_some {maps : List RMap} {d : RMap} (hn : Named maps d) :
    (∃ x ∈ maps, Reaches d.name x) → ∃ y, localOf maps d = some y ∧ y ∈ maps ∧ Reaches d.name y := by
  intro h
  obtain ⟨h1, h2, -⟩ := C157_local_map (fun _ => none) maps d hn
  cases hl : localOf maps d with
  | none =>
    have : (localReg (fun _ => none) maps (some d)).1 = none := by simp [localReg, hl]
    obtain ⟨x, hx, hr⟩ := h
    exact absurd hr (h2.1 this x hx)
  | some y =>
    have : (localReg (fun _ => none) maps (some d)).1 = some y := by simp [localReg, hl]
    exact ⟨y, rfl, (h1 y this).1, (h1 y this).2.1⟩

theorem localOf_none {maps : List RMap} {d : RMap} (hn : Named maps d) :
    (¬ ∃ x ∈ maps, Reaches d.name x) → localOf maps d = none := by
  intro h
  obtain ⟨h1, h2, -⟩ := C157_local_map (fun _ => none) maps d hn
  cases hl : localOf maps d with
  | none => rfl
  | some y =>
    have : (localReg (fun _ => none) maps (some d)).1 = some y := by simp [localReg, hl]
    exact absurd ⟨y, (h1 y this).1, (h1 y this).2.1⟩ h

theorem defaultLoop_spec (dflt : RMap → Option RMap) (maps : List RMap) (hne : maps ≠ [])
    (ls : List RMap) (hn : ∀ l ∈ ls, ∀ d, dflt l = some d → Named maps d) :
    ∃ x, (defaultLoop dflt maps ls).1 = some x ∧ x ∈ maps ∧
      ((∃ as l bs d, ls = as ++ l :: bs ∧ (∀ a ∈ as, ∀ d, ¬ Serves dflt maps a d) ∧ Serves dflt maps l d ∧
          localOf maps d = some x ∧ Reaches d.name x) ∨
       ((∀ l ∈ ls, ∀ d, ¬ Serves dflt maps l d) ∧ maps.head? = some x)) := by
  induction ls with
  | nil =>
    cases hm : maps with
    | nil => exact absurd hm hne
    | cons m ms => exact ⟨m, rfl, by simp, .inr ⟨by simp, rfl⟩⟩
  | cons l ls ih =>
    obtain ⟨x, h1, h2, h3⟩ := ih fun a ha => hn a (List.mem_cons_of_mem _ ha)
    have skip : (∀ d, ¬ Serves dflt maps l d) → (defaultLoop dflt maps (l :: ls)).1 = some x →
        ∃ x, (defaultLoop dflt maps (l :: ls)).1 = some x ∧ x ∈ maps ∧
        ((∃ as b bs d, l :: ls = as ++ b :: bs ∧ (∀ a ∈ as, ∀ d, ¬ Serves dflt maps a d) ∧ Serves dflt maps b d ∧
          localOf maps d = some x ∧ Reaches d.name x) ∨
        ((∀ b ∈ l :: ls, ∀ d, ¬ Serves dflt maps b d) ∧ maps.head? = some x)) := by
      intro hs hx
      refine ⟨x, hx, h2, ?_⟩
      rcases h3 with ⟨as, b, bs, d, e, ha, hb⟩ | ⟨ha, hh⟩
      · exact .inl ⟨l :: as, b, bs, d, by rw [e]; rfl, by
          intro a hm
          rcases List.mem_cons.1 hm with rfl | hm
          · exact hs
          · exact ha a hm, hb⟩
      · refine .inr ⟨?_, hh⟩
        intro b hm
        rcases List.mem_cons.1 hm with rfl | hm
        · exact hs
        · exact ha b hm
    cases hd : dflt l with
    | none =>
      apply skip
      · intro d h; rw [h.1] at hd; cases hd
      · simp only [defaultLoop, hd]; exact h1
    | some d =>
      have hnd := hn l List.mem_cons_self d hd
      by_cases hs : ∃ x ∈ maps, Reaches d.name x
      · obtain ⟨y, hy, hym, hyr⟩ := localOf_some hnd hs
        refine ⟨y, by simp only [defaultLoop, hd, hy], hym, .inl ⟨[], l, ls, d, rfl, by simp, ⟨hd, hs⟩, hy, hyr⟩⟩
      · apply skip
        · intro d' h
          have : d' = d := by have := h.1; rw [hd] at this; exact (Option.some.inj this).symm
          subst this; exact hs h.2
        · simp only [defaultLoop, hd, localOf_none hnd hs]; exact h1

/-- C157. Without a given map: an element in no map has none (and a warning is given); an element in one map uses that map; an element
in several maps uses the one through which the default map of a parent block reaches it, for the first block (in the order of the maps)
whose default map does, and its first map if there is no such block. -/
theorem C157_default_map (dflt : RMap → Option RMap) (maps : List RMap) (hn : ∀ l ∈ maps, ∀ d, dflt l = some d → Named maps d) :
    (maps = [] → localReg dflt maps none = (none, 1)) ∧
    (∀ m, maps = [m] → localReg dflt maps none = (some m, 0)) ∧
    (maps ≠ [] → ∃ x, (localReg dflt maps none).1 = some x ∧ x ∈ maps ∧
      (2 ≤ maps.length →
        (∃ as l bs d, maps = as ++ l :: bs ∧ (∀ a ∈ as, ∀ d, ¬ Serves dflt maps a d) ∧ Serves dflt maps l d ∧
          (localReg dflt maps (some d)).1 = some x ∧ Reaches d.name x) ∨
        ((∀ l ∈ maps, ∀ d, ¬ Serves dflt maps l d) ∧ maps.head? = some x))) := by
  refine ⟨by rintro rfl; rfl, by rintro m rfl; rfl, fun hne => ?_⟩
  match maps, hne, hn with
  | [m], _, _ => exact ⟨m, rfl, by simp, by simp⟩
  | a :: b :: ms, hne, hn =>
    obtain ⟨x, h1, h2, h3⟩ := defaultLoop_spec dflt (a :: b :: ms) hne (a :: b :: ms) hn
    refine ⟨x, h1, h2, fun _ => ?_⟩
    rcases h3 with ⟨as, l, bs, d, e, ha, hs, hl, hr⟩ | h3
    · exact .inl ⟨as, l, bs, d, e, ha, hs, by simp [localReg, hl], hr⟩
    · exact .inr h3

/-- A system with a top map, two subsystem maps below it, and one map apart. -/
def top : RMap := .root 0
def subA : RMap := .sub 1 top
def subB : RMap := .sub 2 (.sub 3 top)
def apart : RMap := .root 4

example : Named [subA, subB] top ∧ Named [subA, subB] apart := by unfold Named; decide
example : localReg (fun _ => none) [subA, subB] (some top) = (some subA, 0) := by decide
example : localReg (fun _ => none) [subA, subB] (some apart) = (none, 1) := by decide
example : localReg (fun l => if l = apart then some apart else some (.sub 3 top)) [apart, subB] none = (some apart, 0) ∧
    localReg (fun _ => some (.sub 3 top)) [apart, subB] none = (some subB, 0) ∧
    isInMap [subB] top = true ∧ isInMap [subB] apart = false := by decide

/-- C158. Asking a memory in at least one map for its default map gives no warning. -/
theorem C158_no_warning (maps : List RMap) (h : maps ≠ []) : ∃ m ∈ maps, localMem maps none = (some m, 0) := by
  cases maps with
  | nil => exact absurd rfl h
  | cons m ms => exact ⟨m, by simp, rfl⟩

example : localMem [subA, subB] none = (some subA, 0) ∧ localMem [] none = (none, 1) := by decide

/-- C313, part: a map the memory is in serves an access through it, with no warning; a map that does not reach the memory is refused with a
warning; a memory in one map uses it when no map is named, a memory in no map has none.  Missing: maps above
(`C313_map_above_fails`), and the choice between several maps (`C313_default_map_fails`). -/
theorem C313_local_map_partial (maps : List RMap) (m : RMap) (hn : Named maps m) :
    (m ∈ maps → localMem maps (some m) = (some m, 0)) ∧
    ((∀ l ∈ maps, ¬ Reaches m.name l) → localMem maps (some m) = (none, 1)) ∧
    localMem [m] none = (some m, 0) ∧ localMem [] none = (none, 1) := by
  refine ⟨fun h => ?_, fun h => ?_, rfl, rfl⟩
  · have : maps.any (fun l => l.name == m.name) = true := (any_iff maps m).2 ⟨m, h, rfl⟩
    simp [localMem, localOfMem, this]
  · have : ¬ maps.any (fun l => l.name == m.name) = true := by
      intro hh
      obtain ⟨l, hl, e⟩ := (any_iff maps m).1 hh
      exact h l hl (.inl e)
    simp only [localMem, localOfMem, if_neg this]

/-- C313 fails: a map that is above every map of the memory is refused with a warning, where a register in the same maps is found through it. -/
theorem C313_map_above_fails (dflt : RMap → Option RMap) (maps : List RMap) (m : RMap) (hn : Named maps m) (hm : m ∉ maps)
    (l : RMap) (hl : l ∈ maps) (hr : Reaches m.name l) :
    localMem maps (some m) = (none, 1) ∧ ∃ x ∈ maps, localReg dflt maps (some m) = (some x, 0) := by
  have h0 : ¬ maps.any (fun l => l.name == m.name) = true := by
    intro hh
    obtain ⟨x, hx, e⟩ := (any_iff maps m).1 hh
    exact hm (hn x hx e ▸ hx)
  refine ⟨by simp only [localMem, localOfMem, if_neg h0], ?_⟩
  obtain ⟨h1, h2, -, h4⟩ := C157_local_map dflt maps m hn
  cases hx : (localReg dflt maps (some m)).1 with
  | none => exact absurd hr (h2.1 hx l hl)
  | some x => exact ⟨x, (h1 x hx).1, Prod.ext hx (h4 (by simp [hx]))⟩

example : localMem [subA, subB] (some top) = (none, 1) ∧ Named [subA, subB] top ∧ top ∉ [subA, subB] ∧ Reaches top.name subA := by
  refine ⟨by decide, by unfold Named; decide, by decide, .inr ⟨top, by simp [subA, above], rfl⟩⟩

/-- C313 fails: a memory in several maps uses the first one, although the default map of its block reaches it through another one, which a
register uses. -/
theorem C313_default_map_fails : ∃ (dflt : RMap → Option RMap) (maps : List RMap) (x : RMap), (∀ l ∈ maps, ∀ d, dflt l = some d → Named maps d) ∧
    (localReg dflt maps none).1 = some x ∧ (localMem maps none).1 ≠ some x :=
  ⟨fun _ => some (.sub 3 top), [apart, subB], subB, by
    intro l _ d hd
    simp only [Option.some.injEq] at hd
    subst hd
    unfold Named
    decide, by decide, by decide⟩

/-- C159 fails: for a memory in several maps whose rights are restricted in the map asked about, `get_access` returns nothing, whatever
the memory's own access. -/
theorem C159_restricted_access_fails (maps : List RMap) (rights : RMap → Mode) (acc : Mode) (m : Option RMap)
    (l : RMap) (hl : (localMem maps m).1 = some l) (h2 : 2 ≤ maps.length) (hin : l ∈ maps) (hr : rights l ≠ .rw) :
    (accessMem maps rights acc m).1 = none := by
  have hlm : (localMem maps (some l)).1 = some l := by
    have : maps.any (fun x => x.name == l.name) = true := by simp; exact ⟨l, hin, rfl⟩
    simp [localMem, localOfMem, this]
  have : rightsMem maps rights (some l) = rights l := by
    simp only [rightsMem]; rw [if_neg (by omega), hlm]
  simp only [accessMem]
  rw [if_neg (by omega), hl]
  simp only [this]
  cases h : rights l <;> first | rfl | exact absurd h hr

example : (accessMem [subA, subB] (fun l => if l = subB then .ro else .rw) .rw (some subB)).1 = none ∧
    (localMem [subA, subB] (some subB)).1 = some subB := by decide

/-- C159, part: where the rights are not restricted, or the memory is in one map only, or not in the map at all, `get_access` is the
access the memory was made with; an error is reported exactly when the rights and the access exclude each other (or the rights are not
one of the three). Missing: the value under restricted rights (`C159_restricted_access_fails`). -/
theorem C159_access_partial (maps : List RMap) (rights : RMap → Mode) (acc : Mode) (m : Option RMap) :
    (maps.length = 1 → accessMem maps rights acc m = (some acc, false)) ∧
    ((localMem maps m).1 = none → accessMem maps rights acc m = (some acc, false)) ∧
    (∀ l, (localMem maps m).1 = some l → l ∈ maps → 2 ≤ maps.length →
      (rights l = .rw → accessMem maps rights acc m = (some acc, false)) ∧
      ((accessMem maps rights acc m).2 = true ↔ rights l = .other ∨ restrict acc (rights l) = none ∨ (acc = .other ∧ rights l ≠ .rw))) := by
  refine ⟨fun h => by simp [accessMem, h], fun h => ?_, ?_⟩
  · simp only [accessMem, h]; split <;> rfl
  · intro l hl hin h2
    have hlm : (localMem maps (some l)).1 = some l := by
      have : maps.any (fun x => x.name == l.name) = true := by simp; exact ⟨l, hin, rfl⟩
      simp [localMem, localOfMem, this]
    have : rightsMem maps rights (some l) = rights l := by
      simp only [rightsMem]; rw [if_neg (by omega), hlm]
    have e : accessMem maps rights acc m = match rights l with
      | .rw => (some acc, false)
      | .ro => (none, !(acc == .rw || acc == .ro))
      | .wo => (none, !(acc == .rw || acc == .wo))
      | .other => (none, true) := by
      simp only [accessMem]
      rw [if_neg (by omega), hl]
      simp only [this]
      rfl
    rw [e]
    cases rights l <;> cases acc <;> simp [restrict] <;> decide

/-- C159. The rights of a register: those of the map that serves the access; unrestricted if there is none. -/
theorem C159_rights_reg (dflt : RMap → Option RMap) (maps : List RMap) (rights : RMap → Mode) (m : Option RMap) :
    (∀ l, (localReg dflt maps m).1 = some l → rightsReg dflt maps rights m = rights l) ∧
    ((localReg dflt maps m).1 = none → rightsReg dflt maps rights m = .rw) := by
  constructor
  · intro l h; simp [rightsReg, h]
  · intro h; simp [rightsReg, h]

end Verif.MapSel
