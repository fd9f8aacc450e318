import Verif.Spec.MapInit
/-!
# C259: overlaps of memories in an address map
-/
namespace Verif.MapInit
open Verif.RegMap (Table place Entry initTable)

theorem snoc_ind {α} {P : List α → Prop} (h0 : P []) (h1 : ∀ l x, P l → P (l ++ [x])) (l : List α) : P l := by
  have : ∀ r : List α, P r.reverse := by
    intro r
    induction r with
    | nil => exact h0
    | cons x r ih => rw [List.reverse_cons]; exact h1 _ _ ih
  have h := this l.reverse
  rwa [List.reverse_reverse] at h

theorem run_snoc (l : List Item) (x : Item) : run (l ++ [x]) = (run l).bind fun s => enter s x := by
  simp only [run, List.foldlM_append, List.foldlM_cons, List.foldlM_nil]
  cases List.foldlM enter {} l with
  | none => rfl
  | some s =>
    show (enter s x >>= pure) = enter s x
    cases enter s x <;> rfl

theorem overlaps_iff (lo hi m lo' hi' : Nat) (h : lo ≤ hi) (h' : lo' ≤ hi') :
    overlaps lo hi (m, lo', hi') = true ↔ ∃ a, (lo' ≤ a ∧ a ≤ hi') ∧ lo ≤ a ∧ a ≤ hi := by
  simp only [overlaps, Bool.or_eq_true, Bool.and_eq_true, decide_eq_true_eq]
  constructor
  · rintro ((⟨h1, h2⟩ | ⟨h1, h2⟩) | ⟨h1, h2⟩)
    · exact ⟨hi', ⟨h', Nat.le_refl _⟩, h1, h2⟩
    · exact ⟨lo', ⟨Nat.le_refl _, h'⟩, h1, h2⟩
    · exact ⟨lo, ⟨h1, by omega⟩, Nat.le_refl _, h⟩
  · rintro ⟨a, ⟨h1, h2⟩, h3, h4⟩
    omega

theorem reg_ok (acc : Nat → RegField.Acc) (rg : Nat) : ∀ (as : List Nat) (s : State), (∀ a ∈ as, ∀ r ∈ s.mems, ¬ (r.2.1 ≤ a ∧ a ≤ r.2.2)) →
    ∃ s', as.foldlM (enterAddr acc rg) s = some s' ∧ s'.table = as.foldl (place acc rg) s.table ∧ s'.mems = s.mems ∧ s'.warns = s.warns ∧
      ∀ a, a ∈ s'.keys ↔ a ∈ s.keys ∨ a ∈ as := by
  intro as
  induction as with
  | nil => intro s _; exact ⟨s, rfl, rfl, rfl, rfl, fun a => by simp⟩
  | cons a as ih =>
    intro s h
    have h1 : enterAddr acc rg s a = some { s with table := place acc rg s.table a, keys := if a ∈ s.keys then s.keys else s.keys ++ [a] } := by
      unfold enterAddr
      rw [if_neg]
      rw [List.any_eq_true]
      rintro ⟨r, hr, hh⟩
      exact h a List.mem_cons_self r hr (by simpa using hh)
    obtain ⟨s', h2, h3, h4, h5, h6⟩ := ih ⟨place acc rg s.table a, if a ∈ s.keys then s.keys else s.keys ++ [a], s.mems, s.warns⟩
      (fun b hb r hr => h b (List.mem_cons_of_mem _ hb) r hr)
    refine ⟨s', by rw [List.foldlM_cons, h1]; exact h2, h3, h4, h5, fun b => ?_⟩
    rw [h6, List.mem_cons]
    show b ∈ (if a ∈ s.keys then s.keys else s.keys ++ [a]) ∨ _ ↔ _
    split
    · rename_i ha
      constructor
      · rintro (h | h)
        · exact .inl h
        · exact .inr (.inr h)
      · rintro (h | rfl | h)
        · exact .inl h
        · exact .inl ha
        · exact .inr h
    · rw [List.mem_append, List.mem_singleton, or_assoc]

theorem reg_clash (acc : Nat → RegField.Acc) (rg : Nat) : ∀ (as : List Nat) (s : State), (∃ a ∈ as, ∃ r ∈ s.mems, r.2.1 ≤ a ∧ a ≤ r.2.2) →
    as.foldlM (enterAddr acc rg) s = none := by
  intro as
  induction as with
  | nil => rintro s ⟨a, ha, _⟩; cases ha
  | cons a as ih =>
    rintro s ⟨b, hb, r, hr, hh⟩
    rw [List.foldlM_cons]
    unfold enterAddr
    by_cases hc : (s.mems.any fun r => r.2.1 ≤ a && a ≤ r.2.2) = true
    · rw [if_pos hc]; rfl
    · rw [if_neg hc]
      show List.foldlM (enterAddr acc rg) _ as = none
      apply ih
      rcases List.mem_cons.1 hb with rfl | hb
      · exact absurd (List.any_eq_true.2 ⟨r, hr, by simpa using hh⟩) hc
      · exact ⟨b, hb, r, hr, hh⟩

/-- The memories. -/
def memsOf (l : List Item) : List (Nat × Nat × Nat) := l.filterMap fun x => match x with | .mem m lo hi => some (m, lo, hi) | .reg _ => none

theorem mem_memsOf (l : List Item) (r : Nat × Nat × Nat) : r ∈ memsOf l ↔ .mem r.1 r.2.1 r.2.2 ∈ l := by
  unfold memsOf
  rw [List.mem_filterMap]
  constructor
  · rintro ⟨x, hx, h⟩
    cases x with
    | reg e => cases h
    | mem m lo hi => cases h; exact hx
  · intro h; exact ⟨_, h, rfl⟩

/-- Which warnings about memories are due. -/
def Due (l : List Item) (m a : Nat) : Prop :=
  ∃ pre lo hi post, l = pre ++ .mem m lo hi :: post ∧ (lo ≤ a ∧ a ≤ hi) ∧ ∃ e, .reg e ∈ pre ∧ a ∈ e.addrs

theorem due_snoc (l : List Item) (x : Item) (m a : Nat) : Due (l ++ [x]) m a ↔ Due l m a ∨ ∃ lo hi, x = .mem m lo hi ∧ (lo ≤ a ∧ a ≤ hi) ∧ ∃ e, .reg e ∈ l ∧ a ∈ e.addrs := by
  constructor
  · rintro ⟨pre, lo, hi, post, h1, h2, h3⟩
    rcases List.eq_nil_or_concat post with rfl | ⟨post', y, rfl⟩
    · have := List.append_inj' h1 rfl
      obtain ⟨e1, e2⟩ := this
      cases e2
      subst e1
      exact .inr ⟨lo, hi, rfl, h2, h3⟩
    · have h1' : l ++ [x] = (pre ++ .mem m lo hi :: post') ++ [y] := by rw [h1]; simp
      obtain ⟨e1, _⟩ := List.append_inj' h1' rfl
      exact .inl ⟨pre, lo, hi, post', e1, h2, h3⟩
  · rintro (⟨pre, lo, hi, post, h1, h2, h3⟩ | ⟨lo, hi, rfl, h2, h3⟩)
    · exact ⟨pre, lo, hi, post ++ [x], by rw [h1]; simp, h2, h3⟩
    · exact ⟨l, lo, hi, [], rfl, h2, h3⟩

/-- What is known after a list. -/
def Good (l : List Item) : Prop :=
  match run l with
  | none => ¬ l.Pairwise fun x y => ¬ Clash x y
  | some s => (l.Pairwise fun x y => ¬ Clash x y) ∧ s.table = initTable (regs l) ∧ s.mems = memsOf l ∧
      (∀ a, a ∈ s.keys ↔ ∃ e, .reg e ∈ l ∧ a ∈ e.addrs) ∧
      (∀ m a, (∃ r, (m, r, a) ∈ s.warns) ↔ Due l m a)

theorem pairwise_snoc {α} (R : α → α → Prop) (l : List α) (x : α) : (l ++ [x]).Pairwise R ↔ l.Pairwise R ∧ ∀ y ∈ l, R y x := by
  rw [List.pairwise_append]
  constructor
  · rintro ⟨h1, _, h3⟩; exact ⟨h1, fun y hy => h3 y hy x (by simp)⟩
  · rintro ⟨h1, h2⟩; exact ⟨h1, by simp, fun y hy z hz => by simp at hz; subst hz; exact h2 y hy⟩

theorem good (l : List Item) (hp : Proper l) : Good l := by
  revert hp
  apply snoc_ind (l := l)
  · intro _
    refine ⟨List.Pairwise.nil, rfl, rfl, fun a => by simp, fun m a => ?_⟩
    constructor
    · rintro ⟨r, hr⟩; cases hr
    · rintro ⟨pre, lo, hi, post, h, _⟩
      cases pre <;> cases h
  · intro l x ih hp
    have hpl : Proper l := fun m lo hi h => hp m lo hi (List.mem_append_left _ h)
    have ih := ih hpl
    unfold Good at ih ⊢
    rw [run_snoc]
    cases hr : run l with
    | none =>
      rw [hr] at ih
      show ¬ _
      rw [pairwise_snoc]
      exact fun h => ih h.1
    | some s =>
      rw [hr] at ih
      obtain ⟨h1, h2, h3, h4, h5⟩ := ih
      show match enter s x with | none => _ | some s => _
      cases x with
      | reg e =>
        by_cases hc : ∃ a ∈ e.addrs, ∃ r ∈ s.mems, r.2.1 ≤ a ∧ a ≤ r.2.2
        · rw [enter, reg_clash e.acc e.rg e.addrs s hc]
          show ¬ _
          rw [pairwise_snoc]
          intro ⟨_, h⟩
          obtain ⟨a, ha, r, hr, hh⟩ := hc
          rw [h3, mem_memsOf] at hr
          exact h _ hr ⟨a, ha, hh⟩
        · have hno : ∀ a ∈ e.addrs, ∀ r ∈ s.mems, ¬ (r.2.1 ≤ a ∧ a ≤ r.2.2) := fun a ha r hr hh => hc ⟨a, ha, r, hr, hh⟩
          obtain ⟨s', g1, g2, g3, g4, g5⟩ := reg_ok e.acc e.rg e.addrs s hno
          rw [enter, g1]
          refine ⟨?_, ?_, ?_, fun a => ?_, fun m a => ?_⟩
          · rw [pairwise_snoc]
            refine ⟨h1, fun y hy hcl => ?_⟩
            cases y with
            | reg e' => exact hcl
            | mem m lo hi =>
              obtain ⟨a, ha, hh⟩ := hcl
              exact hno a ha (m, lo, hi) (by rw [h3, mem_memsOf]; exact hy) hh
          · rw [g2, h2]
            simp only [regs, List.filterMap_append, initTable, List.foldl_append]
            rfl
          · rw [g3, h3]; simp [memsOf, List.filterMap_append]
          · rw [g5, h4]
            constructor
            · rintro (⟨e', h, ha⟩ | ha)
              · exact ⟨e', List.mem_append_left _ h, ha⟩
              · exact ⟨e, by simp, ha⟩
            · rintro ⟨e', h, ha⟩
              rcases List.mem_append.1 h with h | h
              · exact .inl ⟨e', h, ha⟩
              · simp at h; subst h; exact .inr ha
          · rw [g4, due_snoc, h5]
            constructor
            · exact .inl
            · rintro (h | ⟨lo, hi, h, _⟩)
              · exact h
              · cases h
      | mem m lo hi =>
        have hlh : lo ≤ hi := hp m lo hi (by simp)
        have hov : s.mems.any (overlaps lo hi) = true ↔ ∃ y ∈ l, Clash y (.mem m lo hi) := by
          rw [List.any_eq_true]
          constructor
          · rintro ⟨r, hr, ho⟩
            rw [h3, mem_memsOf] at hr
            exact ⟨_, hr, (overlaps_iff lo hi r.1 r.2.1 r.2.2 hlh (hpl _ _ _ hr)).1 ho⟩
          · rintro ⟨y, hy, hcl⟩
            cases y with
            | reg e => exact absurd hcl id
            | mem m' lo' hi' =>
              exact ⟨(m', lo', hi'), by rw [h3, mem_memsOf]; exact hy, (overlaps_iff lo hi m' lo' hi' hlh (hpl _ _ _ hy)).2 hcl⟩
        by_cases hc : s.mems.any (overlaps lo hi) = true
        · rw [enter, enterMem, if_pos hc]
          show ¬ _
          rw [pairwise_snoc]
          intro ⟨_, h⟩
          obtain ⟨y, hy, hcl⟩ := hov.1 hc
          exact h y hy hcl
        · rw [enter, enterMem, if_neg hc]
          refine ⟨?_, ?_, ?_, fun a => ?_, fun m' a => ?_⟩
          · rw [pairwise_snoc]
            exact ⟨h1, fun y hy hcl => hc (hov.2 ⟨y, hy, hcl⟩)⟩
          · show s.table = _
            rw [h2]; simp [regs, List.filterMap_append]
          · show s.mems ++ _ = _
            rw [h3]; simp [memsOf, List.filterMap_append]
          · show a ∈ s.keys ↔ _
            rw [h4]
            constructor
            · rintro ⟨e', h, ha⟩; exact ⟨e', List.mem_append_left _ h, ha⟩
            · rintro ⟨e', h, ha⟩
              rcases List.mem_append.1 h with h | h
              · exact ⟨e', h, ha⟩
              · simp at h
          · rw [due_snoc, ← h5]
            show (∃ r, (m', r, a) ∈ s.warns ++ _) ↔ _
            constructor
            · rintro ⟨r, hr⟩
              rcases List.mem_append.1 hr with hr | hr
              · exact .inl ⟨r, hr⟩
              · obtain ⟨b, hb, he⟩ := List.mem_map.1 hr
                cases he
                rw [List.mem_filter] at hb
                exact .inr ⟨lo, hi, rfl, by simpa using hb.2, (h4 _).1 hb.1⟩
            · rintro (⟨r, hr⟩ | ⟨lo', hi', he, hh, hr⟩)
              · exact ⟨r, List.mem_append_left _ hr⟩
              · cases he
                refine ⟨s.table.byOffset a, List.mem_append_right _ (List.mem_map.2 ⟨a, ?_, rfl⟩)⟩
                rw [List.mem_filter]
                exact ⟨(h4 a).2 hr, by simpa using hh⟩

/-- C259, what holds: the addresses are computed without exception exactly if no memory shares an address with a memory or register that
comes later; then the table of registers is as without memories, and a memory is warned about together with an address exactly if a register
entered before it has that address. -/
theorem C259_overlaps_partial (l : List Item) (hp : Proper l) :
    ((run l).isSome = true ↔ l.Pairwise fun x y => ¬ Clash x y) ∧
    (∀ s, run l = some s → s.table = initTable (regs l) ∧
      ∀ m a, (∃ r, (m, r, a) ∈ s.warns) ↔ ∃ pre lo hi post, l = pre ++ .mem m lo hi :: post ∧ (lo ≤ a ∧ a ≤ hi) ∧ ∃ e, .reg e ∈ pre ∧ a ∈ e.addrs) := by
  have h := good l hp
  unfold Good at h
  cases hr : run l with
  | none =>
    rw [hr] at h
    exact ⟨⟨nofun, fun h' => absurd h' h⟩, nofun⟩
  | some s =>
    rw [hr] at h
    obtain ⟨h1, h2, _, _, h5⟩ := h
    exact ⟨⟨fun _ => h1, fun _ => rfl⟩, fun s' hs => by cases hs; exact ⟨h2, h5⟩⟩

/-- C259 fails for every address map in which two memories overlap: computing the addresses raises instead of warning. -/
theorem C259_memories_fails (pre mid post : List Item) (m lo hi m' lo' hi' a : Nat) (hp : Proper (pre ++ .mem m lo hi :: mid ++ .mem m' lo' hi' :: post))
    (h : lo ≤ a ∧ a ≤ hi) (h' : lo' ≤ a ∧ a ≤ hi') : run (pre ++ .mem m lo hi :: mid ++ .mem m' lo' hi' :: post) = none := by
  have g := (C259_overlaps_partial _ hp).1
  cases hr : run (pre ++ .mem m lo hi :: mid ++ .mem m' lo' hi' :: post) with
  | none => rfl
  | some s =>
    rw [hr] at g
    have := g.1 rfl
    rw [List.pairwise_append] at this
    exact absurd ⟨a, h, h'⟩ (this.2.2 (.mem m lo hi) (by simp) (.mem m' lo' hi') (by simp))

/-- C259 fails for every register at an address of a memory of a submap: computing the addresses raises instead of warning. -/
theorem C259_register_fails (pre mid post : List Item) (m lo hi : Nat) (e : Entry) (a : Nat) (hp : Proper (pre ++ .mem m lo hi :: mid ++ .reg e :: post))
    (h : lo ≤ a ∧ a ≤ hi) (h' : a ∈ e.addrs) : run (pre ++ .mem m lo hi :: mid ++ .reg e :: post) = none := by
  have g := (C259_overlaps_partial _ hp).1
  cases hr : run (pre ++ .mem m lo hi :: mid ++ .reg e :: post) with
  | none => rfl
  | some s =>
    rw [hr] at g
    have := g.1 rfl
    rw [List.pairwise_append] at this
    exact absurd ⟨a, h', h⟩ (this.2.2 (.mem m lo hi) (by simp) (.reg e) (by simp))

/-- A register (7) at 8, a memory from 4 to 15 and one from 16 to 31; a memory from 15 on. -/
example : (run [.reg ⟨fun _ => .RW, 7, [8]⟩, .mem 1 4 15, .mem 2 16 31]).map (·.warns) = some [(1, some 7, 8)] ∧
    (run [.reg ⟨fun _ => .RW, 7, [8]⟩, .mem 1 4 15, .mem 2 15 31]).isSome = false ∧
    (run [.mem 1 4 15, .reg ⟨fun _ => .RW, 7, [8]⟩]).isSome = false := by decide
example : Proper [.reg ⟨fun _ => .RW, 7, [8]⟩, .mem 1 4 15, .mem 2 15 31] := by
  intro m lo hi h
  simp at h
  omega

end Verif.MapInit
