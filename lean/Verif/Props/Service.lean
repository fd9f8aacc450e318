import Verif.Model.Service
/-!
# Properties of the core service and the registries: C320, C321
-/
namespace Verif.Service

theorem snocI {α : Type} {P : List α → Prop} (h0 : P []) (hs : ∀ l a, P l → P (l ++ [a])) (l : List α) : P l := by
  have : ∀ r : List α, P r.reverse := by
    intro r; induction r with
    | nil => exact h0
    | cons a r ih => rw [List.reverse_cons]; exact hs _ _ ih
  simpa using this l.reverse

/-! ## Specification -/

/-- `c` is the class defined last under the name, and no reset came after it. -/
def Latest (h : List Op) (n : Name) (c : Class) : Prop :=
  ∃ a b, h = a ++ .define c n :: b ∧ Op.reset ∉ b ∧ ∀ d, Op.define d n ∉ b

/-- The state after a history. -/
def after (h : List Op) : St := runS step init h

theorem after_snoc (h : List Op) (o : Op) : after (h ++ [o]) = (step (after h) o).1 := by simp [after, runS_append]

theorem latest_nil (n : Name) (c : Class) : ¬ Latest [] n c := by rintro ⟨a, b, h, _⟩; simp at h

theorem latest_snoc (h : List Op) (o : Op) (n : Name) (c : Class) :
    Latest (h ++ [o]) n c ↔ (o = .define c n ∨ (o ≠ .reset ∧ (∀ d, o ≠ .define d n) ∧ Latest h n c)) := by
  constructor
  · rintro ⟨a, b, he, hr, hd⟩
    rcases List.eq_nil_or_concat b with rfl | ⟨b', x, rfl⟩
    · left
      have := congrArg List.getLast? he
      simpa using this
    · right
      rw [List.concat_eq_append] at he hr hd
      have he' : h ++ [o] = (a ++ .define c n :: b') ++ [x] := by simpa using he
      obtain ⟨h1, h2⟩ := List.append_inj' he' rfl
      cases h2
      refine ⟨fun e => hr (by simp [e]), fun d e => hd d (by simp [e]), a, b', h1, fun m => hr (by simp [m]), fun d m => hd d (by simp [m])⟩
  · rintro (rfl | ⟨h1, h2, a, b, rfl, hr, hd⟩)
    · exact ⟨h, [], rfl, by simp, by simp⟩
    · refine ⟨a, b ++ [o], by simp, ?_, ?_⟩
      · simp [hr, Ne.symm h1]
      · intro d; simp [hd d, Ne.symm (h2 d)]

/-! ## The classes of the registry -/

theorem getFactory_classes (s : St) : (getFactory s).2.classes = s.classes ∧ (getFactory s).2.registered = s.registered := by
  unfold getFactory; cases s.cur <;> simp

theorem get_classes {s t : St} {n : Name} (h : get s n = some t) : t.classes = s.classes := by
  unfold get at h
  split at h
  · cases h
  · cases h; rfl
  · cases h; simp [register, (getFactory_classes s).1]

theorem get_registered {s t : St} {n : Name} (h : get s n = some t) (m : Name) :
    t.registered m = if m = n then some true else s.registered m := by
  unfold get at h
  split at h
  · cases h
  · next hr => cases h; by_cases e : m = n <;> simp [e, hr]
  · cases h; simp [register, (getFactory_classes s).2]

/-- A name is registered exactly if it has a class, and then with the flag set. -/
def Inv (s : St) : Prop := ∀ n, s.registered n = (s.classes n).map fun _ => true

theorem define_classes (s : St) (c : Class) (n m : Name) : (define s c n).classes m = if m = n then some c else s.classes m := by
  unfold define
  simp only
  generalize hg : get _ n = g
  cases g with
  | none => simp
  | some t => simp [get_classes hg]

theorem define_registered (s : St) (c : Class) (n m : Name) : (define s c n).registered m = if m = n then some true else s.registered m := by
  unfold define
  simp only
  generalize hg : get _ n = g
  cases g with
  | none => simp [get] at hg
  | some t =>
    rw [Option.getD_some, get_registered hg]
    by_cases e : m = n <;> simp [e]

theorem create_st (s : St) (n : Name) : (create s n).1.classes = s.classes ∧ (Inv s → (create s n).1.registered = s.registered) := by
  unfold create
  simp only
  generalize hg : get _ n = g
  cases g with
  | none => simp [getFactory_classes]
  | some t =>
    refine ⟨by simp [get_classes hg, getFactory_classes], fun hi => funext fun m => ?_⟩
    simp only
    rw [get_registered hg, (getFactory_classes s).2]
    by_cases e : m = n
    · subst e
      have : s.registered m ≠ none := by
        intro hn
        have := (getFactory_classes s).2
        unfold get at hg
        rw [this, hn] at hg; cases hg
      have h2 := hi m
      cases hc : s.classes m with
      | none => rw [hc] at h2; exact absurd h2 this
      | some c => rw [hc] at h2; simp [h2]
    · simp [e]

theorem step_inv (s : St) (o : Op) (h : Inv s) : Inv (step s o).1 := by
  intro n
  cases o with
  | define c m =>
    show (define s c m).registered n = ((define s c m).classes n).map _
    rw [define_registered, define_classes, h n]
    by_cases e : n = m <;> simp [e]
  | create m =>
    show (create s m).1.registered n = ((create s m).1.classes n).map _
    rw [(create_st s m).1, (create_st s m).2 h]; exact h n
  | byName m =>
    show (getFactory s).2.registered n = ((getFactory s).2.classes n).map _
    rw [(getFactory_classes s).1, (getFactory_classes s).2]; exact h n
  | setFactory k => exact h n
  | reset => rfl

theorem after_inv (h : List Op) : Inv (after h) := runS_inv step_inv (by intro n; rfl) h

theorem classes_latest (h : List Op) (n : Name) (c : Class) : (after h).classes n = some c ↔ Latest h n c := by
  induction h using snocI with
  | h0 => simp [after, init, latest_nil]
  | hs l o ih =>
    rw [after_snoc, latest_snoc, ← ih]
    cases o with
    | define d m =>
      show (define _ d m).classes n = _ ↔ _
      rw [define_classes]
      by_cases e : n = m
      · subst e; simp
      · simp [e, Ne.symm e]
    | create m =>
      show (create _ m).1.classes n = _ ↔ _
      rw [(create_st _ m).1]; simp
    | byName m =>
      show (getFactory _).2.classes n = _ ↔ _
      rw [(getFactory_classes _).1]; simp
    | setFactory k => simp [step]
    | reset => simp [step]

theorem create_res (s : St) (n : Name) (hi : Inv s) :
    (create s n).2 = match s.classes n with
      | some c => .inst c
      | none => .keyError := by
  have hr := hi n
  unfold create
  simp only
  generalize hg : get _ n = g
  cases g with
  | none =>
    cases hc : s.classes n with
    | none => rfl
    | some c =>
      rw [hc] at hr
      unfold get at hg
      rw [(getFactory_classes s).2, hr] at hg; cases hg
  | some t =>
    show construct t n = _
    unfold construct
    rw [get_classes hg, (getFactory_classes s).1]
    cases s.classes n <;> rfl

/-! ## C320 -/

/-- C320: `create` of a type id gives an instance of the class defined last under that name, and raises KeyError if there is none since the last `reset`. -/
theorem C320_create (h : List Op) (n : Name) :
    (∀ c, (step (after h) (.create n)).2 = .inst c ↔ Latest h n c) ∧
    ((step (after h) (.create n)).2 = .keyError ↔ ∀ c, ¬ Latest h n c) := by
  have e : (step (after h) (.create n)).2 = _ := create_res (after h) n (after_inv h)
  rw [e]
  cases hc : (after h).classes n with
  | none => simp [← classes_latest, hc]
  | some c => simp [← classes_latest, hc]

/-- C320: the factory has no part in it: whatever factories are set, the instance is the same. -/
theorem C320_any_factory (h : List Op) (n k : Nat) :
    (step (after (h ++ [.setFactory k])) (.create n)).2 = (step (after h) (.create n)).2 := by
  show (create _ n).2 = (create _ n).2
  rw [create_res _ n (after_inv _), create_res _ n (after_inv _), after_snoc]
  rfl

example : (step (after [.define 7 1, .define 8 2, .setFactory 0, .create 2]) (.create 1)).2 = .inst 7 := by decide
example : Latest [.define 7 1, .define 8 2, .define 9 1] 1 9 := ⟨[.define 7 1, .define 8 2], [], rfl, by simp, by simp⟩
example : (step (after [.define 7 1, .define 9 1]) (.create 1)).2 = .inst 9 := by decide

/-- C320: after `reset` a class that still exists cannot be created until it is defined again. -/
theorem C320_reset (h l : List Op) (n : Name) (hl : ∀ c, .define c n ∉ l) :
    (step (after (h ++ .reset :: l)) (.create n)).2 = .keyError := by
  rw [(C320_create _ n).2]
  intro c hc
  induction l using snocI with
  | h0 => simp [latest_snoc] at hc
  | hs l o ih =>
    have : h ++ .reset :: (l ++ [o]) = (h ++ .reset :: l) ++ [o] := by simp
    rw [this, latest_snoc] at hc
    rcases hc with rfl | ⟨_, _, hc⟩
    · exact hl c (by simp)
    · exact ih (fun d hd => hl d (by simp [hd])) hc

example : (step (after [.define 7 1, .reset, .define 8 2]) (.create 1)).2 = .keyError := by decide

/-! ## C321 -/

/-- The factories: those of the service not made yet are empty; the current one, made by the service, knows the names with a class. -/
structure FInv (s : St) : Prop where
  fresh : ∀ k, s.made ≤ k → s.names (.own k) = []
  ours : ∀ k, s.cur = some (.own k) → k < s.made
  cur : ∀ f, s.cur = some f → ∀ n, n ∈ s.names f ↔ s.classes n ≠ none
  none : s.cur = none → ∀ n, s.classes n = none
  own : ∀ f, s.cur = some f → ∃ k, f = .own k

theorem getFactory_finv (s : St) (h : FInv s) : FInv (getFactory s).2 ∧ (getFactory s).2.cur = some (getFactory s).1 := by
  unfold getFactory
  cases hc : s.cur with
  | some f => exact ⟨h, hc⟩
  | none =>
    refine ⟨⟨?_, ?_, ?_, ?_, ?_⟩, rfl⟩
    · intro k hk; exact h.fresh k (by simp at hk; omega)
    · intro k hk; simp at hk; subst hk; simp
    · intro f hf n
      simp at hf; subst hf
      simp [h.fresh s.made (Nat.le_refl _), h.none hc n]
    · simp
    · intro f hf; simp at hf; exact ⟨_, hf.symm⟩

theorem register_names (s : St) (f : FId) (n : Name) (g : FId) (m : Name) :
    m ∈ (register s f n).names g ↔ (g = f ∧ m = n) ∨ m ∈ s.names g := by
  unfold register
  simp only
  by_cases e : g = f
  · subst e
    by_cases hn : n ∈ s.names g
    · simp [hn]; rintro rfl; exact hn
    · simp [hn]
  · simp [e]

theorem get_true {s : St} {n : Name} (h : s.registered n ≠ some false) : get s n = none ∨ get s n = some s := by
  unfold get
  cases hr : s.registered n with
  | none => simp
  | some b => cases b <;> simp_all

theorem define_eq (s : St) (c : Class) (n : Name) :
    define s c n = { register (getFactory s).2 (getFactory s).1 n with
      classes := fun m => if m = n then some c else s.classes m, registered := fun m => if m = n then some true else s.registered m } := by
  have hf : (fun m => if m = n then some true else if m = n then some false else s.registered m) =
      fun m => if m = n then some true else s.registered m := by
    funext m; by_cases e : m = n <;> simp [e]
  unfold define get getFactory register
  cases hc : s.cur <;> simp [hf, hc]

theorem define_finv (s : St) (c : Class) (n : Name) (h : FInv s) : FInv (define s c n) := by
  obtain ⟨hq, hcur⟩ := getFactory_finv s h
  have hcl := (getFactory_classes s).1
  rw [define_eq]
  generalize hf : (getFactory s).1 = f at *
  generalize (getFactory s).2 = t at *
  have hown := hq.own f hcur
  obtain ⟨k0, rfl⟩ := hown
  have hk0 := hq.ours k0 hcur
  refine ⟨?_, ?_, ?_, ?_, ?_⟩
  · intro k hk
    have hk' : t.made ≤ k := hk
    show (register t (.own k0) n).names (.own k) = []
    have := hq.fresh k hk'
    unfold register
    simp only
    rw [if_neg (by simp; omega)]; exact this
  · exact hq.ours
  · intro f hf m
    have hf' : t.cur = some f := hf
    have : f = .own k0 := by rw [hcur] at hf'; cases hf'; rfl
    subst this
    show m ∈ (register t (.own k0) n).names (.own k0) ↔ (if m = n then some c else s.classes m) ≠ none
    rw [register_names, hq.cur _ hcur m, hcl]
    by_cases e : m = n <;> simp [e]
  · intro hn
    have : t.cur = none := hn
    rw [hcur] at this; cases this
  · exact hq.own

theorem create_eq (s : St) (n : Name) (hi : Inv s) : (create s n).1 = (getFactory s).2 := by
  unfold create
  simp only
  have hne : (getFactory s).2.registered n ≠ some false := by
    rw [(getFactory_classes s).2, hi n]; cases s.classes n <;> simp
  rcases get_true hne with h | h <;> rw [h]

theorem after_finv (h : List Op) (hs : ∀ k, .setFactory k ∉ h) : FInv (after h) := by
  induction h using snocI with
  | h0 => exact ⟨fun _ _ => rfl, nofun, nofun, fun _ _ => rfl, nofun⟩
  | hs l o ih =>
    have ih := ih fun k hk => hs k (by simp [hk])
    rw [after_snoc]
    cases o with
    | define c n => exact define_finv _ c n ih
    | create n =>
      show FInv (create _ n).1
      rw [create_eq _ n (after_inv l)]; exact (getFactory_finv _ ih).1
    | byName n => exact (getFactory_finv _ ih).1
    | setFactory k => exact absurd (by simp) (hs k)
    | reset => exact ⟨ih.fresh, nofun, nofun, fun _ _ => rfl, nofun⟩

/-- C321 (part): as long as the user sets no factory, creation by name gives an instance of the class defined last under that name, and reports an unknown
type if there is none since the last `reset`. -/
theorem C321_by_name_partial (h : List Op) (hs : ∀ k, .setFactory k ∉ h) (n : Name) :
    (∀ c, (step (after h) (.byName n)).2 = .inst c ↔ Latest h n c) ∧
    ((step (after h) (.byName n)).2 = .unknown ↔ ∀ c, ¬ Latest h n c) := by
  obtain ⟨hq, hcur⟩ := getFactory_finv (after h) (after_finv h hs)
  have hcl := (getFactory_classes (after h)).1
  have e : (step (after h) (.byName n)).2 =
      match (after h).classes n with
      | some c => .inst c
      | none => .unknown := by
    show (if n ∈ (getFactory (after h)).2.names (getFactory (after h)).1 then construct (getFactory (after h)).2 n else .unknown) = _
    have hm := hq.cur _ hcur n
    unfold construct
    rw [hcl] at hm ⊢
    cases hc : (after h).classes n with
    | none => rw [hc] at hm; rw [if_neg (by rw [hm]; simp)]
    | some c => rw [hc] at hm; rw [if_pos (by rw [hm]; simp)]
  rw [e]
  cases hc : (after h).classes n with
  | none => simp [← classes_latest, hc]
  | some c => simp [← classes_latest, hc]

example : (step (after [.define 7 1, .reset, .byName 1, .define 8 1, .define 9 2]) (.byName 1)).2 = .inst 8 := by decide

/-- A factory of the user that was never set knows no names. -/
theorem names_user (h : List Op) (k : Nat) (hk : .setFactory k ∉ h) : (after h).names (.user k) = [] ∧ (after h).cur ≠ some (.user k) := by
  induction h using snocI with
  | h0 => exact ⟨rfl, by simp [after, init]⟩
  | hs l o ih =>
    have ih := ih fun m => hk (by simp [m])
    have hg : ∀ s : St, s.names (.user k) = [] ∧ s.cur ≠ some (.user k) →
        (getFactory s).2.names (.user k) = [] ∧ (getFactory s).2.cur ≠ some (.user k) ∧ (getFactory s).1 ≠ .user k := by
      rintro s ⟨h1, h2⟩
      unfold getFactory
      cases hc : s.cur with
      | none => simp [h1]
      | some f => rw [hc] at h2; exact ⟨h1, by simpa [hc] using h2, by simpa using h2⟩
    rw [after_snoc]
    cases o with
    | define c n =>
      obtain ⟨a, b, d⟩ := hg _ ih
      show (define _ c n).names _ = _ ∧ (define _ c n).cur ≠ _
      rw [define_eq]
      refine ⟨?_, b⟩
      show (register _ _ n).names (.user k) = []
      unfold register
      simp only
      rw [if_neg (Ne.symm d)]; exact a
    | create n =>
      show (create _ n).1.names _ = _ ∧ (create _ n).1.cur ≠ _
      rw [create_eq _ n (after_inv l)]
      exact ⟨(hg _ ih).1, (hg _ ih).2.1⟩
    | byName n => exact ⟨(hg _ ih).1, (hg _ ih).2.1⟩
    | setFactory j =>
      refine ⟨ih.1, ?_⟩
      show some (FId.user j) ≠ some (.user k)
      intro e; cases e; exact hk (by simp)
    | reset => exact ⟨ih.1, by simp [step]⟩

/-- C321 fails in the code: a new factory knows none of the classes defined before it was set, though all of them can be created by their type ids. -/
theorem C321_new_factory_fails (h : List Op) (k : Nat) (hk : .setFactory k ∉ h) (n : Name) (c : Class) (hc : Latest h n c) :
    (step (after (h ++ [.setFactory k])) (.byName n)).2 = .unknown ∧ (step (after (h ++ [.setFactory k])) (.create n)).2 = .inst c := by
  refine ⟨?_, ?_⟩
  · rw [after_snoc]
    have := (names_user h k hk).1
    show (if n ∈ (after h).names (.user k) then _ else Res.unknown) = _
    rw [this]; rfl
  · rw [(C320_create _ n).1, latest_snoc]
    exact .inr ⟨by simp, by simp, hc⟩

example : (step (after ([.define 7 1] ++ [.setFactory 0])) (.byName 1)).2 = .unknown := by decide

/-- C321 fails in the code: a factory of the user that is set again after `reset` knows the names, but creation raises KeyError. -/
theorem C321_reset_fails :
    (step (after [.setFactory 0, .define 7 1, .reset, .setFactory 0]) (.byName 1)).2 = .keyError := by decide

end Verif.Service
