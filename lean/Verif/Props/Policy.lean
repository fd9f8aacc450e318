import Verif.Spec.Policy
import Verif.Model.Text
/-
Access policies by name, over all histories of definitions, fields made, configured and changed; and the texts of actions.
-/

namespace Verif.Policy

open Spec (Known Made builtin)

/-! ### Invariants -/

theorem define1_names (s : State) (n x : Str) : x ∈ (define1 s n).1.names ↔ x ∈ s.names ∨ x = upper n := by
  unfold define1
  split
  · constructor
    · exact Or.inl
    · rintro (h | h)
      · exact h
      · subst h; assumption
  · simp only [List.mem_cons]; exact Or.comm

theorem define1_rest (s : State) (n : Str) : (define1 s n).1.predefined = s.predefined ∧ (define1 s n).1.fields = s.fields := by
  unfold define1; split <;> exact ⟨rfl, rfl⟩

theorem foldDefine (l : List Str) (s : State) :
    (∀ x, x ∈ (l.foldl (fun s n => (define1 s n).1) s).names ↔ x ∈ s.names ∨ x ∈ l.map upper) ∧
      (l.foldl (fun s n => (define1 s n).1) s).predefined = s.predefined ∧
      (l.foldl (fun s n => (define1 s n).1) s).fields = s.fields := by
  induction l generalizing s with
  | nil => simp
  | cons a l ih =>
    obtain ⟨h1, h2, h3⟩ := ih (define1 s a).1
    obtain ⟨h4, h5⟩ := define1_rest s a
    refine ⟨fun x => ?_, h2.trans h4, h3.trans h5⟩
    rw [List.foldl_cons, h1 x, define1_names, List.map_cons, List.mem_cons, or_assoc]

theorem policies_upper : policies.map upper = builtin := by decide +kernel

theorem predefine_spec (s : State) (h : s.predefined = false) :
    (∀ x, x ∈ (predefine s).names ↔ x ∈ s.names ∨ x ∈ builtin) ∧ (predefine s).predefined = true ∧
      (predefine s).fields = s.fields := by
  unfold predefine
  rw [h, if_neg (by decide)]
  obtain ⟨h1, h2, h3⟩ := foldDefine policies { s with predefined := true }
  rw [policies_upper] at h1
  exact ⟨h1, h2, h3⟩

/-- The class either has not been used at all, or knows the built-in names and the ones defined. -/
structure Inv (ops : List Op) (s : State) : Prop where
  fresh : s.predefined = false → s.names = [] ∧ (∀ f, s.fields f = none) ∧ (∀ x, Op.define x ∉ ops) ∧ ∀ f, Op.new f ∉ ops
  names : s.predefined = true → ∀ n, n ∈ s.names ↔ Known ops n
  made : ∀ f, (s.fields f).isSome = true ↔ Made ops f

theorem known_snoc (ops : List Op) (o : Op) (n : Str) :
    Known (ops ++ [o]) n ↔ Known ops n ∨ ∃ x, o = .define x ∧ upper x = n := by
  unfold Known
  constructor
  · rintro (h | ⟨x, hx, h⟩)
    · exact .inl (.inl h)
    · rcases List.mem_append.1 hx with hx | hx
      · exact .inl (.inr ⟨x, hx, h⟩)
      · exact .inr ⟨x, (List.mem_singleton.1 hx).symm, h⟩
  · rintro ((h | ⟨x, hx, h⟩) | ⟨x, hx, h⟩)
    · exact .inl h
    · exact .inr ⟨x, List.mem_append_left _ hx, h⟩
    · exact .inr ⟨x, by rw [hx]; simp, h⟩

theorem made_snoc (ops : List Op) (o : Op) (f : Nat) : Made (ops ++ [o]) f ↔ Made ops f ∨ o = .new f := by
  unfold Made; rw [List.mem_append, List.mem_singleton]
  constructor <;> (rintro (h | h) <;> simp [h])

theorem define_spec (s : State) (n : Str) :
    (define s n).1.predefined = true ∧ (define s n).1.fields = s.fields ∧
      (∀ x, x ∈ (define s n).1.names ↔ (x ∈ s.names ∨ (s.predefined = false ∧ x ∈ builtin)) ∨ x = upper n) ∧
      ((define s n).2 = true ↔ ¬ (upper n ∈ s.names ∨ (s.predefined = false ∧ upper n ∈ builtin))) := by
  have ans (t : State) : (define1 t n).2 = true ↔ ¬ upper n ∈ t.names := by unfold define1; split <;> simp [*]
  unfold define
  by_cases h : s.predefined = true
  · simp only [if_pos h]
    have := define1_rest s n
    refine ⟨this.1.trans h, this.2, fun x => ?_, ?_⟩
    · rw [define1_names]; simp [h]
    · rw [ans]; simp [h]
  · have h' : s.predefined = false := by simpa using h
    simp only [if_neg h]
    obtain ⟨h1, h2, h3⟩ := predefine_spec s h'
    have := define1_rest (predefine s) n
    refine ⟨this.1.trans h2, this.2.trans h3, fun x => ?_, ?_⟩
    · rw [define1_names, h1]; simp [h']
    · rw [ans, h1]; simp [h']

theorem newField_spec (s : State) (f : Nat) :
    (newField s f).predefined = true ∧
      (∀ g, (newField s f).fields g = if g = f then some ⟨[], none, none⟩ else s.fields g) ∧
      (∀ x, x ∈ (newField s f).names ↔ x ∈ s.names ∨ (s.predefined = false ∧ x ∈ builtin)) := by
  unfold newField
  by_cases h : s.predefined = true
  · simp [setField, h]
  · have h' : s.predefined = false := by simpa using h
    obtain ⟨h1, h2, h3⟩ := predefine_spec (setField s f ⟨[], none, none⟩) h'
    have e : (setField s f ⟨[], none, none⟩).predefined = false := h'
    simp only [e, Bool.false_eq_true, ↓reduceIte]
    refine ⟨h2, fun g => ?_, fun x => ?_⟩
    · rw [h3]; rfl
    · rw [h1]; simp [setField, h']

theorem configure_rest (s : State) (f z : Nat) (a : Str) (r : Bool) :
    (configure s f z a r).names = s.names ∧ (configure s f z a r).predefined = s.predefined ∧
      ∀ g, ((configure s f z a r).fields g).isSome = (s.fields g).isSome := by
  unfold configure
  cases h : s.fields f with
  | none => exact ⟨rfl, rfl, fun _ => rfl⟩
  | some x =>
    refine ⟨rfl, rfl, fun g => ?_⟩
    simp only [setField]
    by_cases hg : g = f <;> simp [hg, h]

theorem setAccess_rest (s : State) (f : Nat) (m : Str) :
    (setAccess s f m).1.names = s.names ∧ (setAccess s f m).1.predefined = s.predefined ∧
      ∀ g, ((setAccess s f m).1.fields g).isSome = (s.fields g).isSome := by
  unfold setAccess
  cases h : s.fields f with
  | none => exact ⟨rfl, rfl, fun _ => rfl⟩
  | some x =>
    dsimp only
    split
    · refine ⟨rfl, rfl, fun g => ?_⟩
      simp only [setField]
      by_cases hg : g = f <;> simp [hg, h]
    · exact ⟨rfl, rfl, fun _ => rfl⟩

theorem inv_keep {ops : List Op} {s t : State} {o : Op} (h : Inv ops s) (hn : t.names = s.names) (hp : t.predefined = s.predefined)
    (hf : ∀ g, (t.fields g).isSome = (s.fields g).isSome) (ho : (∀ x, o ≠ .define x) ∧ ∀ f, o ≠ .new f) : Inv (ops ++ [o]) t where
  fresh e := by
    obtain ⟨h1, h2, h3, h4⟩ := h.fresh (hp ▸ e)
    refine ⟨hn.trans h1, fun f => ?_, fun x hx => ?_, fun f hx => ?_⟩
    · have := hf f; rw [h2 f] at this
      cases ht : t.fields f with
      | none => rfl
      | some x => rw [ht] at this; simp at this
    · rcases List.mem_append.1 hx with hx | hx
      · exact h3 x hx
      · exact ho.1 x (List.mem_singleton.1 hx).symm
    · rcases List.mem_append.1 hx with hx | hx
      · exact h4 f hx
      · exact ho.2 f (List.mem_singleton.1 hx).symm
  names e n := by
    rw [hn, h.names (hp ▸ e) n, known_snoc]
    constructor
    · exact Or.inl
    · rintro (h | ⟨x, hx, _⟩)
      · exact h
      · exact absurd hx (ho.1 x)
  made f := by
    rw [hf, h.made f, made_snoc]
    constructor
    · exact Or.inl
    · rintro (h | h)
      · exact h
      · exact absurd h (ho.2 f)

theorem known_nil_of {ops : List Op} (h : ∀ x, Op.define x ∉ ops) (n : Str) : Known ops n ↔ n ∈ builtin := by
  unfold Known
  constructor
  · rintro (h' | ⟨x, hx, _⟩)
    · exact h'
    · exact absurd hx (h x)
  · exact Or.inl

/-- What the class knows, whether or not it has been used. -/
theorem inv_known {ops : List Op} {s : State} (h : Inv ops s) (n : Str) :
    (n ∈ s.names ∨ (s.predefined = false ∧ n ∈ builtin)) ↔ Known ops n := by
  by_cases hp : s.predefined = true
  · rw [h.names hp]; simp [hp]
  · have hp' : s.predefined = false := by simpa using hp
    obtain ⟨h1, _, h3, _⟩ := h.fresh hp'
    rw [known_nil_of h3, h1]; simp [hp']

theorem inv_step {ops : List Op} {s : State} (h : Inv ops s) (o : Op) : Inv (ops ++ [o]) (step s o) := by
  cases o with
  | define n =>
    obtain ⟨h1, h2, h3, _⟩ := define_spec s n
    refine ⟨fun e => ?_, fun _ x => ?_, fun f => ?_⟩
    · rw [show (step s (.define n)).predefined = true from h1] at e; cases e
    · rw [show (x ∈ (step s (.define n)).names) = (x ∈ (define s n).1.names) from rfl, h3, inv_known h, known_snoc]
      simp [eq_comm]
    · rw [show (step s (.define n)).fields = s.fields from h2, h.made, made_snoc]; simp
  | new f =>
    obtain ⟨h1, h2, h3⟩ := newField_spec s f
    refine ⟨fun e => ?_, fun _ x => ?_, fun g => ?_⟩
    · rw [show (step s (.new f)).predefined = true from h1] at e; cases e
    · rw [show (x ∈ (step s (.new f)).names) = (x ∈ (newField s f).names) from rfl, h3, inv_known h, known_snoc]; simp
    · rw [show (step s (.new f)).fields g = _ from h2 g, made_snoc, ← h.made]
      by_cases hg : g = f
      · simp [hg]
      · have : (Op.new f = Op.new g) ↔ False := by simp [Ne.symm hg]
        simp [hg, this]
  | configure f z a r =>
    obtain ⟨h1, h2, h3⟩ := configure_rest s f z a r
    exact inv_keep h h1 h2 h3 ⟨nofun, nofun⟩
  | setAccess f m =>
    obtain ⟨h1, h2, h3⟩ := setAccess_rest s f m
    exact inv_keep h h1 h2 h3 ⟨nofun, nofun⟩

theorem run_snoc (ops : List Op) (o : Op) : run (ops ++ [o]) = step (run ops) o := by
  unfold run; rw [List.foldl_append]; rfl

theorem snocInd {α} {P : List α → Prop} (h0 : P []) (h1 : ∀ l a, P l → P (l ++ [a])) (l : List α) : P l := by
  rw [← List.reverse_reverse l]
  induction l.reverse with
  | nil => exact h0
  | cons a l ih => rw [List.reverse_cons]; exact h1 _ _ ih

theorem inv_run (ops : List Op) : Inv ops (run ops) := by
  induction ops using snocInd with
  | h0 => exact ⟨fun _ => ⟨rfl, fun _ => rfl, nofun, nofun⟩, nofun, fun f => by simp [run, init, Made]⟩
  | h1 l a ih => rw [run_snoc]; exact inv_step ih a

theorem made_state {ops : List Op} {f : Nat} (h : Made ops f) : ∃ x, (run ops).fields f = some x :=
  Option.isSome_iff_exists.1 (((inv_run ops).made f).2 h)

theorem made_pre {ops : List Op} {f : Nat} (h : Made ops f) : (run ops).predefined = true := by
  cases hp : (run ops).predefined with
  | true => rfl
  | false => exact absurd h (((inv_run ops).fresh hp).2.2.2 f)

theorem made_names {ops : List Op} {f : Nat} (h : Made ops f) (n : Str) : n ∈ (run ops).names ↔ Known ops n :=
  (inv_run ops).names (made_pre h) n

/-! ### C260: policies by name -/

/-- The policy a field has after a history. -/
def accessOf (ops : List Op) (f : Nat) : Option Str := ((run ops).fields f).map (·.access)

/-- `define_access` answers True exactly if the name, in any case, is neither built in nor defined before: at any time, also as
the first thing that happens to the class. -/
theorem C260_define (ops : List Op) (name : Str) :
    (define (run ops) name).2 = true ↔ ¬ Known ops (name.map Char.toUpper) := by
  rw [(define_spec (run ops) name).2.2.2, inv_known (inv_run ops)]; rfl

/-- The second definition of a name is refused, and a built-in name is refused from the start. -/
example : (define (run []) "w1c".toList).2 = false ∧ (define (run []) "Sticky".toList).2 = true ∧
    (define (run [.define "sticky".toList, .new 0]) "STICKY".toList).2 = false := by decide +kernel

/-- `configure` gives a field the policy named, in capitals, if it is known at that time, and RW otherwise. -/
theorem C260_configure (ops : List Op) (f z : Nat) (a : Str) (r : Bool) (h : Made ops f) :
    (Known ops (a.map Char.toUpper) → accessOf (ops ++ [.configure f z a r]) f = some (a.map Char.toUpper)) ∧
    (¬ Known ops (a.map Char.toUpper) → accessOf (ops ++ [.configure f z a r]) f = some "RW".toList) := by
  obtain ⟨x, hx⟩ := made_state h
  have e : accessOf (ops ++ [.configure f z a r]) f =
      some (if upper a ∈ (run ops).names then upper a else "RW".toList) := by
    unfold accessOf; rw [run_snoc]
    simp only [step, configure, hx, setField, ↓reduceIte, Option.map_some]
  rw [e]
  constructor <;> intro hk
  · have hn : upper a ∈ (run ops).names := (made_names h _).2 hk
    rw [if_pos hn]; rfl
  · have hn : ¬ upper a ∈ (run ops).names := fun hn => hk ((made_names h _).1 hn)
    rw [if_neg hn]

/-- `set_access` answers the policy before; it changes it to the one named, in capitals, if that is known, and changes nothing
otherwise. -/
theorem C260_set (ops : List Op) (f : Nat) (m : Str) (h : Made ops f) :
    (setAccess (run ops) f m).2 = accessOf ops f ∧
    (Known ops (m.map Char.toUpper) → accessOf (ops ++ [.setAccess f m]) f = some (m.map Char.toUpper)) ∧
    (¬ Known ops (m.map Char.toUpper) → run (ops ++ [.setAccess f m]) = run ops) := by
  obtain ⟨x, hx⟩ := made_state h
  refine ⟨?_, fun hk => ?_, fun hk => ?_⟩
  · unfold accessOf setAccess; rw [hx]; dsimp only; split <;> rfl
  · have hn : upper m ∈ (run ops).names := (made_names h _).2 hk
    unfold accessOf; rw [run_snoc]
    simp only [step, setAccess, hx, if_pos hn, setField, ↓reduceIte, Option.map_some]; rfl
  · have hn : ¬ upper m ∈ (run ops).names := fun hn => hk ((made_names h _).1 hn)
    rw [run_snoc]; simp only [step, setAccess, hx, if_neg hn]

/-- Nothing but what is done to a field itself changes its policy. -/
theorem C260_others (ops : List Op) (o : Op) (f : Nat) (h : Spec.touches f o = false) :
    accessOf (ops ++ [o]) f = accessOf ops f := by
  unfold accessOf; rw [run_snoc]
  cases o with
  | define n => rw [show (step (run ops) (.define n)).fields = _ from (define_spec (run ops) n).2.1]
  | new g =>
    have hg : ¬ f = g := fun e => by simp [Spec.touches, e] at h
    rw [show (step (run ops) (.new g)).fields f = _ from (newField_spec (run ops) g).2.1 f, if_neg hg]
  | configure g z a r =>
    have hg : ¬ f = g := fun e => by simp [Spec.touches, e] at h
    simp only [step, configure]
    cases (run ops).fields g with
    | none => rfl
    | some x => simp only [setField, if_neg hg]
  | setAccess g m =>
    have hg : ¬ f = g := fun e => by simp [Spec.touches, e] at h
    simp only [step, setAccess]
    cases (run ops).fields g with
    | none => rfl
    | some x =>
      dsimp only
      split
      · simp only [setField, if_neg hg]
      · rfl

/-- At all times the policy of a field that has been given one is a known policy in capitals: no history of wrong names makes a
field with a policy nobody defined. -/
theorem C260_always_known (ops : List Op) (f : Nat) (a : Str) (h : accessOf ops f = some a) : a = [] ∨ Known ops a := by
  induction ops using snocInd generalizing a with
  | h0 => simp [accessOf, run, init] at h
  | h1 l o ih =>
    have mono : ∀ {a}, (a = [] ∨ Known l a) → (a = [] ∨ Known (l ++ [o]) a) := fun
      | .inl e => .inl e
      | .inr e => .inr ((known_snoc l o _).2 (.inl e))
    by_cases ht : Spec.touches f o = false
    · rw [C260_others l o f ht] at h; exact mono (ih a h)
    · cases o with
      | define n => simp [Spec.touches] at ht
      | new g =>
        have hg : g = f := by simpa [Spec.touches] using ht
        subst hg
        unfold accessOf at h; rw [run_snoc, show (step (run l) (.new g)).fields g = _ from (newField_spec (run l) g).2.1 g] at h
        simp at h; exact .inl h
      | configure g z b r =>
        have hg : g = f := by simpa [Spec.touches] using ht
        subst hg
        by_cases hm : Made l g
        · obtain ⟨h1, h2⟩ := C260_configure l g z b r hm
          by_cases hk : Known l (b.map Char.toUpper)
          · rw [h1 hk] at h; exact mono (.inr (Option.some.inj h ▸ hk))
          · rw [h2 hk] at h; exact .inr (Option.some.inj h ▸ .inl (by decide +kernel))
        · have : (run l).fields g = none := by
            cases e : (run l).fields g with
            | none => rfl
            | some x => exact absurd (((inv_run l).made g).1 (by rw [e]; rfl)) hm
          unfold accessOf at h; rw [run_snoc] at h; simp [step, configure, this] at h
      | setAccess g m =>
        have hg : g = f := by simpa [Spec.touches] using ht
        subst hg
        by_cases hm : Made l g
        · obtain ⟨_, h1, h2⟩ := C260_set l g m hm
          by_cases hk : Known l (m.map Char.toUpper)
          · rw [h1 hk] at h; exact mono (.inr (Option.some.inj h ▸ hk))
          · unfold accessOf at h; rw [h2 hk] at h; exact mono (ih a h)
        · have : (run l).fields g = none := by
            cases e : (run l).fields g with
            | none => rfl
            | some x => exact absurd (((inv_run l).made g).1 (by rw [e]; rfl)) hm
          unfold accessOf at h; rw [run_snoc] at h; simp [step, setAccess, this] at h

/-- A field that was wrongly configured, then set to a policy defined meanwhile, then wrongly set. -/
example : let ops : List Op := [.new 0, .configure 0 8 "sticky".toList true, .define "Sticky".toList, .setAccess 0 "sticky".toList,
      .setAccess 0 "none".toList]
    accessOf (ops.take 2) 0 = some "RW".toList ∧ accessOf ops 0 = some "STICKY".toList := by decide +kernel

/-! ### C261: is_known_access -/

/-- `is_known_access` without restrictions (back door, or full rights in the map) tells built-in policies from others; through
a map with read-only rights also, apart from the policies of fields that can only be written; through a map with any other
rights it is never true. -/
theorem C261_known (ops : List Op) (f : Nat) (a : Str) (_h : accessOf ops f = some a) :
    (isKnown none a = 1 ↔ a ∈ builtin) ∧ (isKnown (some "RW".toList) a = 1 ↔ a ∈ builtin) ∧
    (isKnown (some "RO".toList) a = 1 ↔ a ∈ builtin ∧ a ∉ Spec.writeOnly) ∧
    (∀ r, r ≠ "RW".toList → r ≠ "RO".toList → isKnown (some r) a = 0) := by
  have sub : ∀ x, x ∈ knownAccesses ↔ x ∈ builtin := fun x => by
    constructor
    · intro h; exact (show ∀ y ∈ knownAccesses, y ∈ builtin by decide +kernel) x h
    · intro h; exact (show ∀ y ∈ builtin, y ∈ knownAccesses by decide +kernel) x h
  have one : ∀ r, isKnown r a = 1 ↔ getAccess r a ∈ builtin := fun r => by
    unfold isKnown; rw [← sub]; by_cases hr : getAccess r a ∈ knownAccesses <;> simp [hr]
  refine ⟨one none, ?_, ?_, fun r h1 h2 => ?_⟩
  · rw [one]; rfl
  · rw [one]
    by_cases ha : a ∈ builtin
    · exact (show ∀ x ∈ builtin, getAccess (some "RO".toList) x ∈ builtin ↔ x ∈ builtin ∧ x ∉ Spec.writeOnly by
        decide +kernel) a ha
    · have n1 : a ∉ ["RW", "RO", "WC", "WS", "W1C", "W1S", "W1T", "W0C", "W0S", "W0T", "W1"].map String.toList := fun h =>
        ha ((show ∀ y ∈ ["RW", "RO", "WC", "WS", "W1C", "W1S", "W1T", "W0C", "W0S", "W0T", "W1"].map String.toList, y ∈ builtin by
          decide +kernel) a h)
      have n2 : a ∉ ["RC", "WRC", "W1SRC", "W0SRC", "WSRC"].map String.toList := fun h =>
        ha ((show ∀ y ∈ ["RC", "WRC", "W1SRC", "W0SRC", "WSRC"].map String.toList, y ∈ builtin by decide +kernel) a h)
      have n3 : a ∉ ["RS", "WRS", "W1CRS", "W0CRS", "WCRS"].map String.toList := fun h =>
        ha ((show ∀ y ∈ ["RS", "WRS", "W1CRS", "W0CRS", "WCRS"].map String.toList, y ∈ builtin by decide +kernel) a h)
      have n4 : a ∉ ["WO", "WOC", "WOS", "WO1"].map String.toList := fun h =>
        ha ((show ∀ y ∈ ["WO", "WOC", "WOS", "WO1"].map String.toList, y ∈ builtin by decide +kernel) a h)
      have e : getAccess (some "RO".toList) a = a := by
        unfold getAccess; dsimp only
        rw [if_neg (by decide), if_pos rfl, if_neg n1, if_neg n2, if_neg n3, if_neg n4]
      rw [e]; simp [ha]
  · have e : getAccess (some r) a = "NOACCESS".toList := by
      unfold getAccess; dsimp only
      rw [if_neg h1, if_neg h2]
      split
      · decide
      · rfl
    unfold isKnown; rw [e]; decide +kernel

example : accessOf [.define "mine".toList, .new 0, .configure 0 4 "Mine".toList false, .new 1, .configure 1 4 "wo".toList false] 0 =
    some "MINE".toList := by decide +kernel

/-! ### C262: fields that must not be randomized -/

/-- The user guide: if the policy of a field is pre-defined and not one of those that can be written as they are, `is_rand` is
ignored and the field is not randomized; and a field configured with `is_rand` False is not randomized either. -/
def C262_statement : Prop :=
  ∀ ops f z a r, Made ops f → (r = false ∨ (upper a ∈ builtin ∧ upper a ∉ Spec.randomizable)) →
    ((run (ops ++ [.configure f z a r])).fields f).bind randomValues = none

/-- Every field that is configured is randomized over all its values, whatever its policy and whatever `is_rand`. -/
theorem C262_every_field_random_fails (ops : List Op) (f z : Nat) (a : Str) (r : Bool) (h : Made ops f) (hz : 0 < z) :
    ((run (ops ++ [.configure f z a r])).fields f).bind randomValues = some (List.range (2 ^ z)) := by
  obtain ⟨x, hx⟩ := made_state h
  rw [run_snoc]
  simp only [step, configure, hx, setField, ↓reduceIte, Option.bind_some, randomValues, Option.map_some]
  rw [if_neg (by omega), Nat.one_shiftLeft]

theorem C262_statement_fails : ¬ C262_statement := fun h => by
  have h1 := h [.new 0] 0 1 "RO".toList false (by simp [Made]) (.inl rfl)
  have h2 := C262_every_field_random_fails [.new 0] 0 1 "RO".toList false (by simp [Made]) (by decide)
  rw [h1] at h2; cases h2

/-! ### C263: texts of actions -/

theorem and_bit (a k : Nat) : (a &&& 2 ^ k ≠ 0) ↔ a.testBit k = true := by
  constructor
  · intro h
    cases ht : a.testBit k with
    | true => rfl
    | false =>
      refine absurd (Nat.eq_of_testBit_eq fun i => ?_) h
      rw [Nat.testBit_and, Nat.testBit_two_pow, Nat.zero_testBit]
      by_cases hi : k = i
      · subst hi; simp [ht]
      · simp [hi]
  · intro h e
    have := congrArg (Nat.testBit · k) e
    simp [Nat.testBit_and, Nat.testBit_two_pow, h] at this

/-- The text of a list of seven bits. -/
def bitText (b0 b1 b2 b3 b4 b5 b6 : Bool) : Str :=
  let s : Str := []
  let s := if b0 = true then s ++ "DISPLAY ".toList else s
  let s := if b1 = true then s ++ "LOG ".toList else s
  let s := if b6 = true then s ++ "RM_RECORD ".toList else s
  let s := if b2 = true then s ++ "COUNT ".toList else s
  let s := if b4 = true then s ++ "CALL_HOOK ".toList else s
  let s := if b3 = true then s ++ "EXIT ".toList else s
  let s := if b5 = true then s ++ "STOP ".toList else s
  s

theorem format_bits (a : Nat) (h : a ≠ 0) :
    formatAction a = bitText (a.testBit 0) (a.testBit 1) (a.testBit 2) (a.testBit 3) (a.testBit 4) (a.testBit 5) (a.testBit 6) := by
  unfold formatAction bitText
  rw [if_neg h]
  simp only [← and_bit, Nat.reducePow]

/-- The text of an action is "UVM_NO_ACTION" for no action, and otherwise the names of the actions that are set. -/
theorem C263_format (a : Nat) :
    (a = 0 → formatAction a = "UVM_NO_ACTION".toList) ∧ (a ≠ 0 → formatAction a = Spec.actionText a) := by
  refine ⟨fun h => by rw [h]; rfl, fun h => ?_⟩
  rw [format_bits a h]
  unfold Spec.actionText Spec.actionNames
  simp only [List.filter_cons, List.filter_nil]
  generalize a.testBit 0 = b0, a.testBit 1 = b1, a.testBit 2 = b2, a.testBit 3 = b3, a.testBit 4 = b4, a.testBit 5 = b5,
    a.testBit 6 = b6
  revert b0 b1 b2 b3 b4 b5 b6
  decide +kernel

/-- Reading a text of `bitText` back. -/
def bitsOf (s : Str) : List Bool :=
  let ws := Text.splitOn ' ' s
  ["DISPLAY", "LOG", "COUNT", "EXIT", "CALL_HOOK", "STOP", "RM_RECORD"].map fun w => ws.contains w.toList

theorem bitsOf_text : ∀ b0 b1 b2 b3 b4 b5 b6, bitsOf (bitText b0 b1 b2 b3 b4 b5 b6) = [b0, b1, b2, b3, b4, b5, b6] := by
  decide +kernel

/-- Different sets of the seven actions have different texts. -/
theorem C263_injective (a b : Nat) (ha : a < 128) (hb : b < 128) (h : formatAction a = formatAction b) : a = b := by
  have zero : ∀ b0 b1 b2 b3 b4 b5 b6, bitText b0 b1 b2 b3 b4 b5 b6 ≠ "UVM_NO_ACTION".toList := by decide +kernel
  by_cases h0 : a = 0
  · by_cases h1 : b = 0
    · rw [h0, h1]
    · rw [format_bits b h1, h0] at h; exact (zero _ _ _ _ _ _ _ h.symm).elim
  · by_cases h1 : b = 0
    · rw [format_bits a h0, h1] at h; exact (zero _ _ _ _ _ _ _ h).elim
    · rw [format_bits a h0, format_bits b h1] at h
      have e := congrArg bitsOf h
      rw [bitsOf_text, bitsOf_text] at e
      simp only [List.cons.injEq, and_true] at e
      apply Nat.eq_of_testBit_eq
      intro i
      by_cases hi : i < 7
      · obtain ⟨e0, e1, e2, e3, e4, e5, e6⟩ := e
        match i, hi with
        | 0, _ => exact e0
        | 1, _ => exact e1
        | 2, _ => exact e2
        | 3, _ => exact e3
        | 4, _ => exact e4
        | 5, _ => exact e5
        | 6, _ => exact e6
      · have p : 128 ≤ 2 ^ i := by
          have := Nat.pow_le_pow_right (show 0 < 2 by decide) (show 7 ≤ i by omega)
          omega
        rw [Nat.testBit_lt_two_pow (by omega), Nat.testBit_lt_two_pow (by omega)]

example : formatAction 0b1000101 = "DISPLAY RM_RECORD COUNT ".toList := by decide +kernel

/-- The text of an action cannot be read with `uvm_string_to_action`: what comes back is no action at all, for every action. -/
theorem C264_read_back_fails (a : Nat) : Text.stringToAction (formatAction a) = 0 := by
  by_cases h : a = 0
  · rw [h]; decide +kernel
  · rw [format_bits a h]
    generalize a.testBit 0 = b0, a.testBit 1 = b1, a.testBit 2 = b2, a.testBit 3 = b3, a.testBit 4 = b4, a.testBit 5 = b5,
      a.testBit 6 = b6
    revert b0 b1 b2 b3 b4 b5 b6
    decide +kernel

end Verif.Policy
