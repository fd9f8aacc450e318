import Verif.Spec.MapTree
/-!
# Lemmas about maps and submaps
-/
namespace Verif.MapTree

abbrev par (s : State) (m : Nat) : Option Nat := (s.map m).parent
abbrev keys (s : State) (m : Nat) : List Nat := (s.map m).subs.map Prod.fst

theorem under_iff {par : Nat → Option Nat} {x p a : Nat} (h : par x = some p) : Under par x a ↔ p = a ∨ Under par p a := by
  constructor
  · intro hu
    cases hu with
    | base h' => rw [h] at h'; cases h'; exact .inl rfl
    | up h' hu => rw [h] at h'; cases h'; exact .inr hu
  · rintro (rfl | hu)
    · exact .base h
    · exact .up h hu

theorem not_under {par : Nat → Option Nat} {x a : Nat} (h : par x = none) : ¬ Under par x a := by
  intro hu
  cases hu with
  | base h' => rw [h] at h'; cases h'
  | up h' _ => rw [h] at h'; cases h'

theorem under_rank {par : Nat → Option Nat} {r : Nat → Nat} (hr : ∀ x p, par x = some p → r p < r x) {x a : Nat} (h : Under par x a) : r a < r x := by
  induction h with
  | base h => exact hr _ _ h
  | up h _ ih => exact Nat.lt_trans ih (hr _ _ h)

theorem under_compare {par : Nat → Option Nat} {x a b : Nat} (ha : Under par x a) (hb : Under par x b) : a = b ∨ Under par a b ∨ Under par b a := by
  induction ha with
  | base h =>
    rcases (under_iff h).1 hb with rfl | hb
    · exact .inl rfl
    · exact .inr (.inl hb)
  | up h hu ih =>
    rcases (under_iff h).1 hb with rfl | hb
    · exact .inr (.inr hu)
    · exact ih hb

theorem under_last {par : Nat → Option Nat} {x a : Nat} (h : Under par x a) : par x = some a ∨ ∃ c, par c = some a ∧ Under par x c := by
  induction h with
  | base h => exact .inl h
  | up h hu ih =>
    rcases ih with ih | ⟨c, h1, h2⟩
    · exact .inr ⟨_, ih, .base h⟩
    · exact .inr ⟨c, h1, .up h h2⟩

theorem under_trans {par : Nat → Option Nat} {x y a : Nat} (h : Under par x y) (h' : Under par y a) : Under par x a := by
  induction h with
  | base h => exact .up h h'
  | up h _ ih => exact .up h (ih h')

theorem climb_iff {bp : Nat → Option Nat} {rank : Nat → Nat} (hr : ∀ b p, bp b = some p → rank p < rank b) (tgt : Nat) :
    ∀ (n b : Nat), rank b < n → ((climb bp tgt n (some b)).isSome = true ↔ Under bp b tgt) := by
  intro n
  induction n with
  | zero => intro b h; omega
  | succ n ih =>
    intro b h
    rw [climb]
    by_cases hb : bp b = some tgt
    · rw [if_pos hb]; simp; exact .base hb
    · rw [if_neg hb]
      cases hp : bp b with
      | none =>
        have : climb bp tgt n none = none := by cases n <;> rfl
        rw [this]; simp; exact not_under hp
      | some p =>
        rw [ih p (by have := hr b p hp; omega), under_iff hp]
        constructor
        · exact .inr
        · rintro (rfl | h)
          · exact absurd hp hb
          · exact h

theorem put_keys (l : List (Nat × Nat)) (k v : Nat) : (put l k v).map Prod.fst = if k ∈ l.map Prod.fst then l.map Prod.fst else l.map Prod.fst ++ [k] := by
  unfold put
  split
  · rw [List.map_map]
    apply List.map_congr_left
    intro e _
    show Prod.fst (if e.1 = k then (k, v) else e) = e.1
    split
    · rename_i h; exact h.symm
    · rfl
  · simp

theorem put_mem (l : List (Nat × Nat)) (k v x : Nat) : x ∈ (put l k v).map Prod.fst ↔ x = k ∨ x ∈ l.map Prod.fst := by
  rw [put_keys]
  split
  · rename_i h
    constructor
    · exact .inr
    · rintro (rfl | h')
      · exact h
      · exact h'
  · rw [List.mem_append, List.mem_singleton, or_comm]

theorem put_nodup (l : List (Nat × Nat)) (k v : Nat) (h : (l.map Prod.fst).Nodup) : ((put l k v).map Prod.fst).Nodup := by
  rw [put_keys]
  split
  · exact h
  · rename_i hk
    exact List.nodup_append.2 ⟨h, by simp, by intro a ha b hb; simp at hb; subst hb; exact fun e => hk (e ▸ ha)⟩

theorem put_lookup (l : List (Nat × Nat)) (k v x : Nat) : (put l k v).lookup x = if x = k then some v else l.lookup x := by
  unfold put
  by_cases hk : k ∈ l.map Prod.fst
  · rw [if_pos hk]
    induction l with
    | nil => cases hk
    | cons e l ih =>
      obtain ⟨a, b⟩ := e
      by_cases ha : a = k
      · subst ha
        by_cases hx : x = a
        · subst hx; simp [List.lookup]
        · have hxa : (x == a) = false := by simpa using hx
          have hm : List.lookup x (l.map fun e => if e.1 = a then (a, v) else e) = List.lookup x l := by
            clear ih hk
            induction l with
            | nil => rfl
            | cons e l ih =>
              obtain ⟨c, d⟩ := e
              by_cases hc : c = a
              · subst hc; simp [List.lookup, hxa]; exact ih
              · simp [List.lookup, hc]; rw [ih]
          simp [List.lookup, hxa, hx]; exact hm
      · have hk' : k ∈ l.map Prod.fst := by
          simp only [List.map_cons, List.mem_cons] at hk
          rcases hk with h | h
          · exact absurd h.symm ha
          · exact h
        have := ih hk'
        simp only [List.map_cons, if_neg ha, List.lookup]
        by_cases hx : x = a
        · subst hx; simp [ha]
        · have hxa : (x == a) = false := by simpa using hx
          rw [hxa]; exact this
  · rw [if_neg hk]
    rw [List.lookup_append]
    by_cases hx : x = k
    · subst hx
      have : List.lookup x l = none := by
        rw [List.lookup_eq_none_iff]
        intro e he
        have : e.1 ∈ l.map Prod.fst := List.mem_map.2 ⟨e, he, rfl⟩
        simp only [bne_iff_ne, beq_eq_false_iff_ne, ne_eq]
        intro h; exact hk (h ▸ this)
      rw [this]; simp [List.lookup]
    · have hxa : (x == k) = false := by simpa using hx
      simp [List.lookup, hxa, hx]

/-- The invariant of what can be built. -/
structure Inv (bp : Nat → Option Nat) (s : State) : Prop where
  fresh : ∀ m, s.count ≤ m → par s m = none ∧ keys s m = []
  both : ∀ c p, par s c = some p ↔ c ∈ keys s p
  nodup : ∀ p, (keys s p).Nodup
  below : ∀ c p, par s c = some p → Under bp (s.map c).block (s.map p).block
  maps : ∀ b m, m ∈ s.maps b ↔ m < s.count ∧ (s.map m).block = b

theorem inv_init (bp : Nat → Option Nat) : Inv bp init where
  fresh _ _ := ⟨rfl, rfl⟩
  both c p := by simp [par, keys, init]
  nodup p := by simp [keys, init]
  below c p h := by simp [par, init] at h
  maps b m := by simp [init]

theorem inv_create {bp : Nat → Option Nat} {s : State} (hi : Inv bp s) (b base nb e : Nat) : Inv bp (createMap s b base nb e) := by
  have hpar : ∀ m, par (createMap s b base nb e) m = par s m := by
    intro m
    simp only [par, createMap, upd]
    split
    · rename_i h; subst h; exact (hi.fresh _ (Nat.le_refl _)).1.symm
    · rfl
  have hkeys : ∀ m, keys (createMap s b base nb e) m = keys s m := by
    intro m
    simp only [keys, createMap, upd]
    split
    · rename_i h; subst h; exact (hi.fresh _ (Nat.le_refl _)).2.symm
    · rfl
  have hblk : ∀ m, m ≠ s.count → ((createMap s b base nb e).map m).block = (s.map m).block := by
    intro m h
    simp only [createMap, upd, if_neg h]
  refine ⟨fun m hm => ?_, fun c p => ?_, fun p => ?_, fun c p h => ?_, fun b' m => ?_⟩
  · rw [hpar, hkeys]
    exact hi.fresh m (by simp only [createMap] at hm; omega)
  · rw [hpar, hkeys]; exact hi.both c p
  · rw [hkeys]; exact hi.nodup p
  · rw [hpar] at h
    have hc : c ≠ s.count := by rintro rfl; have := (hi.fresh _ (Nat.le_refl _)).1; rw [this] at h; cases h
    have hp : p ≠ s.count := by
      rintro rfl
      have := (hi.both _ _).1 h
      rw [(hi.fresh _ (Nat.le_refl _)).2] at this; cases this
    rw [hblk c hc, hblk p hp]
    exact hi.below c p h
  · show m ∈ (upd s.maps b (s.maps b ++ [s.count])) b' ↔ m < s.count + 1 ∧ _
    simp only [upd, createMap]
    by_cases hm : m = s.count
    · subst hm
      have h1 : s.count ∉ s.maps b' := fun h => by have := ((hi.maps _ _).1 h).1; omega
      have h2 : s.count ∉ s.maps b := fun h => by have := ((hi.maps _ _).1 h).1; omega
      by_cases hb : b' = b
      · subst hb; simp
      · simp [hb, h1]; exact fun h => hb h.symm
    · rw [if_neg hm]
      by_cases hb : b' = b
      · subst hb
        rw [if_pos rfl, List.mem_append, List.mem_singleton, hi.maps]
        constructor
        · rintro (⟨h1, h2⟩ | h)
          · exact ⟨by omega, h2⟩
          · exact absurd h hm
        · rintro ⟨h1, h2⟩; exact .inl ⟨by omega, h2⟩
      · rw [if_neg hb, hi.maps]
        constructor
        · rintro ⟨h1, h2⟩; exact ⟨by omega, h2⟩
        · rintro ⟨h1, h2⟩; exact ⟨by omega, h2⟩

/-- Adding a submap sets the parent and the offset. -/
theorem link_map (s : State) (c p off m : Nat) :
    ((setOffset (addParent s c p off) p (some c) off).1.map m).block = (s.map m).block ∧
    par (setOffset (addParent s c p off) p (some c) off).1 m = (if m = c then some p else par s m) ∧
    ((setOffset (addParent s c p off) p (some c) off).1.map m).subs = (if m = p then put (s.map p).subs c off else (s.map m).subs) ∧
    ((setOffset (addParent s c p off) p (some c) off).1.map m).nBytes = (s.map m).nBytes := by
  have hput : put (put (s.map p).subs c off) c off = put (s.map p).subs c off := by
    generalize s.map p = q
    unfold put
    by_cases h : c ∈ q.subs.map Prod.fst
    · have h' : c ∈ (q.subs.map fun e => if e.1 = c then (c, off) else e).map Prod.fst := by
        have := (put_mem q.subs c off c).2 (.inl rfl)
        unfold put at this; rwa [if_pos h] at this
      simp only [if_pos h, if_pos h']
      rw [List.map_map]
      apply List.map_congr_left
      intro e _
      show (if (if e.1 = c then (c, off) else e).1 = c then (c, off) else (if e.1 = c then (c, off) else e)) = _
      by_cases he : e.1 = c
      · simp [he]
      · simp [he]
    · have h' : c ∈ (q.subs ++ [(c, off)]).map Prod.fst := by simp
      simp only [if_neg h, if_pos h']
      rw [List.map_append]
      congr 1
      · rw [List.map_congr_left (g := id)]
        · simp
        · intro e he
          have : e.1 ≠ c := fun hc => h (hc ▸ List.mem_map.2 ⟨e, he, rfl⟩)
          simp [this]
      · simp
  have hs : ∀ x, (upd s.map c { s.map c with parent := some p } x).subs = (s.map x).subs := by
    intro x
    simp only [upd]
    split
    · rename_i h; subst h; rfl
    · rfl
  simp only [setOffset, addParent, par]
  by_cases hp : m = p
  · subst hp
    by_cases hc : m = c
    · subst hc
      simp [upd, hput]
    · simp [upd, hc, hput]
  · by_cases hc : m = c
    · subst hc; simp [upd, hp]
    · simp [upd, hp, hc]

theorem addSubmap_some {bp : Nat → Option Nat} {rank : Nat → Nat} {n : Nat} (hb : BlockTree bp rank n) (s : State) (p c off : Nat) :
    (par s c = none ∧ Under bp (s.map c).block (s.map p).block ∧
      addSubmap bp n s p (some c) off =
        ((setOffset (addParent s c p off) p (some c) off).1, if (s.map p).nBytes > (s.map c).nBytes then .warned else .ok)) ∨
    (∃ q, par s c = some q ∧ addSubmap bp n s p (some c) off = (s, .error)) ∨
    (par s c = none ∧ ¬ Under bp (s.map c).block (s.map p).block ∧ addSubmap bp n s p (some c) off = (s, .raised)) := by
  have hc := climb_iff hb.1 (s.map p).block n (s.map c).block (hb.2 _)
  unfold addSubmap
  dsimp only
  cases hq : (s.map c).parent with
  | some q =>
    rw [if_pos (by rfl)]
    exact .inr (.inl ⟨q, hq, rfl⟩)
  | none =>
    rw [if_neg (by simp)]
    cases hcl : climb bp (s.map p).block n (some (s.map c).block) with
    | none =>
      rw [hcl] at hc
      refine .inr (.inr ⟨hq, fun h => ?_, rfl⟩)
      have := hc.2 h; cases this
    | some x =>
      rw [hcl] at hc
      exact .inl ⟨hq, hc.1 rfl, rfl⟩

theorem inv_link {bp : Nat → Option Nat} {s : State} (hi : Inv bp s) (c p off : Nat) (hp : p < s.count) (hc : c < s.count)
    (hn : par s c = none) (hu : Under bp (s.map c).block (s.map p).block) : Inv bp (setOffset (addParent s c p off) p (some c) off).1 := by
  have L := link_map s c p off
  have hkeys : ∀ m, keys (setOffset (addParent s c p off) p (some c) off).1 m = if m = p then (put (s.map p).subs c off).map Prod.fst else keys s m := by
    intro m
    simp only [keys]
    rw [(L m).2.2.1]
    split <;> rfl
  have hcount : (setOffset (addParent s c p off) p (some c) off).1.count = s.count := rfl
  refine ⟨fun m hm => ?_, fun x q => ?_, fun q => ?_, fun x q h => ?_, fun b m => ?_⟩
  · rw [hcount] at hm
    have := hi.fresh m hm
    rw [(L m).2.1, hkeys, if_neg (by omega), if_neg (by omega)]
    exact this
  · rw [(L x).2.1, hkeys]
    by_cases hx : x = c
    · subst hx
      rw [if_pos rfl]
      by_cases hq : q = p
      · subst hq
        rw [if_pos rfl, put_mem]; simp
      · rw [if_neg hq]
        constructor
        · intro h; cases h; exact absurd rfl hq
        · intro h
          have := (hi.both _ _).2 h
          rw [hn] at this; cases this
    · rw [if_neg hx]
      by_cases hq : q = p
      · subst hq
        rw [if_pos rfl, put_mem, hi.both]
        constructor
        · exact .inr
        · rintro (h | h)
          · exact absurd h hx
          · exact h
      · rw [if_neg hq]; exact hi.both x q
  · rw [hkeys]
    split
    · rename_i h; exact put_nodup _ _ _ (hi.nodup p)
    · exact hi.nodup q
  · rw [(L x).2.1] at h
    rw [(L x).1, (L q).1]
    by_cases hx : x = c
    · subst hx
      rw [if_pos rfl] at h; cases h; exact hu
    · rw [if_neg hx] at h
      exact hi.below x q h
  · show m ∈ s.maps b ↔ m < s.count ∧ _
    rw [(L m).1]; exact hi.maps b m

theorem inv_same {bp : Nat → Option Nat} {s s' : State} (hi : Inv bp s) (h1 : s'.count = s.count) (h2 : s'.maps = s.maps)
    (h3 : ∀ m, (s'.map m).parent = (s.map m).parent ∧ (s'.map m).subs.map Prod.fst = (s.map m).subs.map Prod.fst ∧ (s'.map m).block = (s.map m).block) :
    Inv bp s' := by
  refine ⟨fun m hm => ?_, fun c p => ?_, fun p => ?_, fun c p h => ?_, fun b m => ?_⟩
  · rw [par, keys, (h3 m).1, (h3 m).2.1]; exact hi.fresh m (h1 ▸ hm)
  · rw [par, keys, (h3 c).1, (h3 p).2.1]; exact hi.both c p
  · rw [keys, (h3 p).2.1]; exact hi.nodup p
  · rw [par, (h3 c).1] at h; rw [(h3 c).2.2, (h3 p).2.2]; exact hi.below c p h
  · rw [h1, h2, (h3 m).2.2]; exact hi.maps b m

theorem inv_reach {bp : Nat → Option Nat} {rank : Nat → Nat} {n : Nat} (hb : BlockTree bp rank n) {s : State} (h : Reachable bp n s) : Inv bp s := by
  induction h with
  | init => exact inv_init bp
  | step h op hl ih =>
    rename_i s
    cases op with
    | create b base nb e => exact inv_create ih b base nb e
    | setDefault b m => exact inv_same ih rfl rfl fun _ => ⟨rfl, rfl, rfl⟩
    | addSubmap p c off =>
      cases c with
      | none => exact ih
      | some c =>
        show Inv bp (addSubmap bp n s p (some c) off).1
        rcases addSubmap_some hb s p c off with ⟨h1, h2, h3⟩ | ⟨q, h1, h3⟩ | ⟨h1, h2, h3⟩
        · rw [h3]; exact inv_link ih c p off hl.1 (hl.2 c rfl) h1 h2
        · rw [h3]; exact ih
        · rw [h3]; exact ih
    | setOffset p c off =>
      cases c with
      | none => exact ih
      | some c =>
        refine inv_same ih rfl rfl fun m => ?_
        show ((upd s.map p { s.map p with subs := put (s.map p).subs c off }) m).parent = _ ∧ _
        simp only [upd, step, setOffset]
        split
        · rename_i hm
          subst hm
          refine ⟨rfl, ?_, rfl⟩
          show (put (s.map m).subs c off).map Prod.fst = _
          rw [put_keys, if_pos]
          exact (ih.both c m).1 (hl c rfl)
        · exact ⟨rfl, rfl, rfl⟩
    | setSequencer m q a =>
      cases q with
      | none => exact ih
      | some q =>
        refine inv_same ih rfl rfl fun x => ?_
        show ((upd s.map m { s.map m with sqr := some q, adapter := a }) x).parent = _ ∧ ((upd s.map m { s.map m with sqr := some q, adapter := a }) x).subs.map _ = _ ∧
          ((upd s.map m { s.map m with sqr := some q, adapter := a }) x).block = _
        simp only [upd]
        split
        · rename_i hm; subst hm; exact ⟨rfl, rfl, rfl⟩
        · exact ⟨rfl, rfl, rfl⟩

theorem mapM_some {α β} (f : α → Option β) (g : α → β) : ∀ l : List α, (∀ x ∈ l, f x = some (g x)) → l.mapM f = some (l.map g) := by
  intro l
  induction l with
  | nil => intro _; rfl
  | cons x l ih =>
    intro h
    rw [List.mapM_cons, h x List.mem_cons_self, ih fun y hy => h y (List.mem_cons_of_mem _ hy)]
    rfl

theorem rank_par {bp : Nat → Option Nat} {rank : Nat → Nat} {n : Nat} (hb : BlockTree bp rank n) {s : State} (hi : Inv bp s) :
    ∀ c p, par s c = some p → rank (s.map p).block < rank (s.map c).block :=
  fun c p h => under_rank hb.1 (hi.below c p h)

theorem root_spec {bp : Nat → Option Nat} {rank : Nat → Nat} {n : Nat} (hb : BlockTree bp rank n) {s : State} (hi : Inv bp s) :
    ∀ (d m : Nat), rank (s.map m).block ≤ d → ∃ r, (∀ fuel, d < fuel → root s fuel m = some r) ∧ par s r = none ∧ (m = r ∨ Under (par s) m r) := by
  intro d
  induction d with
  | zero =>
    intro m h
    cases hp : par s m with
    | none =>
      refine ⟨m, fun fuel hf => ?_, hp, .inl rfl⟩
      obtain ⟨f, rfl⟩ : ∃ f, fuel = f + 1 := ⟨fuel - 1, by omega⟩
      have : (s.map m).parent = none := hp
      rw [root, this]
    | some p => have := rank_par hb hi m p hp; omega
  | succ d ih =>
    intro m h
    cases hp : par s m with
    | none =>
      refine ⟨m, fun fuel hf => ?_, hp, .inl rfl⟩
      obtain ⟨f, rfl⟩ : ∃ f, fuel = f + 1 := ⟨fuel - 1, by omega⟩
      have : (s.map m).parent = none := hp
      rw [root, this]
    | some p =>
      obtain ⟨r, h1, h2, h3⟩ := ih p (by have := rank_par hb hi m p hp; omega)
      refine ⟨r, fun fuel hf => ?_, h2, .inr ((under_iff hp).2 ?_)⟩
      · obtain ⟨f, rfl⟩ : ∃ f, fuel = f + 1 := ⟨fuel - 1, by omega⟩
        have : (s.map m).parent = some p := hp
        rw [root, this]
        exact h1 f (by omega)
      · rcases h3 with h3 | h3
        · exact .inl h3
        · exact .inr h3

theorem hier_root {α} (s : State) (f : M → α) : ∀ (fuel m : Nat), hier s f fuel m = (root s fuel m).map fun r => f (s.map r) := by
  intro fuel
  induction fuel with
  | zero => intro m; rfl
  | succ fuel ih =>
    intro m
    rw [hier, root]
    cases h : (s.map m).parent with
    | none => rfl
    | some p => exact ih p

theorem submaps_spec {bp : Nat → Option Nat} {rank : Nat → Nat} {n : Nat} (hb : BlockTree bp rank n) {s : State} (hi : Inv bp s) :
    ∀ (d m : Nat), n ≤ rank (s.map m).block + d → ∃ l, (∀ fuel, d < fuel → submaps s fuel m = some l) ∧ l.Nodup ∧ ∀ x, x ∈ l ↔ Under (par s) x m := by
  intro d
  induction d with
  | zero => intro m h; have := hb.2 (s.map m).block; omega
  | succ d ih =>
    intro m h
    have hch : ∀ c ∈ keys s m, ∃ l, (∀ fuel, d < fuel → submaps s fuel c = some l) ∧ l.Nodup ∧ ∀ x, x ∈ l ↔ Under (par s) x c := by
      intro c hc
      apply ih
      have := rank_par hb hi c m ((hi.both c m).2 hc)
      omega
    let g : Nat → List Nat := fun c => (submaps s (d + 1) c).getD []
    have hg : ∀ c ∈ keys s m, (∀ fuel, d < fuel → submaps s fuel c = some (g c)) ∧ (g c).Nodup ∧ ∀ x, x ∈ g c ↔ Under (par s) x c := by
      intro c hc
      obtain ⟨l, h1, h2, h3⟩ := hch c hc
      have : g c = l := by show (submaps s (d + 1) c).getD [] = l; rw [h1 (d + 1) (by omega)]; rfl
      rw [this]; exact ⟨h1, h2, h3⟩
    have hrank := fun x a (h : Under (par s) x a) => under_rank (r := fun m => rank (s.map m).block) (rank_par hb hi) h
    refine ⟨keys s m ++ ((keys s m).map g).flatten, fun fuel hf => ?_, ?_, fun x => ?_⟩
    · obtain ⟨f, rfl⟩ : ∃ f, fuel = f + 1 := ⟨fuel - 1, by omega⟩
      rw [submaps]
      have := mapM_some (submaps s f) g (keys s m) (fun c hc => (hg c hc).1 f (by omega))
      show (do let rest ← (keys s m).mapM (submaps s f); some (keys s m ++ rest.flatten)) = _
      rw [this]; rfl
    · rw [List.nodup_append]
      refine ⟨hi.nodup m, ?_, ?_⟩
      · show List.Pairwise _ _
        rw [List.pairwise_flatten]
        refine ⟨fun l hl => ?_, ?_⟩
        · obtain ⟨c, hc, rfl⟩ := List.mem_map.1 hl
          exact (hg c hc).2.1
        · rw [List.pairwise_map]
          apply List.Pairwise.imp_of_mem _ (hi.nodup m)
          intro a b ha hb' hne x hx y hy hxy
          subst hxy
          have hxa := ((hg a ha).2.2 x).1 hx
          have hxb := ((hg b hb').2.2 x).1 hy
          have hpa := (hi.both a m).2 ha
          have hpb := (hi.both b m).2 hb'
          rcases under_compare hxa hxb with e | e | e
          · exact hne e
          · rcases (under_iff hpa).1 e with e | e
            · subst e; have := rank_par hb hi _ _ hpb; omega
            · have := hrank _ _ e; have := rank_par hb hi _ _ hpb; omega
          · rcases (under_iff hpb).1 e with e | e
            · subst e; have := rank_par hb hi _ _ hpa; omega
            · have := hrank _ _ e; have := rank_par hb hi _ _ hpa; omega
      · intro x hx y hy hxy
        subst hxy
        obtain ⟨l, hl, hxl⟩ := List.mem_flatten.1 hy
        obtain ⟨c, hc, rfl⟩ := List.mem_map.1 hl
        have h1 := ((hg c hc).2.2 x).1 hxl
        have hpx := (hi.both x m).2 hx
        have hpc := (hi.both c m).2 hc
        rcases (under_iff hpx).1 h1 with e | e
        · subst e; have := rank_par hb hi _ _ hpc; omega
        · have := hrank _ _ e; have := rank_par hb hi _ _ hpc; omega
    · rw [List.mem_append, List.mem_flatten]
      constructor
      · rintro (hx | ⟨l, hl, hx⟩)
        · exact .base ((hi.both x m).2 hx)
        · obtain ⟨c, hc, rfl⟩ := List.mem_map.1 hl
          exact under_trans (((hg c hc).2.2 x).1 hx) (.base ((hi.both c m).2 hc))
      · intro h
        rcases under_last h with h | ⟨c, h1, h2⟩
        · exact .inl ((hi.both x m).1 h)
        · have hc := (hi.both c m).1 h1
          exact .inr ⟨g c, List.mem_map.2 ⟨c, hc, rfl⟩, ((hg c hc).2.2 x).2 h2⟩

end Verif.MapTree
