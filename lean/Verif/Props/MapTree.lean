import Verif.Lemmas.MapTree
/-!
# C254 – C258: maps of blocks and submaps
-/
namespace Verif.MapTree

/-- C254.  However maps are made and put into each other, a map is a submap of at most one, of its `get_parent_map`; `get_root_map` ends,
at a map above it that has no parent; `get_submaps` ends and gives all maps below exactly once. -/
theorem C254_forest (bp : Nat → Option Nat) (rank : Nat → Nat) (n : Nat) (hb : BlockTree bp rank n) (s : State) (h : Reachable bp n s) :
    (∀ c p, (s.map c).parent = some p ↔ c ∈ (s.map p).subs.map Prod.fst) ∧
    (∀ m, ∃ r, (∀ fuel, n ≤ fuel → root s fuel m = some r) ∧ (s.map r).parent = none ∧ (m = r ∨ Under (fun x => (s.map x).parent) m r)) ∧
    (∀ m, ∃ l, (∀ fuel, n < fuel → submaps s fuel m = some l) ∧ l.Nodup ∧ ∀ x, x ∈ l ↔ Under (fun x => (s.map x).parent) x m) := by
  have hi := inv_reach hb h
  refine ⟨hi.both, fun m => ?_, fun m => submaps_spec hb hi n m (by omega)⟩
  obtain ⟨r, h1, h2, h3⟩ := root_spec hb hi (n - 1) m (by have := hb.2 (s.map m).block; omega)
  have := hb.2 (s.map m).block
  exact ⟨r, fun fuel hf => h1 fuel (by omega), h2, h3⟩

/-- C254.  The sequencer, adapter and endianness of a submap are those of its root map. -/
theorem C254_inherited {α} (s : State) (f : M → α) (fuel m r : Nat) (h : root s fuel m = some r) : hier s f fuel m = some (f (s.map r)) := by
  rw [hier_root, h]; rfl

/-- C254.  `add_submap` puts a map into another exactly if it is in none and its block is below the other's; it is then at the offset
given, and all else is as before. -/
theorem C254_add (bp : Nat → Option Nat) (rank : Nat → Nat) (n : Nat) (hb : BlockTree bp rank n) (s : State) (p c off : Nat) :
    let r := addSubmap bp n s p (some c) off
    ((r.2 = .ok ∨ r.2 = .warned) ↔ (s.map c).parent = none ∧ Under bp (s.map c).block (s.map p).block) ∧
    (r.2 = .warned → (s.map c).nBytes < (s.map p).nBytes) ∧
    ((r.2 = .ok ∨ r.2 = .warned) → (r.2 = .warned ↔ (s.map c).nBytes < (s.map p).nBytes) ∧ getOffset r.1 p c = some off ∧ (r.1.map c).parent = some p ∧
      (∀ x, x ≠ c → (r.1.map x).parent = (s.map x).parent) ∧ (∀ q x, q ≠ p ∨ x ≠ c → getOffset r.1 q x = getOffset s q x)) ∧
    (¬ (r.2 = .ok ∨ r.2 = .warned) → r.1 = s) := by
  intro r
  have hr : r = addSubmap bp n s p (some c) off := rfl
  clear_value r
  rcases addSubmap_some hb s p c off with ⟨h1, h2, h3⟩ | ⟨q, h1, h3⟩ | ⟨h1, h2, h3⟩
  · rw [h3] at hr
    have L := link_map s c p off
    have hok : r.2 = .ok ∨ r.2 = .warned := by
      rw [hr]; dsimp only; split
      · exact .inr rfl
      · exact .inl rfl
    have hw : r.2 = .warned ↔ (s.map c).nBytes < (s.map p).nBytes := by
      rw [hr]; dsimp only; split
      · rename_i h; exact ⟨fun _ => h, fun _ => rfl⟩
      · rename_i h; exact ⟨nofun, fun h' => absurd h' h⟩
    have hoff : ∀ q x, getOffset r.1 q x = if q = p then (put (s.map p).subs c off).lookup x else getOffset s q x := by
      intro q x
      rw [hr]
      show List.lookup x (M.subs _) = _
      rw [(L q).2.2.1]
      split <;> rfl
    refine ⟨⟨fun _ => ⟨h1, h2⟩, fun _ => hok⟩, hw.1, fun _ => ⟨hw, ?_, ?_, fun x hx => ?_, fun q x hqx => ?_⟩, fun h => absurd hok h⟩
    · rw [hoff, if_pos rfl, put_lookup, if_pos rfl]
    · rw [hr]; show par _ c = _; rw [(L c).2.1, if_pos rfl]
    · rw [hr]; show par _ x = _; rw [(L x).2.1, if_neg hx]
    · rw [hoff]
      by_cases hq : q = p
      · subst hq
        rw [if_pos rfl, put_lookup]
        rcases hqx with h | h
        · exact absurd rfl h
        · rw [if_neg h]; rfl
      · rw [if_neg hq]
  · rw [h3] at hr
    subst hr
    refine ⟨⟨fun h => ?_, fun h => ?_⟩, nofun, fun h => ?_, fun _ => rfl⟩
    · rcases h with h | h <;> cases h
    · have h1 : (s.map c).parent = some q := h1
      rw [h1] at h; cases h.1
    · rcases h with h | h <;> cases h
  · rw [h3] at hr
    subst hr
    refine ⟨⟨fun h => ?_, fun h => absurd h.2 h2⟩, nofun, fun h => ?_, fun _ => rfl⟩
    · rcases h with h | h <;> cases h
    · rcases h with h | h <;> cases h

/-- C254.  `set_submap_offset` of a submap changes its offset and nothing else. -/
theorem C254_move (s : State) (p c off : Nat) :
    getOffset (setOffset s p (some c) off).1 p c = some off ∧
    (∀ q x, q ≠ p ∨ x ≠ c → getOffset (setOffset s p (some c) off).1 q x = getOffset s q x) ∧
    (∀ x, ((setOffset s p (some c) off).1.map x).parent = (s.map x).parent) := by
  have hoff : ∀ q x, getOffset (setOffset s p (some c) off).1 q x = if q = p then (put (s.map p).subs c off).lookup x else getOffset s q x := by
    intro q x
    simp only [getOffset, setOffset, upd]
    split <;> rfl
  refine ⟨by rw [hoff, if_pos rfl, put_lookup, if_pos rfl], fun q x h => ?_, fun x => ?_⟩
  · rw [hoff]
    by_cases hq : q = p
    · subst hq
      rw [if_pos rfl, put_lookup]
      rcases h with h | h
      · exact absurd rfl h
      · rw [if_neg h]; rfl
    · rw [if_neg hq]
  · simp only [setOffset, upd]
    split
    · rename_i h; subst h; rfl
    · rfl

/-- Block 0 with the blocks 1 and 2, block 3 in 1; maps 0, 1, 2 and 3 of these. -/
def exBp : Nat → Option Nat := fun b => if b = 1 ∨ b = 2 then some 0 else if b = 3 then some 1 else none
def exOps : List Op := [.create 0 0x1000 4 0, .create 1 0 4 1, .create 2 0 8 0, .create 3 0 2 0, .addSubmap 0 (some 1) 0x100, .addSubmap 1 (some 3) 0x10,
  .addSubmap 0 (some 2) 0x200, .setOffset 0 (some 1) 0x300, .setSequencer 0 (some 9) none]

example : BlockTree exBp (fun b => if b = 3 then 2 else if b = 1 ∨ b = 2 then 1 else 0) 3 := by
  refine ⟨fun b p h => ?_, fun b => ?_⟩
  · unfold exBp at h
    split at h
    · rename_i hb; cases h; rcases hb with rfl | rfl <;> decide
    · split at h
      · rename_i hb; cases h; subst hb; decide
      · cases h
  · dsimp only
    split
    · omega
    · split <;> omega

example : Reachable exBp 3 (run exBp 3 init exOps) :=
  ((((((((Reachable.init.step (.create 0 0x1000 4 0) trivial).step (.create 1 0 4 1) trivial).step (.create 2 0 8 0) trivial).step (.create 3 0 2 0)
    trivial).step (.addSubmap 0 (some 1) 0x100) ⟨by decide, by intro x h; cases h; decide⟩).step (.addSubmap 1 (some 3) 0x10)
    ⟨by decide, by intro x h; cases h; decide⟩).step (.addSubmap 0 (some 2) 0x200) ⟨by decide, by intro x h; cases h; decide⟩).step
    (.setOffset 0 (some 1) 0x300) (by intro x h; cases h; decide)).step (.setSequencer 0 (some 9) none) (by decide : 0 < 4)
example : submaps (run exBp 3 init exOps) 4 0 = some [1, 2, 3] ∧ root (run exBp 3 init exOps) 3 3 = some 0 ∧
    hier (run exBp 3 init exOps) M.sqr 3 3 = some (some 9) ∧ getOffset (run exBp 3 init exOps) 0 1 = some 0x300 := by decide
/-- The second level is narrower: a warning. -/
example : (addSubmap exBp 3 (run exBp 3 init (exOps.take 5)) 1 (some 3) 0x10).2 = .warned := by decide

/-- C255, what holds: `None`, and a map that is a submap already, are refused with an error. -/
theorem C255_refused_partial (bp : Nat → Option Nat) (n : Nat) (s : State) (p off : Nat) :
    addSubmap bp n s p none off = (s, .error) ∧ setOffset s p none off = (s, .error) ∧
    ∀ c q, (s.map c).parent = some q → addSubmap bp n s p (some c) off = (s, .error) := by
  refine ⟨rfl, rfl, fun c q h => ?_⟩
  simp [addSubmap, h]

/-- C255 fails for every map of a block that is not below: `add_submap` raises instead of reporting an error. -/
theorem C255_foreign_block_fails (bp : Nat → Option Nat) (rank : Nat → Nat) (n : Nat) (hb : BlockTree bp rank n) (s : State) (p c off : Nat)
    (hc : (s.map c).parent = none) (hu : ¬ Under bp (s.map c).block (s.map p).block) : addSubmap bp n s p (some c) off = (s, .raised) := by
  rcases addSubmap_some hb s p c off with ⟨h1, h2, h3⟩ | ⟨q, h1, h3⟩ | ⟨h1, h2, h3⟩
  · exact absurd h2 hu
  · have h1 : (s.map c).parent = some q := h1
    rw [hc] at h1; cases h1
  · exact h3

/-- Two maps of the same block, and a map of the parent's block. -/
example : (addSubmap exBp 3 (run exBp 3 init [.create 0 0 4 0, .create 0 0 4 0]) 0 (some 1) 0).2 = .raised ∧
    (addSubmap exBp 3 (run exBp 3 init exOps) 2 (some 0) 0).2 = .raised := by decide

/-- C255 fails: `set_submap_offset` of any map that is not a submap is accepted, without any message; it is then listed as a submap but is
its own root. -/
theorem C255_set_offset_fails (s : State) (p c off n : Nat) (hc : (s.map c).parent = none) :
    (setOffset s p (some c) off).2 = .ok ∧ c ∈ ((setOffset s p (some c) off).1.map p).subs.map Prod.fst ∧
    root (setOffset s p (some c) off).1 (n + 1) c = some c := by
  refine ⟨rfl, ?_, ?_⟩
  · simp only [setOffset, upd, if_pos]
    exact (put_mem _ _ _ _).2 (.inl rfl)
  · rw [root]
    have : ((setOffset s p (some c) off).1.map c).parent = none := by
      rw [(C254_move s p c off).2.2 c, hc]
    rw [this]

example : submaps (step exBp 3 (run exBp 3 init (exOps.take 4)) (.setOffset 3 (some 0) 0)) 4 3 = some [0] := by decide

/-- Creating maps fills `maps` in order. -/
theorem step_maps (bp : Nat → Option Nat) (n : Nat) (s : State) (op : Op) (b : Nat) :
    ((∃ base nb e, op = .create b base nb e) ∧ (step bp n s op).maps b = s.maps b ++ [s.count] ∧
      (step bp n s op).dflt b = if s.maps b = [] then some s.count else s.dflt b) ∨
    ((∃ m, op = .setDefault b m ∧ (step bp n s op).dflt b = some m) ∧ (step bp n s op).maps b = s.maps b) ∨
    ((∀ base nb e, op ≠ .create b base nb e) ∧ (∀ m, op ≠ .setDefault b m) ∧ (step bp n s op).maps b = s.maps b ∧ (step bp n s op).dflt b = s.dflt b) := by
  cases op with
  | create b' base nb e =>
    by_cases h : b' = b
    · subst h
      refine .inl ⟨⟨base, nb, e, rfl⟩, by simp [step, createMap, upd], ?_⟩
      simp only [step, createMap, List.length_append, List.length_cons, List.length_nil]
      by_cases hm : s.maps b' = []
      · rw [if_pos (by rw [hm]; rfl), if_pos hm]; simp [upd]
      · rw [if_neg, if_neg hm]
        intro h0
        exact hm (List.eq_nil_of_length_eq_zero (by omega))
    · refine .inr (.inr ⟨fun _ _ _ h' => by cases h'; exact h rfl, nofun, ?_, ?_⟩)
      · simp [step, createMap, upd, Ne.symm h]
      · simp only [step, createMap]
        split
        · simp [upd, Ne.symm h]
        · rfl
  | setDefault b' m =>
    by_cases h : b' = b
    · subst h
      exact .inr (.inl ⟨⟨m, rfl, by simp [step, setDefault, upd]⟩, rfl⟩)
    · refine .inr (.inr ⟨nofun, fun _ h' => by cases h'; exact h rfl, rfl, ?_⟩)
      simp [step, setDefault, upd, Ne.symm h]
  | addSubmap p c off =>
    refine .inr (.inr ⟨nofun, nofun, ?_, ?_⟩)
    all_goals
      cases c with
      | none => rfl
      | some c =>
        simp only [step, addSubmap]
        split
        · rfl
        · split <;> rfl
  | setOffset p c off => cases c <;> exact .inr (.inr ⟨nofun, nofun, rfl, rfl⟩)
  | setSequencer m q a => cases q <;> exact .inr (.inr ⟨nofun, nofun, rfl, rfl⟩)

/-- C256.  The default map of a block is the first one made for it, unless one is set; once set (when the block has a map) it stays
until another is set, whatever else happens. -/
theorem C256_default (bp : Nat → Option Nat) (n : Nat) (b : Nat) (ops : List Op) :
    ((∀ m, .setDefault b m ∉ ops) → (run bp n init ops).dflt b = ((run bp n init ops).maps b).head?) ∧
    (∀ m more, (run bp n init ops).maps b ≠ [] → (∀ m', .setDefault b m' ∉ more) →
      (run bp n init (ops ++ .setDefault b m :: more)).dflt b = some m) := by
  constructor
  · intro h
    have key : ∀ (l : List Op) (s : State), (∀ m, .setDefault b m ∉ l) → s.dflt b = (s.maps b).head? →
        (run bp n s l).dflt b = ((run bp n s l).maps b).head? := by
      intro l
      induction l with
      | nil => intro s _ h; exact h
      | cons o l ih =>
        intro s hno hs
        apply ih _ fun m hm => hno m (List.mem_cons_of_mem _ hm)
        rcases step_maps bp n s o b with ⟨_, h2, h3⟩ | ⟨⟨m, rfl, _⟩, _⟩ | ⟨_, _, h3, h4⟩
        · rw [h2, h3]
          by_cases he : s.maps b = []
          · simp [he]
          · rw [if_neg he, hs]
            cases hm : s.maps b with
            | nil => exact absurd hm he
            | cons x l => rfl
        · exact absurd List.mem_cons_self (hno m)
        · rw [h3, h4]; exact hs
    exact key ops init h rfl
  · intro m more hne hmore
    have key : ∀ (l : List Op) (s : State), (∀ m', .setDefault b m' ∉ l) → s.dflt b = some m → s.maps b ≠ [] → (run bp n s l).dflt b = some m := by
      intro l
      induction l with
      | nil => intro s _ h _; exact h
      | cons o l ih =>
        intro s hno hs hm
        rcases step_maps bp n s o b with ⟨_, h2, h3⟩ | ⟨⟨m, rfl, _⟩, _⟩ | ⟨_, _, h3, h4⟩
        · exact ih _ (fun m hm => hno m (List.mem_cons_of_mem _ hm)) (by rw [h3, if_neg hm, hs]) (by rw [h2]; simp)
        · exact absurd List.mem_cons_self (hno m)
        · exact ih _ (fun m hm => hno m (List.mem_cons_of_mem _ hm)) (by rw [h4, hs]) (by rw [h3]; exact hm)
    simp only [run, List.foldl_append, List.foldl_cons]
    apply key
    · exact hmore
    · simp [step, setDefault, upd]
    · exact hne

/-- C256.  A map of another block is warned about, and only that. -/
theorem C256_foreign (bp : Nat → Option Nat) (rank : Nat → Nat) (n : Nat) (hb : BlockTree bp rank n) (s : State) (h : Reachable bp n s) (b m : Nat)
    (hm : m < s.count) : (setDefault s b m).2 = .warned ↔ (s.map m).block ≠ b := by
  have := (inv_reach hb h).maps b m
  simp only [setDefault]
  split
  · rename_i h; exact ⟨nofun, fun h' => absurd (this.1 h).2 h'⟩
  · rename_i h; exact ⟨fun _ h' => h (this.2 ⟨hm, h'⟩), fun _ => rfl⟩

example : (run exBp 3 init (exOps ++ [.create 0 0 4 0])).maps 0 = [0, 4] ∧ (run exBp 3 init (exOps ++ [.create 0 0 4 0])).dflt 0 = some 0 ∧
    (run exBp 3 init (exOps ++ [.create 0 0 4 0, .setDefault 0 4, .create 0 0 4 0])).dflt 0 = some 4 ∧
    (setDefault (run exBp 3 init exOps) 0 1).2 = .warned := by decide

/-- C257.  `get_map_by_name` gives a map exactly if a map of the block, or a map below one of them, has that name; it gives one that has,
and one of the block's own if there is one. -/
theorem C257_map_by_name (bp : Nat → Option Nat) (rank : Nat → Nat) (n : Nat) (hb : BlockTree bp rank n) (s : State) (h : Reachable bp n s)
    (nm : Nat → String) (b : Nat) (name : String) (fuel : Nat) (hf : n < fuel) :
    ∃ r, mapByName s nm fuel b name = some r ∧
      (r.isSome = true ↔ ∃ m, nm m = name ∧ (m ∈ s.maps b ∨ ∃ t ∈ s.maps b, Under (fun x => (s.map x).parent) m t)) ∧
      (∀ m, r = some m → nm m = name ∧ (m ∈ s.maps b ∨ ((∀ t ∈ s.maps b, nm t ≠ name) ∧ ∃ t ∈ s.maps b, Under (fun x => (s.map x).parent) m t))) := by
  have hs := (C254_forest bp rank n hb s h).2.2
  let g : Nat → List Nat := fun c => (submaps s fuel c).getD []
  have hg : ∀ c, submaps s fuel c = some (g c) ∧ ∀ x, x ∈ g c ↔ Under (fun x => (s.map x).parent) x c := by
    intro c
    obtain ⟨l, h1, _, h3⟩ := hs c
    have : g c = l := by show (submaps s fuel c).getD [] = l; rw [h1 fuel hf]; rfl
    rw [this]; exact ⟨h1 fuel hf, h3⟩
  unfold mapByName
  cases hfind : (s.maps b).find? (fun m => nm m = name) with
  | some m =>
    have h1 := List.find?_some hfind
    have h2 := List.mem_of_find?_eq_some hfind
    have h1 : nm m = name := by simpa using h1
    exact ⟨some m, rfl, ⟨fun _ => ⟨m, h1, .inl h2⟩, fun _ => rfl⟩, fun m' hm => by cases hm; exact ⟨h1, .inl h2⟩⟩
  | none =>
    have hno : ∀ t ∈ s.maps b, nm t ≠ name := by
      intro t ht
      have := List.find?_eq_none.1 hfind t ht
      simpa using this
    dsimp only
    rw [mapM_some (submaps s fuel) g _ (fun c _ => (hg c).1)]
    refine ⟨_, rfl, ?_, ?_⟩
    · rw [List.findSome?_isSome_iff]
      constructor
      · rintro ⟨l, hl, hx⟩
        obtain ⟨c, hc, rfl⟩ := List.mem_map.1 hl
        rw [List.find?_isSome] at hx
        obtain ⟨x, hx, hn⟩ := hx
        exact ⟨x, by simpa using hn, .inr ⟨c, hc, ((hg c).2 x).1 hx⟩⟩
      · rintro ⟨m, hm, hm' | ⟨t, ht, hu⟩⟩
        · exact absurd hm (hno m hm')
        · refine ⟨g t, List.mem_map.2 ⟨t, ht, rfl⟩, ?_⟩
          rw [List.find?_isSome]
          exact ⟨m, ((hg t).2 m).2 hu, by simpa using hm⟩
    · intro m hm
      obtain ⟨l, hl, hx⟩ := List.exists_of_findSome?_eq_some hm
      obtain ⟨c, hc, rfl⟩ := List.mem_map.1 hl
      have h1 := List.find?_some hx
      have h2 := List.mem_of_find?_eq_some hx
      exact ⟨by simpa using h1, .inr ⟨hno, c, hc, ((hg c).2 m).1 h2⟩⟩

example : mapByName (run exBp 3 init exOps) (fun m => if m = 3 then "deep" else "map") 4 0 "deep" = some (some 3) ∧
    mapByName (run exBp 3 init exOps) (fun m => if m = 3 then "deep" else "map") 4 0 "map" = some (some 0) ∧
    mapByName (run exBp 3 init exOps) (fun m => if m = 3 then "deep" else "map") 4 2 "deep" = some none := by decide

/-- C258 fails for every register: `write_reg_by_name` raises whenever the register exists. -/
theorem C258_write_by_name_fails (s : RegBlock.State) (n b r : Nat) (name : String) (h : RegBlock.getRegByName s n b name = some (some r)) :
    writeRegByName s n b name = some none := by
  simp [writeRegByName, h]

/-- C258, what holds: without such a register nothing is written, and no status is given. -/
theorem C258_no_register_partial (s : RegBlock.State) (n b : Nat) (name : String) (h : RegBlock.getRegByName s n b name = some none) :
    writeRegByName s n b name = some (some []) := by
  simp [writeRegByName, h]

example : writeRegByName (RegBlock.run (RegBlock.init fun _ => "r") [.new "top", .reg 7 0]) 3 0 "r" = some none ∧
    writeRegByName (RegBlock.run (RegBlock.init fun _ => "r") [.new "top", .reg 7 0]) 3 0 "x" = some (some []) := by decide

end Verif.MapTree
