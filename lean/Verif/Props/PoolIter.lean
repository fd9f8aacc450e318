import Verif.Model.PoolIter
/-! # C314, C316: `for` loops over pools -/
namespace Verif.PoolIter
variable {α V : Type} [DecidableEq α]

theorem lookup_mem (items : List (Key α × V)) (k : Key α) (v : V) (h : getItem items k = some v) : (k, v) ∈ items := by
  induction items with
  | nil => simp [getItem, Pool.lookup] at h
  | cons p items ih =>
    obtain ⟨k', v'⟩ := p
    simp only [getItem, Pool.lookup] at h
    split at h
    · next hk => simp only [Option.some.injEq] at h; subst hk; subst h; simp
    · exact List.mem_cons_of_mem _ (ih h)

/-- The loop stops at the first number that is no key, if it is allowed to get there. -/
theorem iterFrom_spec (items : List (Key α × V)) (fuel i : Nat) : ∃ n, n ≤ fuel ∧ (∀ j, j < n → getItem items (.int (i + j)) ≠ none) ∧
    (n < fuel → getItem items (.int (i + n)) = none) ∧ iterFrom items fuel i = (List.range n).filterMap (fun j => getItem items (.int (i + j))) := by
  induction fuel generalizing i with
  | zero => exact ⟨0, by omega, by omega, by omega, rfl⟩
  | succ fuel ih =>
    cases h : getItem items (.int i) with
    | none => exact ⟨0, by omega, by omega, fun _ => h, by simp [iterFrom, h]⟩
    | some v =>
      obtain ⟨n, h1, h2, h3, h4⟩ := ih (i + 1)
      refine ⟨n + 1, by omega, ?_, ?_, ?_⟩
      · intro j hj
        cases j with
        | zero => simp [h]
        | succ j => have := h2 j (by omega); rwa [show i + (j + 1) = i + 1 + j by omega]
      · intro hn
        have := h3 (by omega); rwa [show i + (n + 1) = i + 1 + n by omega]
      · simp only [iterFrom, h, h4, List.range_succ_eq_map, List.filterMap_cons, List.filterMap_map, Nat.add_zero]
        congr 2
        funext j
        simp [Function.comp, show i + (j + 1) = i + 1 + j by omega]

theorem sub_length {β : Type} [DecidableEq β] (l l' : List β) (h : l.Nodup) (hs : ∀ x ∈ l, x ∈ l') : l.length ≤ l'.length := by
  induction l generalizing l' with
  | nil => simp
  | cons a l ih =>
    obtain ⟨h1, h2⟩ := List.nodup_cons.1 h
    have ha := hs a (by simp)
    have := ih (l'.erase a) h2 fun x hx => (List.mem_erase_of_ne fun e => h1 (by rwa [← e])).2 (hs x (by simp [hx]))
    rw [List.length_erase_of_mem ha] at this
    have : 0 < l'.length := List.length_pos_of_mem ha
    simp only [List.length_cons]
    omega

/-- As many requests as there are items, and one, are enough. -/
theorem keys_bound (items : List (Key α × V)) (n : Nat) (h : ∀ j, j < n → getItem items (.int j) ≠ none) : n ≤ items.length := by
  have h1 : ((List.range n).map (Key.int (α := α))).length ≤ (items.map (·.1)).length := by
    apply sub_length
    · exact List.pairwise_map.2 (List.nodup_range.imp fun hab he => hab (Key.int.inj he))
    · intro k hk
      obtain ⟨j, hj, rfl⟩ := List.mem_map.1 hk
      cases hv : getItem items (.int j) with
      | none => exact absurd hv (h j (List.mem_range.1 hj))
      | some v => exact List.mem_map.2 ⟨_, lookup_mem items _ v hv, rfl⟩
  simpa using h1

/-- C314, part: the values of the keys 0, 1, ... up to the first number that is no key.  Missing: the keys of the pool
(`C314_keys_not_visited_fails`, `C314_values_visited_fails`). -/
theorem C314_loop_partial (items : List (Key α × V)) : ∃ n, (∀ j, j < n → getItem items (.int j) ≠ none) ∧ getItem items (.int n) = none ∧
    (iter items).length = n ∧ ∀ j, j < n → (iter items)[j]? = getItem items (.int j) := by
  obtain ⟨n, h1, h2, h3, h4⟩ := iterFrom_spec items (items.length + 1) 0
  simp only [Nat.zero_add] at h2 h3 h4
  have hb := keys_bound items n h2
  have h5 : ∀ n, (∀ j, j < n → getItem items (.int j) ≠ none) → ((List.range n).filterMap fun j => getItem items (.int j)).length = n ∧
      ∀ j, j < n → ((List.range n).filterMap fun j => getItem items (.int j))[j]? = getItem items (.int j) := by
    intro n
    induction n with
    | zero => intro _; exact ⟨rfl, by omega⟩
    | succ n ih =>
      intro h
      obtain ⟨i1, i2⟩ := ih fun j hj => h j (by omega)
      cases hv : getItem items (.int n) with
      | none => exact absurd hv (h n (by omega))
      | some v =>
        rw [List.range_succ, List.filterMap_append]
        simp only [List.filterMap_cons, hv, List.filterMap_nil]
        refine ⟨by simp [i1], fun j hj => ?_⟩
        by_cases hjn : j < n
        · rw [List.getElem?_append_left (by omega), i2 j hjn]
        · have : j = n := by omega
          subst this
          rw [List.getElem?_append_right (by omega), i1, hv]; simp
  refine ⟨n, h2, h3 (by omega), ?_, ?_⟩
  · unfold iter; rw [h4]; exact (h5 n h2).1
  · intro j hj; unfold iter; rw [h4]; exact (h5 n h2).2 j hj

/-- C314 fails: if 0 is not a key, nothing is visited, whatever the pool has. -/
theorem C314_keys_not_visited_fails (items : List (Key α × V)) (h : ∀ v, (Key.int 0, v) ∉ items) : iter items = [] := by
  have : getItem items (.int 0) = none := by
    cases hv : getItem items (.int 0) with
    | none => rfl
    | some v => exact absurd (lookup_mem items _ v hv) (h v)
  simp [iter, iterFrom, this]

/-- C314 fails: where there are integer keys, the values are visited, not the keys. -/
theorem C314_values_visited_fails : ∃ items : List (Key String × String), items.map (·.1) = [.int 0, .int 1, .int 3] ∧ iter items = ["a", "b"] :=
  ⟨[(.int 0, "a"), (.int 1, "b"), (.int 3, "c")], rfl, by decide⟩

example : iter [(Key.other "a", 1), (Key.other "b", 2)] = [] ∧ iter [((Key.int 1 : Key String), 5), (.int 0, 4)] = [4, 5] := by decide

/-! ## C316 -/

theorem door_spec (m : Nat) (t : List (Option Nat)) (hnd : (t.filterMap id).Nodup) (s : Ind) (hf : ∀ r, some r ∈ t → (r, m) ∉ s.inMap) :
    addFrontdoors m t s = { s with
      doors := s.doors ++ (t.filterMap id).map (fun r => (r, m)), inMap := s.inMap ++ (t.filterMap id).map (fun r => (r, m)),
      errors := s.errors + t.countP (· = none) } := by
  induction t generalizing s with
  | nil => simp [addFrontdoors]
  | cons o t ih =>
    cases o with
    | none =>
      simp only [addFrontdoors]
      rw [ih (by simpa using hnd) { s with errors := s.errors + 1 } fun r hr => hf r (by simp [hr])]
      simp only [List.filterMap_cons, id, List.countP_cons]
      congr 1
      simp; omega
    | some r =>
      have hnd' : r ∉ t.filterMap id ∧ (t.filterMap id).Nodup := by simpa using hnd
      simp only [addFrontdoors, if_neg (hf r (by simp))]
      rw [ih hnd'.2 { s with doors := s.doors ++ [(r, m)], inMap := s.inMap ++ [(r, m)] } fun r' hr' => by
        simp only [List.mem_append, List.mem_singleton, Prod.mk.injEq, and_true, not_or]
        refine ⟨hf r' (by simp [hr']), ?_⟩
        rintro rfl
        exact hnd'.1 (List.mem_filterMap.2 ⟨_, hr', rfl⟩)]
      simp

/-- C316, part: when the data register is configured before it is put into maps, its table has no register twice, and its registers are in none
of the maps, then every register of the table has a front door in every map, nothing else has, and no call raises; each `None` in
the table is reported, once for each map.  Missing: maps added before (`C316_configure_after_maps_fails`), registers that are in the map
already (`C316_register_in_map_fails`). -/
theorem C316_configure_first_partial (tbl : List (Option Nat)) (hnd : (tbl.filterMap id).Nodup) (inMap : List (Nat × Nat)) (maps : List Nat) (hm : maps.Nodup)
    (hf : ∀ r m, some r ∈ tbl → m ∈ maps → (r, m) ∉ inMap) :
    let s := (maps.map IOp.addMap).foldl istep (istep { inMap := inMap } (.configure tbl))
    (∀ r m, (r, m) ∈ s.doors ↔ some r ∈ tbl ∧ m ∈ maps) ∧ s.errors = maps.length * tbl.countP (· = none) ∧ s.raised = false := by
  have h : ∀ (maps : List Nat) (s : Ind), maps.Nodup → s.tbl = tbl → (∀ r m, some r ∈ tbl → m ∈ maps → (r, m) ∉ s.inMap) →
      (∀ r m, (r, m) ∈ ((maps.map IOp.addMap).foldl istep s).doors ↔ (r, m) ∈ s.doors ∨ (some r ∈ tbl ∧ m ∈ maps)) ∧
      ((maps.map IOp.addMap).foldl istep s).errors = s.errors + maps.length * tbl.countP (· = none) ∧
      ((maps.map IOp.addMap).foldl istep s).raised = s.raised := by
    intro maps
    induction maps with
    | nil => intro s _ _ _; simp
    | cons a maps ih =>
      intro s hnm hs hf
      obtain ⟨hn1, hn2⟩ := List.nodup_cons.1 hnm
      simp only [List.map_cons, List.foldl_cons]
      have e := door_spec a s.tbl (by rw [hs]; exact hnd) { s with maps := if a ∈ s.maps then s.maps else s.maps ++ [a] }
        (by intro r hr; rw [hs] at hr; exact hf r a hr (by simp))
      have e' : istep s (.addMap a) = _ := e
      obtain ⟨i1, i2, i3⟩ := ih (istep s (.addMap a)) hn2 (by rw [e']; exact hs) (by
        intro r m hr hm
        rw [e']
        simp only [List.mem_append, List.mem_map, Prod.mk.injEq, not_or, not_exists, not_and]
        refine ⟨hf r m hr (by simp [hm]), fun x _ _ hx => ?_⟩
        subst hx; exact hn1 hm)
      refine ⟨fun r m => ?_, ?_, ?_⟩
      · rw [i1, e', hs]
        simp only [List.mem_append, List.mem_map, List.mem_filterMap, id, Prod.mk.injEq, List.mem_cons]
        grind
      · rw [i2, e', hs]
        simp only [List.length_cons, Nat.add_mul]
        omega
      · rw [i3, e']
  have h0 : istep { inMap := inMap } (.configure tbl) = { inMap := inMap, tbl := tbl } := by
    simp [istep, doorLoop, iter, iterFrom, getItem, Pool.lookup]
  intro s
  have hs : s = (maps.map IOp.addMap).foldl istep { inMap := inMap, tbl := tbl } := by rw [← h0]
  obtain ⟨h1, h2, h3⟩ := h maps { inMap := inMap, tbl := tbl } hm rfl hf
  rw [hs]
  exact ⟨fun r m => by rw [h1]; simp, by rw [h2]; simp, h3⟩

example : ([7, 8].map IOp.addMap).foldl istep (istep {} (.configure [some 1, none])) =
    { maps := [7, 8], tbl := [some 1, none], doors := [(1, 7), (1, 8)], inMap := [(1, 7), (1, 8)], errors := 2 } := by decide

/-- C316 fails: when the first register of the table is in the map already, adding the data register to the map raises and nothing gets a front
door. -/
theorem C316_register_in_map_fails (s : Ind) (r m : Nat) (t : List (Option Nat)) (ht : s.tbl = some r :: t) (h : (r, m) ∈ s.inMap) :
    (istep s (.addMap m)).raised = true ∧ (istep s (.addMap m)).doors = s.doors := by
  simp [istep, ht, addFrontdoors, h]

/-- C316 fails: no register of the table has a front door in a map that the data register was put into before. -/
theorem C316_configure_after_maps_fails (tbl : List (Option Nat)) (maps : List Nat) :
    (istep ((maps.map IOp.addMap).foldl istep {}) (.configure tbl)).doors = [] := by
  have h : ∀ (maps : List Nat) (s : Ind), s.tbl = [] → s.doors = [] → ((maps.map IOp.addMap).foldl istep s).doors = [] := by
    intro maps
    induction maps with
    | nil => intro s _ h; exact h
    | cons a maps ih =>
      intro s h1 h2
      simp only [List.map_cons, List.foldl_cons]
      exact ih _ (by simp [istep, h1, addFrontdoors]) (by simp [istep, h1, h2, addFrontdoors])
  have h0 : ∀ ms : List Nat, iter (ms.map fun m => (Key.other m, 1)) = [] := by
    intro ms
    apply C314_keys_not_visited_fails
    intro v hv
    obtain ⟨x, _, e⟩ := List.mem_map.1 hv
    cases e
  simp only [istep, h0, doorLoop]
  exact h maps {} rfl rfl

end Verif.PoolIter
