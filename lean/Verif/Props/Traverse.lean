import Verif.Lemmas.Traverse
/-! # C48: phase traversals; C77: finding components -/
namespace Verif.Traverse

theorem desc_filter_mem {act : Nat → Bool} {full l : List Nat} (h : l = full.filter act) (hn : full.Nodup) : l.Nodup := by
  rw [h]; exact List.Nodup.sublist List.filter_sublist hn

/-- C48, the part that holds for top-down phases: whenever the traversal ends, it has dealt with the components of the
domain in an order that lists the whole tree, as it is at the end (including components created by parents when their turn
came), every component once, parents before children, siblings in order of creation; provided that what is done for a
component touches only that component and those below it.
Missing: callbacks that move the iteration of another component (`C48_find_fails`, `C48_endless_fails`). -/
theorem C48_topdown_partial {ex : Nat → State → State} (hex : Builds ex) (act : Nat → Bool) (m n c : Nat) (s s' : State)
    (log : List Nat) (ht : Tree s) (hc : c < s.next) (h : topdown ex act m n c s = some (s', log)) :
    ∃ full, Pre s'.kids [c] full ∧ log = full.filter act ∧ full.Nodup ∧ ∀ x, x ∈ full ↔ Desc s'.kids c x := by
  have hD := topdown_done hex act m n c s _ ht hc h
  obtain ⟨full, hp, hl⟩ := hD.pre
  refine ⟨full, hp, hl, pre_nodup hD.below.tree hp ⟨by simp, ?_⟩, fun x => ⟨fun hx => ?_, fun hx => ?_⟩⟩
  · intro a ha b hb hne
    exact absurd ((List.mem_singleton.mp ha).trans (List.mem_singleton.mp hb).symm) hne
  · obtain ⟨d, hd, hdx⟩ := pre_desc hp x hx
    obtain rfl := List.mem_singleton.mp hd
    exact hdx
  · exact pre_all hp c (List.mem_singleton.mpr rfl) x hx

/-- C48: it always ends when no components are created. -/
theorem C48_topdown_ends {ex : Nat → State → State} (hex : Keeps ex) (act : Nat → Bool) (m n c : Nat) (s : State)
    (ht : Tree s) (hc : c < s.next) (hn : s.next ≤ n + c) (hm : ∀ d, (s.kids d).length ≤ m) :
    ∃ s' log full, topdown ex act m n c s = some (s', log) ∧ Pre s.kids [c] full ∧ log = full.filter act := by
  obtain ⟨r, hr, hk, _⟩ := topdown_some hex act m n c s ht hc hn hm
  obtain ⟨full, hp, hl, _⟩ := C48_topdown_partial (keeps_builds hex) act m n c s r.1 r.2 ht hc hr
  exact ⟨r.1, r.2, full, hr, hk ▸ hp, hl⟩

/-- C48, the part that holds for bottom-up phases: the traversal ends and deals with the components of the domain in an
order that lists the whole tree, every component once, children before parents, siblings in order of creation; provided that
what is done for a component creates nothing and moves only pointers at or below it. -/
theorem C48_bottomup_partial {ex : Nat → State → State} (hex : Keeps ex) (act : Nat → Bool) (m n c : Nat) (s : State)
    (ht : Tree s) (hc : c < s.next) (hn : s.next ≤ n + c) (hm : ∀ d, (s.kids d).length ≤ m) :
    ∃ s' log full, bottomup ex act m n c s = some (s', log) ∧ Post s.kids [c] full ∧ log = full.filter act ∧ full.Nodup ∧
      ∀ x, x ∈ full ↔ Desc s.kids c x := by
  obtain ⟨r, hr⟩ := bottomup_some hex act m n c s ht hc hn hm
  have hS := bottomup_same hex act m n c s r ht hr
  obtain ⟨full, hp, hl⟩ := hS.post
  refine ⟨r.1, r.2, full, hr, hp, hl, post_nodup ht hp ⟨by simp, ?_⟩, fun x => ⟨fun hx => ?_, fun hx => ?_⟩⟩
  · intro a ha b hb hne
    exact absurd ((List.mem_singleton.mp ha).trans (List.mem_singleton.mp hb).symm) hne
  · obtain ⟨d, hd, hdx⟩ := post_desc hp x hx
    obtain rfl := List.mem_singleton.mp hd
    exact hdx
  · exact post_all hp c (List.mem_singleton.mpr rfl) x hx

/-- C48: a task phase is started for the components of the domain children first, whatever the iteration pointers. -/
theorem C48_task (s : State) (ht : Tree s) (act : Nat → Bool) (n c : Nat) (log : List Nat)
    (h : taskOrder s.kids act n c = some log) :
    ∃ full, Post s.kids [c] full ∧ log = full.filter act ∧ full.Nodup ∧ ∀ x, x ∈ full ↔ Desc s.kids c x := by
  obtain ⟨full, hp, hl⟩ := task_post s.kids act n c log h
  refine ⟨full, hp, hl, post_nodup ht hp ⟨by simp, ?_⟩, fun x => ⟨fun hx => ?_, fun hx => ?_⟩⟩
  · intro a ha b hb hne
    exact absurd ((List.mem_singleton.mp ha).trans (List.mem_singleton.mp hb).symm) hne
  · obtain ⟨d, hd, hdx⟩ := post_desc hp x hx
    obtain rfl := List.mem_singleton.mp hd
    exact hdx
  · exact post_all hp c (List.mem_singleton.mpr rfl) x hx

/-- C77. `find_all` returns the matching components at or below the given one, each once. -/
theorem C77_find_all (act : Nat → Bool) (m n c : Nat) (s : State) (ht : Tree s) (hc : c < s.next) (hn : s.next ≤ n + c)
    (hm : ∀ d, (s.kids d).length ≤ m) :
    ∃ s' found, findAll act m n c s = some (s', found) ∧ found.Nodup ∧
      (∀ x, x ∈ found ↔ Desc s.kids c x ∧ act x = true) ∧ s'.kids = s.kids := by
  obtain ⟨r, hr, hS⟩ := find_same act m n c s ht hc hn hm
  obtain ⟨full, hp, hl⟩ := hS.post
  have hnd : full.Nodup := by
    refine post_nodup ht hp ⟨by simp, ?_⟩
    intro a ha b hb hne
    exact absurd ((List.mem_singleton.mp ha).trans (List.mem_singleton.mp hb).symm) hne
  refine ⟨r.1, r.2, hr, desc_filter_mem hl hnd, fun x => ?_, hS.kids⟩
  rw [hl, List.mem_filter]
  constructor
  · rintro ⟨hx, ha⟩
    obtain ⟨d, hd, hdx⟩ := post_desc hp x hx
    obtain rfl := List.mem_singleton.mp hd
    exact ⟨hdx, ha⟩
  · rintro ⟨hd, ha⟩
    exact ⟨post_all hp c (List.mem_singleton.mpr rfl) x hd, ha⟩

/-- C77. They come in the order of the tree: what is below a component before it, siblings in order of creation. -/
theorem C77_find_order (act : Nat → Bool) (m n c : Nat) (s : State) (ht : Tree s) (hc : c < s.next) (hn : s.next ≤ n + c)
    (hm : ∀ d, (s.kids d).length ≤ m) :
    ∃ s' full, Post s.kids [c] full ∧ findAll act m n c s = some (s', full.filter act) := by
  obtain ⟨r, hr, hS⟩ := find_same act m n c s ht hc hn hm
  obtain ⟨full, hp, hl⟩ := hS.post
  exact ⟨r.1, full, hp, by rw [hr, ← hl]⟩

/-- A root with the children 1, 2 and 3. -/
def flat : State := ⟨fun c => if c = 0 then [1, 2, 3] else [], fun _ => 0, 4⟩

theorem flat_tree : Tree flat := by
  refine ⟨?_, ?_, ?_⟩
  · intro p x h
    by_cases hp : p = 0
    · subst hp
      have : x = 1 ∨ x = 2 ∨ x = 3 := by simpa [flat] using h
      have hn : flat.next = 4 := rfl
      omega
    · simp [flat, hp] at h
  · intro p q x hp hq
    by_cases e : p = 0
    · by_cases e' : q = 0
      · omega
      · simp [flat, e'] at hq
    · simp [flat, e] at hp
  · intro p
    by_cases e : p = 0 <;> simp [flat, e]

/-- Component 1 searches for components in its callback. -/
def findEx (c : Nat) (s : State) : State :=
  if c = 1 then ((findAll (fun _ => true) 10 10 0 s).map Prod.fst).getD s else s

/-- C48 fails when a callback calls `find` or `find_all` of the root: the components after the caller are skipped, in
top-down and in bottom-up phases. -/
theorem C48_find_fails :
    (topdown findEx (fun _ => true) 10 10 0 flat).map Prod.snd = some [0, 1] ∧
    (bottomup findEx (fun _ => true) 10 10 0 flat).map Prod.snd = some [1, 0] ∧
    (topdown (fun _ s => s) (fun _ => true) 10 10 0 flat).map Prod.snd = some [0, 1, 2, 3] := by decide

/-- Component 2 asks its parent for its first child. -/
def firstEx (c : Nat) (s : State) : State := if c = 2 then (getFirst s 0).1 else s

/-- C48 fails when a callback calls `get_first_child` of its parent: the phase never ends. -/
theorem C48_endless_fails (m n : Nat) : topdown firstEx (fun _ => true) m n 0 flat = none := by
  have hrec : ∀ (n : Nat) (s : State), s.kids = flat.kids → topdown firstEx (fun _ => true) m n 2 s = none ∨
      topdown firstEx (fun _ => true) m n 2 s = some (setPtr s 0 1, [2]) := by
    intro n s hk
    cases n with
    | zero => left; rfl
    | succ n =>
      right
      have : ((setPtr s 0 1).kids 2).isEmpty = true := by
        show (s.kids 2).isEmpty = true
        rw [hk]; rfl
      simp only [topdown, if_true, firstEx, getFirst, this]
  have hloop : ∀ (k n : Nat) (s : State), s.kids = flat.kids →
      loop (topdown firstEx (fun _ => true) m n) 0 k (some 2) s = none := by
    intro k
    induction k with
    | zero => intro n s _; rfl
    | succ k ih =>
      intro n s hk
      rcases hrec n s hk with h | h
      · simp only [loop, h]
      · have hg : getNext (setPtr s 0 1) 0 = (setPtr (setPtr s 0 1) 0 2, some 2) := by
          simp only [getNext, show (setPtr s 0 1).kids = s.kids from rfl, hk]
          simp [setPtr, flat]
        simp only [loop, h, hg, ih n (setPtr (setPtr s 0 1) 0 2) hk]
  cases n with
  | zero => rfl
  | succ n =>
    have h0 : ∀ s : State, firstEx 0 s = s := fun s => rfl
    have hf : getFirst flat 0 = (setPtr flat 0 1, some 1) := rfl
    have he : (flat.kids 0).isEmpty = false := rfl
    simp only [topdown, if_true, h0, he, Bool.false_eq_true, if_false, hf]
    cases m with
    | zero => rfl
    | succ m =>
      cases n with
      | zero => rfl
      | succ n =>
        have h1 : topdown firstEx (fun _ => true) (m + 1) (n + 1) 1 (setPtr flat 0 1) = some (setPtr flat 0 1, [1]) := by
          simp only [topdown]; rfl
        have hg : getNext (setPtr flat 0 1) 0 = (setPtr (setPtr flat 0 1) 0 2, some 2) := rfl
        simp only [loop, h1, hg, hloop m (n + 1) (setPtr (setPtr flat 0 1) 0 2) rfl]

-- Non-vacuity: component 1 creates a child when its turn comes
def buildEx (c : Nat) (s : State) : State :=
  if c = 1 then ⟨fun d => if d = 1 then s.kids 1 ++ [s.next] else s.kids d, s.ptr, s.next + 1⟩ else s
theorem buildEx_builds : Builds buildEx := by
  intro c s ht hc
  by_cases e : c = 1
  · subst e
    have hk : ∀ d, (buildEx 1 s).kids d = if d = 1 then s.kids 1 ++ [s.next] else s.kids d := fun d => rfl
    have hm : ∀ p x, x ∈ (buildEx 1 s).kids p → x ∈ s.kids p ∨ (p = 1 ∧ x = s.next) := by
      intro p x h
      rw [hk] at h
      by_cases e : p = 1
      · subst e
        rw [if_pos rfl, List.mem_append, List.mem_singleton] at h
        exact h.imp id (fun h => ⟨rfl, h⟩)
      · rw [if_neg e] at h; exact .inl h
    refine ⟨⟨?_, ?_, ?_⟩, Nat.le_succ _, ?_, ?_⟩
    · intro p x h
      show p < x ∧ x < s.next + 1
      rcases hm p x h with h | ⟨rfl, rfl⟩
      · have := ht.lt p x h; omega
      · omega
    · intro p q x h h'
      rcases hm p x h with h | ⟨e1, e2⟩ <;> rcases hm q x h' with h' | ⟨e3, e4⟩
      · exact ht.one p q x h h'
      · have := ht.lt _ _ h; omega
      · have := ht.lt _ _ h'; omega
      · omega
    · intro p
      rw [hk]
      by_cases e : p = 1
      · rw [if_pos e, List.nodup_append]
        refine ⟨ht.nodup 1, by simp, ?_⟩
        intro a ha b hb
        obtain rfl := List.mem_singleton.mp hb
        have := ht.lt 1 a ha
        omega
      · rw [if_neg e]; exact ht.nodup p
    · intro d _ hn
      have : d ≠ 1 := fun e => hn (e ▸ .refl)
      rw [hk, if_neg this]; exact ⟨rfl, rfl⟩
    · intro d _
      rw [hk]
      by_cases e : d = 1
      · subst e; exact ⟨[s.next], by simp, by simp⟩
      · exact ⟨[], by simp [e], by simp⟩
  · have : buildEx c s = s := by simp [buildEx, e]
    rw [this]; exact .refl ht
example : (topdown buildEx (fun _ => true) 10 10 0 flat).map Prod.snd = some [0, 1, 4, 2, 3] := by decide
example : Keeps (fun _ s => s) := fun _ _ => ⟨rfl, rfl, fun _ _ => rfl⟩
example : Builds (fun _ s => s) := keeps_builds (fun _ _ => ⟨rfl, rfl, fun _ _ => rfl⟩)
example : (findAll (fun x => x != 0) 10 10 0 flat).map Prod.snd = some [1, 2, 3] := by decide
example : taskOrder flat.kids (fun _ => true) 5 0 = some [1, 2, 3, 0] := by decide

end Verif.Traverse
