import Verif.Spec.RegBlock
namespace Verif.RegBlock

@[simp] theorem upd_self {α} (f : Nat → α) (k : Nat) (v : α) : upd f k v k = v := by simp [upd]
theorem upd_ne {α} (f : Nat → α) {k x : Nat} (v : α) (h : x ≠ k) : upd f k v x = f x := by simp [upd, h]

/-- The blocks form a forest in which every block, register and memory has one place. -/
structure Tree (s : State) : Prop where
  rank : ∃ rank : Nat → Nat, ∀ b, ∀ c ∈ (s.blk b).blks, rank c < rank b
  one : ∀ b b' c, c ∈ (s.blk b).blks → c ∈ (s.blk b').blks → b = b'
  nodup : ∀ b, (s.blk b).blks.Nodup
  regs : ∀ b b' r, r ∈ (s.blk b).regs → r ∈ (s.blk b').regs → b = b'
  regsN : ∀ b, (s.blk b).regs.Nodup
  mems : ∀ b b' r, r ∈ (s.blk b).mems → r ∈ (s.blk b').mems → b = b'
  memsN : ∀ b, (s.blk b).mems.Nodup
  fresh : ∀ b, s.next ≤ b → s.blk b = ⟨(s.blk b).name, (s.blk b).parent, [], [], [], false⟩
  made : ∀ b, ∀ c ∈ (s.blk b).blks, c < s.next
  parent : ∀ b, ∀ c ∈ (s.blk b).blks, (s.blk c).parent = some b
  roots : ∀ x, x ∈ s.roots ↔ x < s.next ∧ ∀ b, x ∉ (s.blk b).blks
  rootsN : s.roots.Nodup

/-- What is below a locked block is locked. -/
def ClosedAt (s : State) (x : Nat) : Prop :=
  (s.blk x).locked = true → (∀ c ∈ (s.blk x).blks, (s.blk c).locked = true) ∧ (∀ r ∈ (s.blk x).regs, s.regLocked r = true) ∧
    ∀ m ∈ (s.blk x).mems, s.memLocked m = true

theorem below_head {s : State} {b x : Nat} (h : Below s b x) : x = b ∨ ∃ c ∈ (s.blk b).blks, Below s c x := by
  induction h with
  | refl => exact .inl rfl
  | sub h hx ih =>
    rcases ih with rfl | ⟨c, hc, hb⟩
    · exact .inr ⟨_, hx, .refl⟩
    · exact .inr ⟨c, hc, hb.sub hx⟩

theorem below_trans {s : State} {a b c : Nat} (h1 : Below s a b) (h2 : Below s b c) : Below s a c := by
  induction h2 with
  | refl => exact h1
  | sub _ hx ih => exact ih.sub hx

theorem below_cons {s : State} {b c x : Nat} (hc : c ∈ (s.blk b).blks) (h : Below s c x) : Below s b x :=
  below_trans (Below.refl.sub hc) h

theorem below_iff {s : State} {b x : Nat} : Below s b x ↔ x = b ∨ ∃ c ∈ (s.blk b).blks, Below s c x := by
  refine ⟨below_head, ?_⟩
  rintro (rfl | ⟨c, hc, h⟩)
  · exact .refl
  · exact below_cons hc h

theorem rank_below {s : State} {rank : Nat → Nat} (hr : ∀ b, ∀ c ∈ (s.blk b).blks, rank c < rank b) {b x : Nat} (h : Below s b x) :
    rank x ≤ rank b := by
  induction h with
  | refl => exact Nat.le_refl _
  | sub _ hx ih => have := hr _ _ hx; omega

theorem not_below_parent {s : State} (h : Tree s) {b c : Nat} (hc : c ∈ (s.blk b).blks) : ¬ Below s c b := by
  obtain ⟨rank, hr⟩ := h.rank
  intro hb
  have := rank_below hr hb
  have := hr b c hc
  omega

theorem below_chain {s : State} (h : Tree s) {c c' x : Nat} (h1 : Below s c x) (h2 : Below s c' x) : Below s c c' ∨ Below s c' c := by
  induction h1 with
  | refl => exact .inr h2
  | sub hy hx ih =>
    cases h2 with
    | refl => exact .inl (hy.sub hx)
    | sub hy' hx' =>
      have := h.one _ _ _ hx hx'
      subst this
      exact ih hy'

theorem siblings_apart {s : State} (h : Tree s) {b c c' : Nat} (hc : c ∈ (s.blk b).blks) (hc' : c' ∈ (s.blk b).blks) (hne : c ≠ c') {x : Nat}
    (h1 : Below s c x) (h2 : Below s c' x) : False := by
  have aux : ∀ {c c' : Nat}, c ∈ (s.blk b).blks → c' ∈ (s.blk b).blks → c ≠ c' → Below s c c' → False := by
    intro c c' hc hc' hne hb
    cases hb with
    | refl => exact hne rfl
    | sub hy hx =>
      have := h.one _ _ _ hx hc'
      subst this
      exact not_below_parent h hc hy
  rcases below_chain h h1 h2 with hb | hb
  · exact aux hc hc' hne hb
  · exact aux hc' hc (Ne.symm hne) hb

theorem mapM_map {α β} (f : α → Option β) (g : α → β) (l : List α) (h : ∀ x ∈ l, f x = some (g x)) : l.mapM f = some (l.map g) := by
  induction l with
  | nil => rfl
  | cons a l ih =>
    rw [List.mapM_cons, h a List.mem_cons_self, ih fun x hx => h x (List.mem_cons_of_mem _ hx)]
    rfl

/-- The list a walk gives, independent of the recursion depth. -/
theorem walk_total {α} {s : State} (h : Tree s) (own : Nat → List α) :
    ∃ (L : Nat → List α) (rank : Nat → Nat), (∀ b, ∀ c ∈ (s.blk b).blks, rank c < rank b) ∧
      (∀ b m, rank b < m → walk s own m b = some (L b)) ∧ ∀ b, L b = own b ++ ((s.blk b).blks.map L).flatten := by
  obtain ⟨rank, hr⟩ := h.rank
  let L : Nat → List α := fun b => (walk s own (rank b + 1) b).getD []
  have key : ∀ k b, rank b < k → (∀ m, rank b < m → walk s own m b = some (L b)) ∧ L b = own b ++ ((s.blk b).blks.map L).flatten := by
    intro k
    induction k with
    | zero => intro b hb; omega
    | succ k ih =>
      intro b hb
      have hm : ∀ m, rank b < m → walk s own m b = some (own b ++ ((s.blk b).blks.map L).flatten) := by
        intro m hm
        cases m with
        | zero => omega
        | succ m =>
          have : (s.blk b).blks.mapM (walk s own m) = some ((s.blk b).blks.map L) := by
            apply mapM_map
            intro c hc
            have := hr b c hc
            exact (ih c (by omega)).1 m (by omega)
          simp only [walk, this]
          rfl
      have hL : L b = own b ++ ((s.blk b).blks.map L).flatten := by
        show (walk s own (rank b + 1) b).getD [] = _
        rw [hm _ (by omega)]; rfl
      exact ⟨fun m h => by rw [hm m h, hL], hL⟩
  exact ⟨L, rank, hr, fun b m h => (key (rank b + 1) b (by omega)).1 m h, fun b => (key (rank b + 1) b (by omega)).2⟩

theorem walk_mem {α} {s : State} {own : Nat → List α} {L : Nat → List α} {rank : Nat → Nat}
    (hr : ∀ b, ∀ c ∈ (s.blk b).blks, rank c < rank b) (hL : ∀ b, L b = own b ++ ((s.blk b).blks.map L).flatten) (a : α) :
    ∀ b, a ∈ L b ↔ ∃ x, Below s b x ∧ a ∈ own x := by
  have key : ∀ k b, rank b < k → (a ∈ L b ↔ ∃ x, Below s b x ∧ a ∈ own x) := by
    intro k
    induction k with
    | zero => intro b hb; omega
    | succ k ih =>
      intro b hb
      rw [hL b, List.mem_append, List.mem_flatten]
      constructor
      · rintro (h | ⟨l, hl, ha⟩)
        · exact ⟨b, .refl, h⟩
        · obtain ⟨c, hc, rfl⟩ := List.mem_map.mp hl
          have := hr b c hc
          obtain ⟨x, hx, ha⟩ := (ih c (by omega)).mp ha
          exact ⟨x, below_cons hc hx, ha⟩
      · rintro ⟨x, hx, ha⟩
        rcases below_head hx with rfl | ⟨c, hc, hx⟩
        · exact .inl ha
        · have := hr b c hc
          exact .inr ⟨L c, List.mem_map.mpr ⟨c, hc, rfl⟩, (ih c (by omega)).mpr ⟨x, hx, ha⟩⟩
  exact fun b => key (rank b + 1) b (by omega)

theorem nodup_flatten_map {α} (L : Nat → List α) (cs : List Nat) (h1 : ∀ c ∈ cs, (L c).Nodup) (h2 : cs.Nodup)
    (h3 : ∀ c ∈ cs, ∀ c' ∈ cs, c ≠ c' → ∀ a, a ∈ L c → a ∈ L c' → False) : (cs.map L).flatten.Nodup := by
  induction cs with
  | nil => simp
  | cons c cs ih =>
    rw [List.nodup_cons] at h2
    rw [List.map_cons, List.flatten_cons, List.nodup_append]
    refine ⟨h1 c List.mem_cons_self, ih (fun x hx => h1 x (List.mem_cons_of_mem _ hx)) h2.2
      (fun x hx y hy => h3 x (List.mem_cons_of_mem _ hx) y (List.mem_cons_of_mem _ hy)), ?_⟩
    intro a ha b hb hab
    subst hab
    obtain ⟨l, hl, ha'⟩ := List.mem_flatten.mp hb
    obtain ⟨c', hc', rfl⟩ := List.mem_map.mp hl
    exact h3 c List.mem_cons_self c' (List.mem_cons_of_mem _ hc') (by rintro rfl; exact h2.1 hc') a ha ha'

theorem walk_nodup {α} {s : State} (h : Tree s) {own : Nat → List α} {L : Nat → List α} {rank : Nat → Nat}
    (hr : ∀ b, ∀ c ∈ (s.blk b).blks, rank c < rank b) (hL : ∀ b, L b = own b ++ ((s.blk b).blks.map L).flatten)
    (hown : ∀ b, (own b).Nodup) (hone : ∀ b b' a, a ∈ own b → a ∈ own b' → b = b') : ∀ b, (L b).Nodup := by
  have key : ∀ k b, rank b < k → (L b).Nodup := by
    intro k
    induction k with
    | zero => intro b hb; omega
    | succ k ih =>
      intro b hb
      rw [hL b, List.nodup_append]
      refine ⟨hown b, ?_, ?_⟩
      · apply nodup_flatten_map
        · intro c hc; have := hr b c hc; exact ih c (by omega)
        · exact h.nodup b
        · intro c hc c' hc' hne a ha ha'
          obtain ⟨x, hx, hxa⟩ := (walk_mem hr hL a c).mp ha
          obtain ⟨x', hx', hxa'⟩ := (walk_mem hr hL a c').mp ha'
          have := hone _ _ _ hxa hxa'
          subst this
          exact siblings_apart h hc hc' hne hx hx'
      · intro a ha a' ha' hab
        subst hab
        obtain ⟨l, hl, ha'⟩ := List.mem_flatten.mp ha'
        obtain ⟨c, hc, rfl⟩ := List.mem_map.mp hl
        obtain ⟨x, hx, hxa⟩ := (walk_mem hr hL a c).mp ha'
        have := hone _ _ _ ha hxa
        subst this
        exact not_below_parent h hc hx
  exact fun b => key (rank b + 1) b (by omega)

theorem getBlocks_walk (s : State) : ∀ n b, walk s (fun b => [b]) n b = (getBlocks s n b).map (b :: ·) := by
  intro n
  induction n with
  | zero => intro b; rfl
  | succ n ih =>
    intro b
    have : walk s (fun b => [b]) n = fun c => (getBlocks s n c).map (c :: ·) := funext ih
    simp only [walk, getBlocks, this]
    cases (s.blk b).blks.mapM (fun c => (getBlocks s n c).map (c :: ·)) <;> rfl

theorem needsUpdate_eq {s : State} (nu : Nat → Bool) {L : Nat → List Nat} {rank : Nat → Nat}
    (hr : ∀ b, ∀ c ∈ (s.blk b).blks, rank c < rank b) (hL : ∀ b, L b = (s.blk b).regs ++ ((s.blk b).blks.map L).flatten) :
    ∀ m b, rank b < m → needsUpdate s nu m b = some ((L b).any nu) := by
  intro m
  induction m with
  | zero => intro b hb; omega
  | succ m ih =>
    intro b hb
    have hany : ∀ cs : List Nat, (∀ c ∈ cs, c ∈ (s.blk b).blks) → anyM (needsUpdate s nu m) cs = some ((cs.map L).flatten.any nu) := by
      intro cs
      induction cs with
      | nil => intro _; rfl
      | cons c cs ih2 =>
        intro hcs
        have hc := hr b c (hcs c List.mem_cons_self)
        rw [anyM, ih c (by omega)]
        have h2 := ih2 fun x hx => hcs x (List.mem_cons_of_mem _ hx)
        cases hx : (L c).any nu with
        | true => simp only [List.map_cons, List.flatten_cons, List.any_append, hx, Bool.true_or]
        | false => simp only [List.map_cons, List.flatten_cons, List.any_append, hx, Bool.false_or, h2]
    rw [hL b, List.any_append, needsUpdate, hany _ fun _ h => h]
    cases (s.blk b).regs.any nu <;> rfl

/-- The last bad status of a list of registers. -/
def lastBad (st : Nat → Status) (l : List Nat) (init : Status) : Status := l.foldl (fun acc r => if bad (st r) then st r else acc) init

theorem lastBad_append (st : Nat → Status) (l l' : List Nat) (i : Status) : lastBad st (l ++ l') i = lastBad st l' (lastBad st l i) := by
  simp [lastBad, List.foldl_append]

theorem lastBad_init (st : Nat → Status) (l : List Nat) : ∀ i, lastBad st l i = if bad (lastBad st l .ok) then lastBad st l .ok else i := by
  induction l with
  | nil => intro i; simp [lastBad, bad]
  | cons r l ih =>
    intro i
    show lastBad st l (if bad (st r) then st r else i) = if bad (lastBad st l (if bad (st r) then st r else .ok)) then lastBad st l (if bad (st r) then st r else .ok) else i
    cases hb : bad (st r) with
    | false => simp only [Bool.false_eq_true, if_false]; exact ih i
    | true =>
      simp only [if_true]
      rw [ih (st r)]
      by_cases hc : bad (lastBad st l .ok) = true
      · simp [hc]
      · simp [hc, hb]

theorem mirror_eq {s : State} (st : Nat → Status) {L : Nat → List Nat} {rank : Nat → Nat}
    (hr : ∀ b, ∀ c ∈ (s.blk b).blks, rank c < rank b) (hL : ∀ b, L b = (s.blk b).regs ++ ((s.blk b).blks.map L).flatten) :
    ∀ m b, rank b < m → mirror s st m b = some (L b, lastBad st (L b) .ok) := by
  intro m
  induction m with
  | zero => intro b hb; omega
  | succ m ih =>
    intro b hb
    have hall : ∀ cs : List Nat, (∀ c ∈ cs, c ∈ (s.blk b).blks) → ∀ l : List Nat,
        cs.foldlM (fun q c => (mirror s st m c).map fun r => (q.1 ++ r.1, if bad r.2 then r.2 else q.2)) (l, lastBad st l .ok)
          = some (l ++ (cs.map L).flatten, lastBad st (l ++ (cs.map L).flatten) .ok) := by
      intro cs
      induction cs with
      | nil => intro _ l; simp
      | cons c cs ih2 =>
        intro hcs l
        have hc := hr b c (hcs c List.mem_cons_self)
        rw [List.foldlM_cons, ih c (by omega)]
        simp only [Option.map_some, Option.bind_eq_bind, Option.bind_some]
        have : (if bad (lastBad st (L c) .ok) then lastBad st (L c) .ok else lastBad st l .ok) = lastBad st (l ++ L c) .ok := by
          rw [lastBad_append, lastBad_init st (L c) (lastBad st l .ok)]
        rw [this, ih2 (fun x hx => hcs x (List.mem_cons_of_mem _ hx)) (l ++ L c)]
        simp
    rw [hL b]
    exact hall _ (fun _ h => h) _

theorem getRegByName_eq {s : State} (name : String) {L : Nat → List Nat} {rank : Nat → Nat}
    (hr : ∀ b, ∀ c ∈ (s.blk b).blks, rank c < rank b) (hL : ∀ b, L b = (s.blk b).regs ++ ((s.blk b).blks.map L).flatten)
    (hw : ∀ b m, rank b < m → getRegisters s m b = some (L b)) (b m : Nat) (hm : rank b ≤ m) :
    getRegByName s m b name = some ((L b).find? fun r => s.regName r == name) := by
  have hgo : ∀ cs : List Nat, (∀ c ∈ cs, c ∈ (s.blk b).blks) →
      getRegByName.go s m name cs = some ((cs.map L).flatten.find? fun r => s.regName r == name) := by
    intro cs
    induction cs with
    | nil => intro _; rfl
    | cons c cs ih =>
      intro hcs
      have hc := hr b c (hcs c List.mem_cons_self)
      rw [getRegByName.go, hw c m (by omega)]
      have := ih fun x hx => hcs x (List.mem_cons_of_mem _ hx)
      rw [List.map_cons, List.flatten_cons, List.find?_append]
      cases hf : (L c).find? (fun r => s.regName r == name) with
      | some r => simp [hf]
      | none => simp [hf, this]
  rw [getRegByName, hL b, List.find?_append, hgo _ fun _ h => h]
  cases (s.blk b).regs.find? (fun r => s.regName r == name) <;> simp

end Verif.RegBlock
