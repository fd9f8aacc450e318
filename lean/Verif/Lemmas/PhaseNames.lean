import Verif.Spec.PhaseNames
import Verif.Lemmas.Phase
/-! # Lemmas about the names of phases -/
namespace Verif.PhaseNames
open Phase (Same)

/-! ## What `add` does to parents, kinds and names -/

theorem addPred_same (s : Phase.State) (a k : Nat) : Same s (Phase.addPred s a k) := ⟨rfl, rfl, rfl, rfl, rfl⟩
theorem addSucc_same (s : Phase.State) (a k : Nat) : Same s (Phase.addSucc s a k) := ⟨rfl, rfl, rfl, rfl, rfl⟩
theorem delPred_same (s : Phase.State) (a k : Nat) : Same s (Phase.delPred s a k) := ⟨rfl, rfl, rfl, rfl, rfl⟩
theorem delSucc_same (s : Phase.State) (a k : Nat) : Same s (Phase.delSucc s a k) := ⟨rfl, rfl, rfl, rfl, rfl⟩

theorem loopBefore_same (b k : Nat) : ∀ (l : List Nat) (s : Phase.State), Same s (Phase.loopBefore b k l s).1
  | [], s => .refl s
  | p :: l, s => by
    unfold Phase.loopBefore
    split
    · exact ((delSucc_same s p b).trans (addSucc_same _ p k)).trans (loopBefore_same b k l _)
    · exact .refl s

theorem loopAfter_same (b k : Nat) : ∀ (l : List Nat) (s : Phase.State), Same s (Phase.loopAfter b k l s).1
  | [], s => .refl s
  | p :: l, s => by
    unfold Phase.loopAfter
    split
    · exact ((delPred_same s p b).trans (addPred_same _ p k)).trans (loopAfter_same b k l _)
    · exact .refl s

theorem foldSucc_same (b : Nat) : ∀ (l : List Nat) (s : Phase.State), Same s (l.foldl (fun s p => Phase.addSucc s p b) s)
  | [], s => .refl s
  | p :: l, s => (addSucc_same s p b).trans (foldSucc_same b l _)
theorem foldPred_same (b : Nat) : ∀ (l : List Nat) (s : Phase.State), Same s (l.foldl (fun s p => Phase.addPred s p b) s)
  | [], s => .refl s
  | p :: l, s => (addPred_same s p b).trans (foldPred_same b l _)

theorem setPr_same (s : Phase.State) (f : Nat → Nat) : Same s { s with pr := f } := ⟨rfl, rfl, rfl, rfl, rfl⟩
theorem setSr_same (s : Phase.State) (f : Nat → Nat) : Same s { s with sr := f } := ⟨rfl, rfl, rfl, rfl, rfl⟩
theorem freshPr_same (s : Phase.State) (f : Nat → Nat) (g : Nat → List Nat) (n : Nat) : Same s { s with pr := f, pd := g, nref := n } :=
  ⟨rfl, rfl, rfl, rfl, rfl⟩
theorem freshSr_same (s : Phase.State) (f : Nat → Nat) (g : Nat → List Nat) (n : Nat) : Same s { s with sr := f, sd := g, nref := n } :=
  ⟨rfl, rfl, rfl, rfl, rfl⟩

theorem linkWith_same (s : Phase.State) (b e w : Nat) : Same s (Phase.linkWith s b e w) := by
  unfold Phase.linkWith
  exact (((setPr_same s _).trans (setSr_same _ _)).trans (foldSucc_same b _ _)).trans (foldPred_same e _ _)

theorem linkBefore_same (s : Phase.State) (b e x : Nat) : Same s (Phase.linkBefore s b e x).1 := by
  unfold Phase.linkBefore
  have h := (setPr_same s (Phase.set s.pr b (s.pr x))).trans (addSucc_same _ e x)
  dsimp only
  generalize Phase.addSucc _ e x = u at h ⊢
  have k := h.trans (loopBefore_same x b (Phase.preds u x) u)
  generalize Phase.loopBefore x b (Phase.preds u x) u = r at k ⊢
  split
  · exact (k.trans (freshPr_same _ _ _ _)).trans (addPred_same _ _ _)
  · exact k

theorem linkAfter_same (s : Phase.State) (b e x : Nat) : Same s (Phase.linkAfter s b e x).1 := by
  unfold Phase.linkAfter
  have h := (setSr_same s (Phase.set s.sr e (s.sr x))).trans (addPred_same _ b x)
  dsimp only
  generalize Phase.addPred _ b x = u at h ⊢
  have k := h.trans (loopAfter_same x e (Phase.succs u x) u)
  generalize Phase.loopAfter x e (Phase.succs u x) u = r at k ⊢
  split
  · exact (k.trans (freshSr_same _ _ _ _)).trans (addSucc_same _ _ _)
  · exact k

theorem linkBetween_same (s : Phase.State) (b e x y : Nat) : Same s (Phase.linkBetween s b e x y).1 := by
  unfold Phase.linkBetween
  have h := (((addPred_same s b x).trans (addSucc_same _ e y)).trans (addSucc_same _ x b)).trans (addPred_same _ y e)
  split
  · exact .refl s
  · exact .refl s
  · dsimp only
    generalize Phase.addPred (Phase.addSucc (Phase.addSucc (Phase.addPred s b x) e y) x b) y e = u at h ⊢
    split
    · split
      · exact (h.trans (delSucc_same _ _ _)).trans (delSucc_same _ _ _)
      · exact h.trans (delSucc_same _ _ _)
    · exact h

theorem link_same (s : Phase.State) (b e : Nat) (w x y : Option Nat) : Same s (Phase.link s b e w x y).1 := by
  unfold Phase.link
  split
  · exact linkWith_same s b e _
  · exact linkBefore_same s b e _
  · exact linkAfter_same s b e _
  · exact linkBetween_same s b e _ _
  · exact .refl s

/-- What `place` leaves, up to links. -/
theorem place_same (s : Phase.State) (self phase : Nat) (w x y : Option Nat) :
    (s.kind phase = .imp ∧ Same (Phase.new s .node (some phase) (some self)) (Phase.place s self phase w x y).1) ∨
    (s.kind phase ≠ .imp ∧ s.endN phase = none ∧ Phase.place s self phase w x y = (s, .error)) ∨
    (s.kind phase ≠ .imp ∧ Same { s with parent := Phase.set s.parent phase (some self) } (Phase.place s self phase w x y).1) := by
  unfold Phase.place
  split
  · rename_i h; exact .inl ⟨h, link_same _ _ _ _ _ _⟩
  · rename_i h
    split
    · rename_i h1; exact .inr (.inl ⟨h, h1, rfl⟩)
    · exact .inr (.inr ⟨h, link_same _ _ _ _ _ _⟩)

/-- What a call of `add` leaves, up to links: nothing new, a new node, or a schedule with a new parent. -/
theorem add_same (s : Phase.State) (self phase : Nat) (w x y : Option Nat) :
    ((Phase.step s (.add self phase w x y)).1 = s ∧ (Phase.step s (.add self phase w x y)).2 ≠ .ok) ∨
    (phase < s.next ∧ self < s.next ∧ s.kind phase = .imp ∧ Same (Phase.new s .node (some phase) (some self)) (Phase.step s (.add self phase w x y)).1) ∨
    (phase < s.next ∧ self < s.next ∧ s.kind phase ≠ .imp ∧
      Same { s with parent := Phase.set s.parent phase (some self) } (Phase.step s (.add self phase w x y)).1) := by
  show ((if self < s.next ∧ phase < s.next ∧ Phase.below s.next w ∧ Phase.below s.next x ∧ Phase.below s.next y then
    Phase.add s self phase w x y else (s, .fatal)).1 = s ∧ _) ∨ _
  by_cases hg : self < s.next ∧ phase < s.next ∧ Phase.below s.next w ∧ Phase.below s.next x ∧ Phase.below s.next y
  · have he : Phase.step s (.add self phase w x y) = Phase.add s self phase w x y := by simp only [Phase.step, if_pos hg]
    rw [if_pos hg, he]
    unfold Phase.add
    split
    · exact .inl ⟨rfl, nofun⟩
    split
    · exact .inl ⟨rfl, nofun⟩
    split
    · exact .inl ⟨rfl, nofun⟩
    split
    · exact .inl ⟨rfl, nofun⟩
    split
    · exact .inl ⟨rfl, nofun⟩
    · dsimp only
      rcases place_same s self phase _ _ _ with h | h | h
      · exact .inr (.inl ⟨hg.2.1, hg.1, h⟩)
      · exact .inl (by rw [h.2.2]; exact ⟨rfl, nofun⟩)
      · exact .inr (.inr ⟨hg.2.1, hg.1, h⟩)
  · rw [if_neg hg]
    exact .inl ⟨rfl, by simp [Phase.step, hg]⟩

/-! ## Text -/

theorem dotted_join (a b : String) : ∀ xs : List String, dotted (xs ++ [a ++ "." ++ b]) = dotted (xs ++ [a, b])
  | [] => rfl
  | [x] => rfl
  | x :: y :: l => by
    show x ++ "." ++ dotted ((y :: l) ++ [a ++ "." ++ b]) = x ++ "." ++ dotted ((y :: l) ++ [a, b])
    rw [dotted_join a b (y :: l)]

theorem dotted_snoc (y : String) : ∀ xs : List String, xs ≠ [] → dotted (xs ++ [y]) = dotted xs ++ "." ++ y
  | [], h => absurd rfl h
  | [x], _ => rfl
  | x :: z :: l, _ => by
    show x ++ "." ++ dotted ((z :: l) ++ [y]) = x ++ "." ++ dotted (z :: l) ++ "." ++ y
    rw [dotted_snoc y (z :: l) nofun]
    simp only [String.append_assoc]

theorem dotted_cons (x : String) : ∀ l : List String, l ≠ [] → dotted (x :: l) = x ++ "." ++ dotted l
  | [], h => absurd rfl h
  | _ :: _, _ => rfl

theorem append_ne (a b : String) (h : b ≠ "") : a ++ b ≠ "" := by
  intro he
  exact h (by simpa using (String.append_eq_empty_iff.1 he).2)

theorem dotted_ne : ∀ l : List String, l ≠ [] → (∀ x ∈ l, x ≠ "") → dotted l ≠ ""
  | [], h, _ => absurd rfl h
  | [x], _, h => h x (.head _)
  | x :: y :: l, _, h => append_ne _ _ (dotted_ne (y :: l) nofun fun z hz => h z (.tail _ hz))

/-! ## The loops -/

/-- What ends the way up: nothing, or a domain. -/
def Top (s : State) (top : Option Nat) : Prop := top = none ∨ ∃ d, top = some d ∧ kind s d = .domain

theorem within_ne {s : State} {top : Option Nat} (ht : Top s top) {l : List Nat} {a : Nat} (h : Within s top l a) :
    parent s a = some a → kind s a ≠ .schedule := by
  induction h with
  | out hp =>
    intro h hk
    rcases ht with e | ⟨d, e, hd⟩
    · rw [h, e] at hp; cases hp
    · rw [h, e] at hp; cases hp; rw [hk] at hd; cases hd
  | on hp hk hw ih =>
    intro h
    rw [hp] at h; cases h
    exact ih hp

theorem nameLoop_within {s : State} {top : Option Nat} (ht : Top s top) {l : List Nat} {a : Nat} (h : Within s top l a)
    (hn : ∀ b ∈ l, s.name b ≠ "") : ∀ (t : String) (n : Nat), t ≠ "" → l.length < n → nameLoop s n a t = some (dotted (l.map s.name ++ [t])) := by
  induction h with
  | out hp =>
    intro t n _ hl
    obtain ⟨n, rfl⟩ : ∃ m, n = m + 1 := ⟨n - 1, by omega⟩
    rcases ht with e | ⟨d, e, hd⟩
    · simp [nameLoop, hp, e, dotted]
    · simp [nameLoop, hp, e, hd, dotted]
  | @on a p l hp hk hw ih =>
    intro t n hne hl
    obtain ⟨n, rfl⟩ : ∃ m, n = m + 1 := ⟨n - 1, by omega⟩
    have h1 : p ≠ a := fun e => within_ne ht hw (by rw [e] at hp ⊢; exact hp) hk
    have h2 := ih (fun b hb => hn b (by simp [hb])) (s.name p ++ "." ++ t) n (append_ne _ _ hne) (by simp at hl; omega)
    simp only [nameLoop, hp, h1, hk, ne_eq, not_false_eq_true, and_self, if_true, if_neg hne, h2, Option.some.injEq]
    rw [dotted_join]
    simp

theorem topSched_within {s : State} {top : Option Nat} (ht : Top s top) {l : List Nat} {a : Nat} (h : Within s top l a) :
    ∀ n, l.length < n → topSched s n a = some ((l ++ [a]).head (by simp)) := by
  induction h with
  | out hp =>
    intro n hl
    obtain ⟨n, rfl⟩ : ∃ m, n = m + 1 := ⟨n - 1, by omega⟩
    rcases ht with e | ⟨d, e, hd⟩
    · simp [topSched, hp, e]
    · simp [topSched, hp, e, hd]
  | @on a p l hp hk hw ih =>
    intro n hl
    obtain ⟨n, rfl⟩ : ∃ m, n = m + 1 := ⟨n - 1, by omega⟩
    have h2 := ih n (by simp at hl; omega)
    simp only [topSched, hp, hk, if_true, h2]
    cases l <;> simp

theorem getDomain_within {s : State} {top : Option Nat} (ht : Top s top) {l : List Nat} {a : Nat} (h : Within s top l a)
    (hk : kind s a ≠ .domain) : ∀ n, l.length + 1 < n → getDomain s n a = some top := by
  induction h with
  | out hp =>
    intro n hl
    obtain ⟨n, rfl⟩ : ∃ m, n = m + 2 := ⟨n - 2, by omega⟩
    rcases ht with e | ⟨d, e, hd⟩
    · simp [getDomain, hp, e, hk]
    · simp [getDomain, hp, e, hd, hk]
  | @on a p l hp hkp hw ih =>
    intro n hl
    obtain ⟨n, rfl⟩ : ∃ m, n = m + 1 := ⟨n - 1, by omega⟩
    have h2 := ih (by rw [hkp]; nofun) n (by simp at hl; omega)
    simp only [getDomain, hp, if_neg hk, h2]

/-- The name of what ends the way up. -/
def topName (s : State) : Option Nat → String
  | none => "unknown"
  | some d => s.name d

theorem domainName_within {s : State} {top : Option Nat} (ht : Top s top) {l : List Nat} {a : Nat} (h : Within s top l a)
    (hk : kind s a ≠ .domain) (n : Nat) (hn : l.length + 1 < n) : domainName s n a = some (topName s top) := by
  unfold domainName
  rw [getDomain_within ht h hk n hn]
  cases top <;> rfl

theorem fullName_sched {s : State} {top : Option Nat} (ht : Top s top) {l : List Nat} {a : Nat} (h : Within s top l a)
    (hk : kind s a = .schedule) (hn : ∀ b ∈ l, s.name b ≠ "") (ha : s.name a ≠ "") (n : Nat) (hl : l.length + 1 < n) :
    fullName s n a = some (dotted (topName s top :: l.map s.name ++ [s.name a])) := by
  have h1 := domainName_within ht h (by rw [hk]; nofun) n hl
  have h2 := nameLoop_within ht h hn (s.name a) n ha (by omega)
  have h3 : dotted (l.map s.name ++ [s.name a]) ≠ "" := dotted_ne _ (by simp) (by
    intro x hx
    rcases List.mem_append.1 hx with hx | hx
    · obtain ⟨b, hb, rfl⟩ := List.mem_map.1 hx; exact hn b hb
    · simp only [List.mem_singleton] at hx; rw [hx]; exact ha)
  have h4 : scheduleName s false n a = some (dotted (l.map s.name ++ [s.name a])) := by
    simp [scheduleName, getSchedule, pickSched, hk, h2]
  rw [List.cons_append, dotted_cons _ _ (by simp)]
  simp [fullName, joinNames, hk, h1, h4, h3]

theorem fullName_node {s : State} {top : Option Nat} (ht : Top s top) {l : List Nat} {a : Nat} (h : Within s top l a)
    (hk : kind s a = .node) (hn : ∀ b ∈ l, s.name b ≠ "") (n : Nat) (hl : l.length + 1 < n) :
    fullName s n a = some (dotted (topName s top :: l.map s.name ++ [s.name a])) := by
  have h1 := domainName_within ht h (by rw [hk]; nofun) n hl
  cases h with
  | out hp =>
    have : scheduleName s false n a = some "" := by
      rcases ht with e | ⟨d, e, hd⟩
      · simp [scheduleName, getSchedule, pickSched, hk, hp, e]
      · simp [scheduleName, getSchedule, pickSched, hk, hp, e, hd]
    simp [fullName, hk, h1, this, joinNames, dotted]
  | @on _ p l hp hkp hw =>
    have h2 := nameLoop_within ht hw (fun b hb => hn b (by simp [hb])) (s.name p) n (hn p (by simp)) (by simp at hl; omega)
    have h3 : dotted (l.map s.name ++ [s.name p]) ≠ "" := dotted_ne _ (by simp) (by
      intro x hx
      rcases List.mem_append.1 hx with hx | hx
      · obtain ⟨b, hb, rfl⟩ := List.mem_map.1 hx; exact hn b (by simp [hb])
      · simp only [List.mem_singleton] at hx; rw [hx]; exact hn p (by simp))
    have h4 : scheduleName s false n a = some (dotted (l.map s.name ++ [s.name p])) := by
      simp [scheduleName, getSchedule, pickSched, hk, hp, hkp, h2]
    have h5 : dotted (topName s top :: (l ++ [p]).map s.name ++ [s.name a]) =
        topName s top ++ "." ++ dotted (l.map s.name ++ [s.name p]) ++ "." ++ s.name a := by
      rw [List.map_append, dotted_snoc (s.name a) (topName s top :: (l.map s.name ++ [p].map s.name)) nofun,
        dotted_cons (topName s top) (l.map s.name ++ [p].map s.name) (by simp)]
      rfl
    rw [h5]
    simp [fullName, joinNames, hk, h1, h4, h3]

/-! ## Histories -/

structure Inv (s : State) (rank : Nat → Nat) : Prop where
  up : ∀ a p, parent s a = some p → rank p < rank a ∧ p < s.ph.next ∧ (kind s p = .schedule ∨ kind s p = .domain)
  nm : ∀ a, a < s.ph.next → s.name a ≠ ""
  dom : ∀ a, s.ph.next ≤ a → parent s a = none

theorem exists_within {s : State} {rank : Nat → Nat} (h : Inv s rank) : ∀ (n a : Nat), rank a < n →
    ∃ top l, Within s top l a ∧ Top s top ∧ ∀ b ∈ l, s.name b ≠ "" := by
  intro n
  induction n with
  | zero => intro a ha; omega
  | succ n ih =>
    intro a ha
    cases hp : parent s a with
    | none => exact ⟨none, [], .out hp, .inl rfl, nofun⟩
    | some p =>
      obtain ⟨h1, h2, h3 | h3⟩ := h.up a p hp
      · obtain ⟨top, l, hw, ht, hn⟩ := ih p (by omega)
        refine ⟨top, l ++ [p], .on hp h3 hw, ht, ?_⟩
        intro b hb
        rcases List.mem_append.1 hb with hb | hb
        · exact hn b hb
        · simp only [List.mem_singleton] at hb; rw [hb]; exact h.nm p h2
      · exact ⟨some p, [], .out hp, .inr ⟨p, rfl, h3⟩, nofun⟩

theorem within_names {s : State} {rank : Nat → Nat} (h : Inv s rank) {top : Option Nat} {l : List Nat} {a : Nat} (hw : Within s top l a) :
    ∀ b ∈ l, s.name b ≠ "" := by
  induction hw with
  | out => nofun
  | on hp hk _ ih =>
    intro b hb
    rcases List.mem_append.1 hb with hb | hb
    · exact ih b hb
    · simp only [List.mem_singleton] at hb; rw [hb]; exact h.nm _ (h.up _ _ hp).2.1

/-- The schedules around a phase and what ends them are unique. -/
theorem within_inj {s : State} {t1 t2 : Option Nat} (ht1 : Top s t1) (ht2 : Top s t2) {l1 l2 : List Nat} {a : Nat}
    (h1 : Within s t1 l1 a) (h2 : Within s t2 l2 a) : t1 = t2 ∧ l1 = l2 := by
  induction h1 generalizing l2 with
  | out hp =>
    cases h2 with
    | out hq => exact ⟨by rw [← hp, ← hq], rfl⟩
    | on hq hk _ =>
      rcases ht1 with e | ⟨d, e, hd⟩
      · rw [hq, e] at hp; cases hp
      · rw [hq, e] at hp; cases hp; rw [hk] at hd; cases hd
  | on hp hk hw ih =>
    cases h2 with
    | out hq =>
      rcases ht2 with e | ⟨d, e, hd⟩
      · rw [hp, e] at hq; cases hq
      · rw [hp, e] at hq; cases hq; rw [hk] at hd; cases hd
    | on hq hk' hw' =>
      rw [hp] at hq; cases hq
      obtain ⟨e1, e2⟩ := ih hw'
      exact ⟨e1, by rw [e2]⟩

theorem above_rank {s : State} {rank : Nat → Nat} (h : Inv s rank) {a b : Nat} (hb : Above s a b) : rank b ≤ rank a := by
  induction hb with
  | here => exact Nat.le_refl _
  | on hp _ ih => have := (h.up _ _ hp).1; omega

theorem inv_init : Inv init (fun _ => 0) := ⟨nofun, nofun, fun _ _ => rfl⟩

/-- A state with one more phase at the end. -/
theorem inv_new {s : State} {rank : Nat → Nat} (h : Inv s rank) {t : State} (k : Phase.Kind) (p : Option Nat)
    (hp : ∀ q, p = some q → q < s.ph.next ∧ (kind s q = .schedule ∨ kind s q = .domain))
    (h1 : t.ph.parent = Phase.set s.ph.parent s.ph.next p) (h2 : t.ph.kind = Phase.set s.ph.kind s.ph.next k)
    (h3 : t.ph.next = s.ph.next + 1) (nm : String) (hnm : nm ≠ "") (h4 : t.name = Phase.set s.name s.ph.next nm) :
    ∃ rank', Inv t rank' := by
  refine ⟨Phase.set rank s.ph.next (match (generalizing := false) p with | none => 0 | some q => rank q + 1), ?_, ?_, ?_⟩
  · intro a q hq
    unfold parent at hq
    rw [h1] at hq
    by_cases ha : a = s.ph.next
    · subst ha
      rw [Phase.set_self] at hq
      obtain ⟨hq1, hq2⟩ := hp q hq
      refine ⟨?_, by omega, ?_⟩
      · rw [Phase.set_self, Phase.set_ne _ _ (by omega), hq]; exact Nat.lt_succ_self _
      · unfold kind; rw [h2, Phase.set_ne _ _ (by omega)]; exact hq2
    · rw [Phase.set_ne _ _ ha] at hq
      obtain ⟨a1, a2, a3⟩ := h.up a q hq
      refine ⟨?_, by omega, ?_⟩
      · rw [Phase.set_ne _ _ ha, Phase.set_ne _ _ (by omega)]; exact a1
      · unfold kind; rw [h2, Phase.set_ne _ _ (by omega)]; exact a3
  · intro a ha
    rw [h4]
    by_cases he : a = s.ph.next
    · rw [he, Phase.set_self]; exact hnm
    · rw [Phase.set_ne _ _ he]; exact h.nm a (by omega)
  · intro a ha
    unfold parent
    rw [h1, Phase.set_ne _ _ (by omega)]
    exact h.dom a (by omega)

theorem append_ne' (a b : String) (h : a ≠ "") : a ++ b ≠ "" := by
  intro he
  exact h (by simpa using (String.append_eq_empty_iff.1 he).1)

theorem inv_newTop {s : State} {rank : Nat → Nat} (h : Inv s rank) (d : Bool) (t : String) (hne : t ≠ "") :
    ∃ r, Inv (step s (.newTop d t)).1 r := by
  let k : Phase.Kind := if d then .domain else .schedule
  obtain ⟨r1, i1⟩ := inv_new h (t := ⟨Phase.new s.ph k none none, Phase.set s.name s.ph.next t⟩) k none nofun rfl rfl rfl t hne rfl
  refine inv_new i1 (t := (step s (.newTop d t)).1) .terminal (some s.ph.next) ?_ rfl rfl rfl (t ++ " end") (append_ne' _ _ hne) rfl
  intro q hq
  cases hq
  refine ⟨Nat.lt_succ_self _, ?_⟩
  show Phase.set s.ph.kind s.ph.next k s.ph.next = _ ∨ Phase.set s.ph.kind s.ph.next k s.ph.next = _
  rw [Phase.set_self]
  cases d
  · exact .inl rfl
  · exact .inr rfl

open Classical in
/-- A schedule gets a new parent that is not within it. -/
theorem inv_move {s : State} {rank : Nat → Nat} (h : Inv s rank) {t : State} {self phase : Nat}
    (hs : self < s.ph.next) (hpl : phase < s.ph.next) (hk : kind s self = .schedule ∨ kind s self = .domain) (hno : ¬ Above s self phase)
    (h1 : t.ph.parent = Phase.set s.ph.parent phase (some self)) (h2 : t.ph.kind = s.ph.kind)
    (h3 : t.ph.next = s.ph.next) (h4 : t.name = s.name) : ∃ rank', Inv t rank' := by
  refine ⟨fun x => if Above s x phase then rank x + rank self + 1 else rank x, ?_, ?_, ?_⟩
  · intro a q hq
    unfold parent at hq
    rw [h1] at hq
    by_cases ha : a = phase
    · subst ha
      rw [Phase.set_self] at hq
      cases hq
      refine ⟨?_, by omega, ?_⟩
      · simp only [if_neg hno, if_pos Above.here]; omega
      · unfold kind; rw [h2]; exact hk
    · rw [Phase.set_ne _ _ ha] at hq
      obtain ⟨a1, a2, a3⟩ := h.up a q hq
      refine ⟨?_, by omega, ?_⟩
      · by_cases hq2 : Above s q phase
        · simp only [if_pos hq2, if_pos (Above.on hq hq2)]; omega
        · have : ¬ Above s a phase := by
            intro hab
            cases hab with
            | here => exact ha rfl
            | on hp hb => unfold parent at hp; rw [hq] at hp; cases hp; exact hq2 hb
          simp only [if_neg hq2, if_neg this]; exact a1
      · unfold kind; rw [h2]; exact a3
  · intro a ha
    rw [h4]; exact h.nm a (by omega)
  · intro a ha
    unfold parent
    rw [h1, Phase.set_ne _ _ (by omega)]
    exact h.dom a (by omega)

/-- What a call of `add` does. -/
theorem step_add (s : State) (self phase : Nat) (w x y : Option Nat) :
    ((step s (.add self phase w x y)).1 = s ∧ (step s (.add self phase w x y)).2 ≠ .ok) ∨
    (phase < s.ph.next ∧ self < s.ph.next ∧ kind s phase = .imp ∧
      (step s (.add self phase w x y)).1.ph.parent = Phase.set s.ph.parent s.ph.next (some self) ∧
      (step s (.add self phase w x y)).1.ph.kind = Phase.set s.ph.kind s.ph.next .node ∧
      (step s (.add self phase w x y)).1.ph.next = s.ph.next + 1 ∧
      (step s (.add self phase w x y)).1.name = Phase.set s.name s.ph.next (s.name phase)) ∨
    (phase < s.ph.next ∧ self < s.ph.next ∧ kind s phase ≠ .imp ∧
      (step s (.add self phase w x y)).1.ph.parent = Phase.set s.ph.parent phase (some self) ∧
      (step s (.add self phase w x y)).1.ph.kind = s.ph.kind ∧
      (step s (.add self phase w x y)).1.ph.next = s.ph.next ∧
      (step s (.add self phase w x y)).1.name = s.name) := by
  simp only [step]
  rcases add_same s.ph self phase w x y with h | h | h
  · refine .inl ⟨?_, h.2⟩
    rw [h.1]; simp
  · refine .inr (.inl ⟨h.1, h.2.1, h.2.2.1, h.2.2.2.parent, h.2.2.2.kind, h.2.2.2.next, ?_⟩)
    have := h.2.2.2.next
    rw [if_neg (by rw [this]; show s.ph.next + 1 ≠ _; omega)]
  · refine .inr (.inr ⟨h.1, h.2.1, h.2.2.1, h.2.2.2.parent, h.2.2.2.kind, h.2.2.2.next, ?_⟩)
    rw [if_pos h.2.2.2.next]

theorem runS_snoc (ops : List Op) (o : Op) : runS step init (ops ++ [o]) = (step (runS step init ops) o).1 := by
  rw [runS_append]; rfl

theorem tidy_inv {ops : List Op} (h : Tidy ops) : ∃ rank, Inv (runS step init ops) rank := by
  induction h with
  | nil => exact ⟨_, inv_init⟩
  | newImp _ hne ih =>
    obtain ⟨r, ih⟩ := ih
    rw [runS_snoc]
    exact inv_new ih .imp none nofun rfl rfl rfl _ hne rfl
  | newTop _ hne ih =>
    obtain ⟨r, ih⟩ := ih
    rw [runS_snoc]
    exact inv_newTop ih _ _ hne
  | @add ops self phase w a b _ hk hp ih =>
    obtain ⟨r, ih⟩ := ih
    rw [runS_snoc]
    generalize runS step init ops = s at *
    rcases step_add s self phase w a b with h | ⟨h1, h2, h3, h4, h5, h6, h7⟩ | ⟨h1, h2, h3, h4, h5, h6, h7⟩
    · rw [h.1]; exact ⟨r, ih⟩
    · exact inv_new ih .node (some self) (fun q hq => by cases hq; exact ⟨h2, hk⟩) h4 h5 h6 _ (ih.nm phase h1) h7
    · rcases hp with hp | hp
      · exact absurd hp h3
      · exact inv_move ih h2 h1 hk hp.2 h4 h5 h6 h7

/-! ## How names change -/

/-- Phases around which nothing changes. -/
theorem within_keep {s t : State} {top : Option Nat} {l : List Nat} {a : Nat} (h : Within s top l a)
    (hp : ∀ b, Above s a b → parent t b = parent s b) (hk : ∀ b, Above s a b → kind t b = kind s b) : Within t top l a := by
  induction h with
  | out h => exact .out ((hp _ .here).trans h)
  | on h hkp _ ih =>
    exact .on ((hp _ .here).trans h) ((hk _ (.on h .here)).trans hkp) (ih (fun b hb => hp b (.on h hb)) fun b hb => hk b (.on h hb))

theorem above_lt {s : State} {rank : Nat → Nat} (h : Inv s rank) {a b : Nat} (hb : Above s a b) (ha : a < s.ph.next) : b < s.ph.next := by
  induction hb with
  | here => exact ha
  | on hp _ ih => exact ih (h.up _ _ hp).2.1

theorem within_comp {s : State} {top : Option Nat} {l m : List Nat} {a b : Nat} (h : Within s top l b) (hk : kind s b = .schedule)
    (h2 : Within s (some b) m a) : Within s top (l ++ b :: m) a := by
  induction h2 with
  | out hp => exact .on hp hk h
  | @on a p m hp hkp _ ih =>
    have := Within.on hp hkp ih
    simpa using this

theorem within_nil {s : State} {top : Option Nat} {a : Nat} (h : Within s top [] a) : parent s a = top := by
  generalize he : [] = l at h
  cases h with
  | out h => exact h
  | on => exact absurd (congrArg List.length he) (by simp)

theorem within_above {s : State} {top : Option Nat} {l : List Nat} {a : Nat} (h : Within s top l a) :
    (∀ b ∈ l, Above s a b) ∧ ∀ d, top = some d → Above s a d := by
  induction h with
  | out hp => exact ⟨nofun, fun d hd => .on (hp.trans hd) .here⟩
  | on hp _ _ ih =>
    refine ⟨fun b hb => ?_, fun d hd => .on hp (ih.2 d hd)⟩
    rcases List.mem_append.1 hb with hb | hb
    · exact .on hp (ih.1 b hb)
    · simp only [List.mem_singleton] at hb; rw [hb]; exact .on hp .here

theorem within_rank {s : State} {rank : Nat → Nat} (h : Inv s rank) {l : List Nat} {a b : Nat} (hw : Within s (some b) l a) :
    rank b < rank a := by
  generalize he : some b = top at hw
  induction hw with
  | out hp => exact (h.up _ _ (hp.trans he.symm)).1
  | on hp _ _ ih => have := (h.up _ _ hp).1; have := ih; omega

/-- What is within a schedule stays so when the schedule moves. -/
theorem within_moved {s t : State} {rank : Nat → Nat} (h : Inv s rank) {self phase : Nat}
    (h4 : t.ph.parent = Phase.set s.ph.parent phase (some self)) (h5 : t.ph.kind = s.ph.kind) {m : List Nat} {x : Nat}
    (hw : Within s (some phase) m x) : Within t (some phase) m x := by
  have hne : ∀ {m x}, Within s (some phase) m x → x ≠ phase := fun hw e => by
    have := within_rank h hw
    rw [e] at this
    omega
  generalize he : some phase = top at hw
  induction hw with
  | out hp =>
    refine .out ?_
    have : Within s (some phase) [] _ := .out (hp.trans he.symm)
    unfold parent
    rw [h4, Phase.set_ne _ _ (hne this)]
    exact hp
  | on hp hk hw ih =>
    have : Within s (some phase) _ _ := .on hp hk (he ▸ hw)
    refine .on ?_ ?_ ih
    · unfold parent
      rw [h4, Phase.set_ne _ _ (hne this)]
      exact hp
    · unfold kind; rw [h5]; exact hk

end Verif.PhaseNames
