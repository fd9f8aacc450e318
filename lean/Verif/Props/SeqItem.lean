import Verif.Spec.SeqItem
/-!
# C83: depth, root, path and full name of an item follow its chain of parents
-/
namespace Verif.SeqItem

theorem chain_ne_nil {f : Nat → Option Nat} {i l} (h : Chain f i l) : l ≠ [] := by cases h <;> simp
theorem chain_mem {f : Nat → Option Nat} {i l} (h : Chain f i l) : i ∈ l := by cases h <;> simp

theorem chain_unique {f : Nat → Option Nat} {i l m} (h : Chain f i l) (g : Chain f i m) : l = m := by
  induction h generalizing m with
  | root h => cases g with
    | root => rfl
    | child h' => rw [h] at h'; simp at h'
  | child h _ ih => cases g with
    | root h' => rw [h] at h'; simp at h'
    | child h' g' => rw [h, Option.some.injEq] at h'; subst h'; rw [ih g']

theorem chain_other {f g : Nat → Option Nat} {i l} (h : Chain f i l) (he : ∀ j ∈ l, g j = f j) : Chain g i l := by
  induction h with
  | @root i h => exact .root (by rw [he i (by simp), h])
  | @child i p l h _ ih => exact .child (by rw [he i (by simp), h]) (ih fun j hj => he j (by simp [hj]))

/-- The depths known so far are right, except perhaps those of the items in `X`. -/
def DepthsOk (X : Nat → Prop) (s : State) : Prop := ∀ i d l, ¬ X i → s.depth i = some d → Chain s.parent i l → d = l.length

theorem DepthsOk.set {X : Nat → Prop} {s : State} (h : DepthsOk X s) {i : Nat} {l : List Nat} (hc : Chain s.parent i l) :
    DepthsOk (fun j => X j ∧ j ≠ i) { s with depth := upd s.depth i (some l.length) } := by
  intro j d m hX hj hcj
  simp only [upd] at hj
  by_cases hji : j = i
  · subst hji; simp at hj; subst hj; rw [chain_unique hcj hc]
  · simp [hji] at hj hX; exact h j d m hX hj hcj

theorem DepthsOk.mono {X Y : Nat → Prop} {s : State} (h : DepthsOk X s) (hXY : ∀ i, X i → Y i) : DepthsOk Y s :=
  fun i d l hY hd hc => h i d l (fun hX => hY (hXY i hX)) hd hc

theorem getDepth_ok {X : Nat → Prop} {s : State} (hs : DepthsOk X s) {i : Nat} {l : List Nat} (hc : Chain s.parent i l) :
    (∀ j ∈ l, ¬ X j) → ∀ fuel, l.length ≤ fuel →
    ∃ s', getDepth fuel s i = some (s', l.length) ∧ s'.parent = s.parent ∧ s'.name = s.name ∧ s'.sqr = s.sqr ∧
      s'.sqrName = s.sqrName ∧ DepthsOk X s' := by
  induction hc with
  | @root i h =>
    intro hX fuel hf
    cases fuel with
    | zero => simp at hf
    | succ n =>
      cases hd : s.depth i with
      | some d =>
        have := hs i d [i] (hX i (by simp)) hd (.root h)
        exact ⟨s, by simp [getDepth, hd, this], rfl, rfl, rfl, rfl, hs⟩
      | none =>
        exact ⟨{ s with depth := upd s.depth i (some 1) }, by simp [getDepth, hd, h], rfl, rfl, rfl, rfl,
          (hs.set (.root h)).mono fun _ h => h.1⟩
  | @child i p l h hc ih =>
    intro hX fuel hf
    cases fuel with
    | zero => simp at hf
    | succ n =>
      cases hd : s.depth i with
      | some d =>
        have := hs i d (i :: l) (hX i (by simp)) hd (.child h hc)
        exact ⟨s, by simp [getDepth, hd, this], rfl, rfl, rfl, rfl, hs⟩
      | none =>
        obtain ⟨s', e, h1, h2, h3, h4, h5⟩ := ih (fun j hj => hX j (by simp [hj])) n (by simp at hf; omega)
        exact ⟨{ s' with depth := upd s'.depth i (some (l.length + 1)) }, by simp [getDepth, hd, h, e], h1, h2, h3, h4,
          (h5.set (l := i :: l) (by rw [h1]; exact .child h hc)).mono fun _ h => h.1⟩

/-- In a tree no item is among its own ancestors. -/
theorem chain_no_loop {f : Nat → Option Nat} {i p m l} (hm : Chain f i m) (hp : f i = some p) (hl : Chain f p l) : i ∉ l := by
  intro hmem
  have hm' := chain_unique hm (.child hp hl)
  have suffix : ∀ {a n}, Chain f a n → i ∈ n → m.length ≤ n.length := by
    intro a n hn
    induction hn with
    | @root a h =>
      intro h1
      simp at h1; subst h1
      rw [chain_unique hm (.root h)]; exact Nat.le_refl _
    | @child a b n h hn' ih =>
      intro h1
      rcases List.mem_cons.1 h1 with rfl | h1
      · rw [chain_unique hm (.child h hn')]; exact Nat.le_refl _
      · have := ih h1; simp; omega
  have := suffix hl hmem
  rw [hm'] at this; simp at this; omega

/-- A chain that passes through `i` after a change of the parent of `i` passed through `i` before. -/
theorem chain_through {f : Nat → Option Nat} {i p : Nat} {a n} (hn : Chain (upd f i (some p)) a n) :
    i ∈ n → ∀ m, Chain f a m → i ∈ m := by
  induction hn with
  | @root a h => intro h1 m hm; simp at h1; subst h1; exact chain_mem hm
  | @child a b n h hn' ih =>
    intro h1 m hm
    by_cases hai : a = i
    · subst hai; exact chain_mem hm
    · have hb : f a = some b := by simpa [upd, hai] using h
      cases hm with
      | root h' => rw [hb] at h'; simp at h'
      | @child _ b' m' h' hm' =>
        rw [hb, Option.some.injEq] at h'; subst h'
        rcases List.mem_cons.1 h1 with h1 | h1
        · exact absurd h1.symm hai
        · exact List.mem_cons_of_mem _ (ih h1 m' hm')

/-- The second half of `setContext`. -/
theorem finish_ok (fuel : Nat) (s : State) (i : Nat) (hs : DepthsOk (fun j => j = i ∧ s.parent i ≠ none) s)
    (hc : ∀ j, ∃ l, Chain s.parent j l ∧ l.length ≤ fuel) :
    ∃ s', setDepthFromParent fuel s i = some s' ∧
      s'.parent = s.parent ∧ s'.name = s.name ∧ s'.sqr = s.sqr ∧ s'.sqrName = s.sqrName ∧ DepthsOk (fun _ => False) s' := by
  cases hp : s.parent i with
  | none => exact ⟨s, by simp [setDepthFromParent, hp], rfl, rfl, rfl, rfl, hs.mono fun j h => h.2 hp⟩
  | some p =>
    obtain ⟨l, hl, hlen⟩ := hc p
    obtain ⟨m, hm, _⟩ := hc i
    have hni := chain_no_loop hm hp hl
    obtain ⟨s', e, h1, h2, h3, h4, h5⟩ := getDepth_ok hs hl (fun j hj h => hni (h.1 ▸ hj)) fuel hlen
    refine ⟨{ s' with depth := upd s'.depth i (some (l.length + 1)) }, by simp [setDepthFromParent, hp, e], h1, h2, h3, h4,
      (h5.set (l := i :: l) (by rw [h1]; exact .child hp hl)).mono fun j h => h.2 h.1.1⟩

theorem setContext_ok (fuel : Nat) {s : State} (hs : DepthsOk (fun _ => False) s) (h0 : ∀ j, ∃ l, Chain s.parent j l) (i : Nat) (p q : Option Nat)
    (ho : OutsideIn s (.context i p q)) (hc : ∀ j, ∃ l, Chain (opParent s.parent (.context i p q)) j l ∧ l.length ≤ fuel) :
    ∃ s', setContext fuel s i p q = some s' ∧ s'.parent = opParent s.parent (.context i p q) ∧ s'.name = s.name ∧
      s'.sqrName = s.sqrName ∧
      s'.sqr = upd s.sqr i (match q with | some q => some q | none => (s'.parent i).bind s.sqr) ∧ DepthsOk (fun _ => False) s' := by
  cases p with
  | none =>
    obtain ⟨s', e, h1, h2, h3, h4, h5⟩ := finish_ok fuel { s with sqr := upd s.sqr i (pickSqr s i q) } i
      (fun j d l _ hd hc => hs j d l id hd hc) hc
    refine ⟨s', e, h1, h2, h4, h3.trans ?_, h5⟩
    rw [h1]
    cases q <;> cases hp : s.parent i <;> simp [pickSqr, hp]
  | some p =>
    obtain ⟨s', e, h1, h2, h3, h4, h5⟩ := finish_ok fuel { setParent s i (some p) with sqr := upd s.sqr i (pickSqr (setParent s i (some p)) i q) } i
      (by
        intro j d l hX hd hc
        have hji : j ≠ i := fun e => hX ⟨e, by simp [setParent, upd]⟩
        obtain ⟨m, hm⟩ := h0 j
        have hil : i ∉ l := fun hil => ho j m hji (Option.isSome_iff_exists.2 ⟨d, hd⟩) hm (chain_through hc hil m hm)
        exact hs j d l id hd (chain_other hc fun k hk => by
          have : k ≠ i := fun e => hil (e ▸ hk)
          simp [setParent, upd, this])) hc
    refine ⟨s', e, h1, h2, h4, h3.trans ?_, h5⟩
    rw [h1]
    cases q <;> simp [pickSqr, setParent, upd]

theorem hist_ok (fuel : Nat) {s t : State} (h : Hist fuel s t) (hs : DepthsOk (fun _ => False) s) (h0 : ∀ j, ∃ l, Chain s.parent j l ∧ l.length ≤ fuel) :
    DepthsOk (fun _ => False) t ∧ ∀ j, ∃ l, Chain t.parent j l ∧ l.length ≤ fuel := by
  induction h with
  | nil s => exact ⟨hs, h0⟩
  | @cons s s' t op ho hc he _ ih =>
    cases op with
    | context i p q =>
      obtain ⟨s'', e, h1, _, _, _, h5⟩ := setContext_ok fuel hs (fun j => (h0 j).imp fun _ h => h.1) i p q ho hc
      have : s'' = s' := by simpa [opStep, e] using he
      subst this
      exact ih h5 (by rw [h1]; exact hc)
    | askDepth i =>
      obtain ⟨l, hl, hlen⟩ := h0 i
      obtain ⟨s'', e, h1, _, _, _, h5⟩ := getDepth_ok hs hl (fun _ _ => id) fuel hlen
      have : s'' = s' := by simpa [opStep, e] using he
      subst this
      exact ih h5 (by rw [h1]; exact h0)

/-! ## The theorems -/

/-- C83: the full name of an item is the names of its chain of sequences from the root down, unnamed ones called `_item`,
behind the full name of the sequencer of the root sequence if it has one — whatever the depths say. -/
theorem C83_full_name (s : State) (i : Nat) (l : List Nat) (r : Nat) (hc : Chain s.parent i l) (hr : l.getLast? = some r) (fuel : Nat) (hf : l.length ≤ fuel) :
    fullName fuel s i = some ((match s.sqr r with | some q => s.sqrName q ++ "." | none => "") ++
      joinUp (l.map fun j => if s.name j ≠ "" then s.name j else "_item")) := by
  induction hc generalizing fuel with
  | @root i h =>
    cases fuel with
    | zero => simp at hf
    | succ n =>
      simp at hr; subst hr
      cases hq : s.sqr i <;> simp [fullName, h, hq, joinUp]
  | @child i p l h hc ih =>
    cases fuel with
    | zero => simp at hf
    | succ n =>
      cases l with
      | nil => exact absurd rfl (chain_ne_nil hc)
      | cons a l =>
        rw [List.getLast?_cons_cons] at hr
        simp only [fullName, h, ih hr n (by simp at hf ⊢; omega), Option.map_some, Option.some.injEq, List.map_cons, joinUp]
        simp [String.append_assoc]

/-- C83: the sequence path is the names of the chain from the root down, joined by dots. -/
theorem C83_sequence_path (s : State) (i : Nat) (l : List Nat) (hc : Chain s.parent i l) (fuel : Nat) (hf : l.length ≤ fuel) :
    sequencePath fuel s i = some (joinUp (l.map s.name)) := by
  have main : ∀ {i l}, Chain s.parent i l → ∀ fuel, l.length ≤ fuel → ∀ acc,
      pathLoop fuel s i acc = some (match l.tail with | [] => acc | t => joinUp (t.map s.name) ++ "." ++ acc) := by
    intro i l hc
    induction hc with
    | @root i h =>
      intro fuel hf acc
      cases fuel with
      | zero => simp at hf
      | succ n => simp [pathLoop, h]
    | @child i p l h hc ih =>
      intro fuel hf acc
      cases fuel with
      | zero => simp at hf
      | succ n =>
        simp only [pathLoop, h, ih n (by simp at hf; omega), List.tail_cons]
        cases hc with
        | root => simp [joinUp]
        | @child _ p' l' _ hc' =>
          cases l' with
          | nil => exact absurd rfl (chain_ne_nil hc')
          | cons a l' => simp [joinUp, String.append_assoc]
  rw [sequencePath, main hc fuel hf]
  cases hc with
  | root => simp [joinUp]
  | @child _ p l' _ hc' =>
    cases l' with
    | nil => exact absurd rfl (chain_ne_nil hc')
    | cons a l' => simp [joinUp]

/-- C83: the root sequence of an item is the last of its chain; an item without a parent has none. -/
theorem C83_root_sequence (s : State) (i : Nat) (l : List Nat) (hc : Chain s.parent i l) (fuel : Nat) (hf : l.length ≤ fuel) :
    rootSequence fuel s i = some (if l.length = 1 then none else l.getLast?) := by
  have main : ∀ {i l}, Chain s.parent i l → ∀ fuel, l.length ≤ fuel → top fuel s i = l.getLast? := by
    intro i l hc
    induction hc with
    | @root i h =>
      intro fuel hf
      cases fuel with
      | zero => simp at hf
      | succ n => simp [top, h]
    | @child i p l h hc ih =>
      intro fuel hf
      cases fuel with
      | zero => simp at hf
      | succ n =>
        simp only [top, h, ih n (by simp at hf; omega)]
        cases l with
        | nil => exact absurd rfl (chain_ne_nil hc)
        | cons a l => rw [List.getLast?_cons_cons]
  have ht := main hc fuel hf
  cases hc with
  | root h => simp [rootSequence, h]
  | @child _ p l' h hc' =>
    cases l' with
    | nil => exact absurd rfl (chain_ne_nil hc')
    | cons a l' =>
      simp only [rootSequence, h, ht]
      cases hl : (i :: a :: l').getLast? with
      | none => simp at hl
      | some r => simp

/-- C83: an item given a parent but no sequencer takes the sequencer the parent has at that moment; a given sequencer wins;
no other item's sequencer, and no name, changes. -/
theorem C83_sequencer (fuel : Nat) (s s' : State) (i : Nat) (p q : Option Nat) (h : setContext fuel s i p q = some s') :
    s'.sqr = upd s.sqr i (match q with
      | some q => some q
      | none => match (match p with | some p => some p | none => s.parent i) with
        | some p => s.sqr p
        | none => none) ∧
    s'.parent = (match p with | some p => upd s.parent i (some p) | none => s.parent) ∧ s'.name = s.name := by
  have gd : ∀ fuel (s : State) j r, getDepth fuel s j = some r → r.1.sqr = s.sqr ∧ r.1.parent = s.parent ∧ r.1.name = s.name := by
    intro fuel
    induction fuel with
    | zero => intro s j r h; simp [getDepth] at h
    | succ n ih =>
      intro s j r h
      simp only [getDepth] at h
      split at h
      · cases h; exact ⟨rfl, rfl, rfl⟩
      · split at h
        · cases h; exact ⟨rfl, rfl, rfl⟩
        · split at h
          · simp at h
          · rename_i s' d he
            cases h; exact ih _ _ (s', d) he
  have fin : ∀ s1 : State, setDepthFromParent fuel s1 i = some s' →
      s'.sqr = s1.sqr ∧ s'.parent = s1.parent ∧ s'.name = s1.name := by
    intro s1 h
    unfold setDepthFromParent at h
    split at h
    · cases h; exact ⟨rfl, rfl, rfl⟩
    · rename_i p' _
      cases hg : getDepth fuel s1 p' with
      | none => simp [hg] at h
      | some r => simp [hg] at h; subst h; exact gd _ _ _ _ hg
  cases p with
  | none =>
    obtain ⟨h1, h2, h3⟩ := fin _ h
    refine ⟨h1.trans ?_, h2, h3⟩
    cases q <;> cases hp : s.parent i <;> simp [pickSqr, setParent, hp]
  | some p =>
    obtain ⟨h1, h2, h3⟩ := fin _ h
    refine ⟨h1.trans ?_, h2, h3⟩
    cases q <;> simp [pickSqr, setParent, upd]

/-- C123: after every history in which contexts are set from the outside in, `get_depth` of every item is the length of its chain of
sequences: one more than its parent's. -/
theorem C123_depth_partial (fuel : Nat) (s t : State) (hs : ∀ i, s.depth i = none) (h0 : ∀ i, s.parent i = none) (hf : 0 < fuel) (h : Hist fuel s t) (i : Nat)
    (l : List Nat) (hc : Chain t.parent i l) : ∃ t', getDepth fuel t i = some (t', l.length) ∧ t'.parent = t.parent := by
  obtain ⟨h1, h2⟩ := hist_ok fuel h (fun i d l _ hd _ => by simp [hs i] at hd) (fun j => ⟨[j], .root (h0 j), by simp; omega⟩)
  obtain ⟨m, hm, hlen⟩ := h2 i
  have := chain_unique hc hm
  subst this
  obtain ⟨t', e, h3, _⟩ := getDepth_ok h1 hc (fun _ _ => id) fuel hlen
  exact ⟨t', e, h3⟩

/-! ### Examples and the disagreement -/

def exS : State := { name := fun i => if i = 2 then "" else s!"s{i}", sqrName := fun _ => "env.sqr" }

/-- Sequence 1 runs on sequencer 0, sequence 2 inside 1, item 3 inside 2. -/
def exT : State := ((setContext 9 exS 1 none (some 0)).bind fun s => (setContext 9 s 2 (some 1) none).bind fun s => setContext 9 s 3 (some 2) none).getD exS

example : Chain exT.parent 3 [3, 2, 1] := .child rfl (.child rfl (.root rfl))
example : fullName 9 exT 3 = some "env.sqr.s1._item.s3" := by decide
example : sequencePath 9 exT 3 = some "s1..s3" := by decide
example : rootSequence 9 exT 3 = some (some 1) ∧ rootSequence 9 exT 1 = some none := by decide
example : (getDepth 9 exT 3).map (·.2) = some 3 ∧ exT.sqr 3 = some 0 := by decide

/-- The history of the example meets the hypotheses of `C123_depth_partial`. -/
example : ∃ s t, (∀ i, s.depth i = none) ∧ (∀ i, s.parent i = none) ∧ Hist 9 s t ∧ Chain t.parent 3 [3, 2] := by
  refine ⟨exS, (setContext 9 exS 3 (some 2) none).getD exS, fun _ => rfl, fun _ => rfl, ?_, .child rfl (.root rfl)⟩
  refine .cons (.context 3 (some 2) none) (fun j l _ h => by simp [exS] at h) (fun i => ?_) ?_ (.nil _)
  · by_cases h : i = 3
    · subst h; exact ⟨[3, 2], .child rfl (.root rfl), by decide⟩
    · exact ⟨[i], .root (by simp [opParent, upd, h, exS]), by simp⟩
  · rfl

/-- C123, negation: depth is not always one more than the parent's.  Asked for (or used for an item of its own) before the sequence was
given a parent, the depth of everything below stays as it was. -/
theorem C123_depth_fails : ∃ s : State, (∀ i, s.depth i = none) ∧ (∀ i, s.parent i = none) ∧
    ∃ t t', (setContext 9 s 3 (some 2) none).bind (fun s => setContext 9 s 2 (some 1) none) = some t ∧
      Chain t.parent 3 [3, 2, 1] ∧ getDepth 9 t 3 = some (t', 2) ∧ (getDepth 9 t 2).map (·.2) = some 2 := by
  refine ⟨exS, fun _ => rfl, fun _ => rfl, ((setContext 9 exS 3 (some 2) none).bind fun s => setContext 9 s 2 (some 1) none).getD exS,
    ((setContext 9 exS 3 (some 2) none).bind fun s => setContext 9 s 2 (some 1) none).getD exS, ?_, ?_, ?_, ?_⟩
  · rfl
  · exact .child rfl (.child rfl (.root rfl))
  · rfl
  · decide

/-- C123, negation: an item cannot be taken out of its parent: setting the context with no parent keeps the old one. -/
theorem C123_detach_fails (fuel : Nat) (s s' : State) (i p : Nat) (q : Option Nat) (hp : s.parent i = some p) (h : setContext fuel s i none q = some s') :
    s'.parent i = some p := by
  rw [(C83_sequencer fuel s s' i none q h).2.1]; exact hp

example : ∃ s', setContext 9 exT 3 none none = some s' ∧ exT.parent 3 = some 2 := ⟨_, rfl, rfl⟩

end Verif.SeqItem
