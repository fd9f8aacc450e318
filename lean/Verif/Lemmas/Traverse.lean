import Verif.Spec.Traverse
/-! # Lemmas about traversals -/
namespace Verif.Traverse

theorem Desc.trans {k : Nat → List Nat} {a b c : Nat} (h1 : Desc k a b) (h2 : Desc k b c) : Desc k a c := by
  induction h2 with
  | refl => exact h1
  | step _ hx ih => exact .step ih hx

theorem Desc.le {s : State} (ht : Tree s) {c x : Nat} (h : Desc s.kids c x) : c ≤ x := by
  induction h with
  | refl => exact Nat.le_refl _
  | step _ hx ih => have := (ht.lt _ _ hx).1; omega

theorem Desc.lt {s : State} (ht : Tree s) {c x : Nat} (hc : c < s.next) (h : Desc s.kids c x) : x < s.next := by
  cases h with
  | refl => exact hc
  | step _ hx => exact (ht.lt _ _ hx).2

/-- Two components above a third are above each other. -/
theorem chain {s : State} (ht : Tree s) {a b x : Nat} (h1 : Desc s.kids a x) (h2 : Desc s.kids b x) :
    Desc s.kids a b ∨ Desc s.kids b a := by
  induction h1 with
  | refl => exact .inr h2
  | @step p y h hx ih =>
    generalize hy : y = y' at h2
    cases h2 with
    | refl => subst hy; exact .inl (.step h hx)
    | step h' hx' =>
      subst hy
      have := ht.one _ _ _ hx hx'
      subst this
      exact ih h'

theorem no_back {s : State} (ht : Tree s) {c d : Nat} (h : d ∈ s.kids c) : ¬ Desc s.kids d c := by
  intro hd
  have := hd.le ht
  have := (ht.lt _ _ h).1
  omega

theorem disjoint {s : State} (ht : Tree s) {c a b x : Nat} (ha : a ∈ s.kids c) (hb : b ∈ s.kids c) (hne : a ≠ b)
    (h1 : Desc s.kids a x) : ¬ Desc s.kids b x := by
  intro h2
  have key : ∀ a b, a ∈ s.kids c → b ∈ s.kids c → a ≠ b → ¬ Desc s.kids a b := by
    intro a b ha hb hne hd
    cases hd with
    | refl => exact hne rfl
    | step h hx =>
      have := ht.one _ _ _ hx hb
      subst this
      exact no_back ht ha h
  rcases chain ht h1 h2 with h | h
  · exact key a b ha hb hne h
  · exact key b a hb ha (Ne.symm hne) h

theorem Below.refl {c : Nat} {s : State} (ht : Tree s) : Below c s s :=
  ⟨ht, Nat.le_refl _, fun _ _ _ => ⟨rfl, rfl⟩, fun d _ => ⟨[], by simp, by simp⟩⟩

/-- Old components are below `c` afterwards only if they were before. -/
theorem Below.old {c b : Nat} {s s' : State} (h : Below b s s') {x : Nat} (hx : x < s.next)
    (hd : Desc s'.kids c x) : Desc s.kids c x := by
  induction hd with
  | refl => exact .refl
  | @step p x _ hm ih =>
    have hp := (h.tree.lt _ _ hm).1
    have hpn : p < s.next := by omega
    obtain ⟨l, e, hl⟩ := h.grow p hpn
    rw [e, List.mem_append] at hm
    rcases hm with hm | hm
    · exact .step (ih hpn) hm
    · have := hl _ hm; omega

theorem Below.new {c b : Nat} {s s' : State} (ht : Tree s) (h : Below b s s') {x : Nat} (hc : c < s.next)
    (hd : Desc s.kids c x) : Desc s'.kids c x := by
  induction hd with
  | refl => exact .refl
  | @step p x hp hm ih =>
    obtain ⟨l, e, _⟩ := h.grow p (hp.lt ht hc)
    exact .step ih (by rw [e]; exact List.mem_append_left _ hm)

theorem Below.trans {c : Nat} {s s1 s2 : State} (h1 : Below c s s1) (h2 : Below c s1 s2) : Below c s s2 := by
  refine ⟨h2.tree, Nat.le_trans h1.next h2.next, ?_, ?_⟩
  · intro d hd hn
    have e1 := h1.kids d hd hn
    have e2 := h2.kids d (Nat.lt_of_lt_of_le hd h1.next) (fun h => hn (h1.old hd h))
    exact ⟨e2.1.trans e1.1, e2.2.trans e1.2⟩
  · intro d hd
    obtain ⟨l1, e1, g1⟩ := h1.grow d hd
    obtain ⟨l2, e2, g2⟩ := h2.grow d (Nat.lt_of_lt_of_le hd h1.next)
    refine ⟨l1 ++ l2, by rw [e2, e1, List.append_assoc], ?_⟩
    intro x hx
    rcases List.mem_append.mp hx with hx | hx
    · exact g1 x hx
    · exact Nat.le_trans h1.next (g2 x hx)

theorem Below.up {c d : Nat} {s s' : State} (h : Below d s s') (hd : Desc s.kids c d) : Below c s s' :=
  ⟨h.tree, h.next, fun x hx hn => h.kids x hx (fun h' => hn (hd.trans h')), h.grow⟩

theorem below_setPtr {c q : Nat} {s : State} (ht : Tree s) : Below c s (setPtr s c q) := by
  refine ⟨⟨ht.lt, ht.one, ht.nodup⟩, Nat.le_refl _, ?_, fun d _ => ⟨[], by simp [setPtr], by simp⟩⟩
  intro d _ hn
  have : d ≠ c := fun e => hn (e ▸ .refl)
  simp [setPtr, this]

theorem pre_desc {k : Nat → List Nat} {cs l : List Nat} (h : Pre k cs l) : ∀ x ∈ l, ∃ c ∈ cs, Desc k c x := by
  induction h with
  | nil => intro x hx; cases hx
  | @cons c cs l m _ _ ih1 ih2 =>
    intro x hx
    rw [List.cons_append, List.mem_cons, List.mem_append] at hx
    rcases hx with rfl | hx | hx
    · exact ⟨_, List.mem_cons_self, .refl⟩
    · obtain ⟨d, hd, hdx⟩ := ih1 x hx
      exact ⟨c, List.mem_cons_self, (Desc.step .refl hd).trans hdx⟩
    · obtain ⟨d, hd, hdx⟩ := ih2 x hx
      exact ⟨d, List.mem_cons_of_mem _ hd, hdx⟩

theorem pre_congr {k k' : Nat → List Nat} {cs l : List Nat} (h : Pre k cs l) (he : ∀ x ∈ l, k' x = k x) : Pre k' cs l := by
  induction h with
  | nil => exact .nil
  | @cons c cs l m _ _ ih1 ih2 =>
    refine .cons ?_ (ih2 (fun x hx => he x ?_))
    · rw [he c (by simp)]
      exact ih1 (fun x hx => he x (by simp [hx]))
    · simp [hx]

theorem pre_append {k : Nat → List Nat} {cs ds l m : List Nat} (h1 : Pre k cs l) (h2 : Pre k ds m) :
    Pre k (cs ++ ds) (l ++ m) := by
  induction h1 with
  | nil => exact h2
  | @cons c cs l' m' ha _ _ ih2 =>
    have := Pre.cons ha ih2
    simpa [List.append_assoc] using this

/-- What a completed traversal from `c` guarantees. -/
structure Done (act : Nat → Bool) (c : Nat) (s : State) (r : State × List Nat) : Prop where
  below : Below c s r.1
  pre : ∃ full, Pre r.1.kids [c] full ∧ r.2 = full.filter act

theorem loop_done {act : Nat → Bool} {rec : Nat → State → Option (State × List Nat)} {c : Nat}
    (hrec : ∀ d s r, Tree s → d < s.next → rec d s = some r → Done act d s r) :
    ∀ (m q : Nat) (s : State) (r : State × List Nat), Tree s → c < s.next → s.ptr c = q + 1 →
      loop rec c m (s.kids c)[q]? s = some r →
      Below c s r.1 ∧ r.1.kids c = s.kids c ∧
      (∀ x, x < s.next → x ≠ c → (∀ d ∈ (s.kids c).drop q, ¬ Desc s.kids d x) →
        r.1.kids x = s.kids x ∧ r.1.ptr x = s.ptr x) ∧
      ∃ full, Pre r.1.kids ((s.kids c).drop q) full ∧ r.2 = full.filter act := by
  intro m
  induction m with
  | zero =>
    intro q s r ht hc hp h
    cases hq : (s.kids c)[q]? with
    | some d => rw [hq] at h; simp only [loop] at h; cases h
    | none =>
      rw [hq] at h
      simp only [loop, Option.some.injEq] at h
      subst h
      have : (s.kids c).drop q = [] := List.drop_eq_nil_iff.mpr (List.getElem?_eq_none_iff.mp hq)
      exact ⟨.refl ht, rfl, fun _ _ _ _ => ⟨rfl, rfl⟩, [], by rw [this]; exact .nil, rfl⟩
  | succ m ih =>
    intro q s r ht hc hp h
    cases hq : (s.kids c)[q]? with
    | none =>
      rw [hq] at h
      simp only [loop, Option.some.injEq] at h
      subst h
      have : (s.kids c).drop q = [] := List.drop_eq_nil_iff.mpr (List.getElem?_eq_none_iff.mp hq)
      exact ⟨.refl ht, rfl, fun _ _ _ _ => ⟨rfl, rfl⟩, [], by rw [this]; exact .nil, rfl⟩
    | some d =>
      rw [hq] at h
      simp only [loop] at h
      have hdm : d ∈ s.kids c := List.mem_of_getElem? hq
      have hdlt := ht.lt c d hdm
      cases hr : rec d s with
      | none => rw [hr] at h; cases h
      | some x =>
        rw [hr] at h
        simp only at h
        have hD := hrec d s x ht hdlt.2 hr
        obtain ⟨hB, full1, hpre1, hx2⟩ := hD
        have hcd : ¬ Desc s.kids d c := no_back ht hdm
        obtain ⟨hk1, hp1⟩ := hB.kids c hc hcd
        have hdrop : (s.kids c).drop q = d :: (s.kids c).drop (q + 1) := by
          obtain ⟨hlt, he⟩ := List.getElem?_eq_some_iff.mp hq
          rw [List.drop_eq_getElem_cons hlt, he]
        -- the state in which the loop goes on
        have hB' : Below c s (setPtr x.1 c (x.1.ptr c + 1)) :=
          (hB.up (.step .refl hdm)).trans (below_setPtr hB.tree)
        generalize hs2 : setPtr x.1 c (x.1.ptr c + 1) = s2 at hB'
        have h2k : s2.kids = x.1.kids := by rw [← hs2]; rfl
        have h2p : ∀ y, y ≠ c → s2.ptr y = x.1.ptr y := by
          intro y hy; rw [← hs2]; simp [setPtr, hy]
        have h2c : s2.ptr c = q + 1 + 1 := by rw [← hs2]; simp [setPtr, hp1, hp]
        have h2n : s2.next = x.1.next := by rw [← hs2]; rfl
        have hkc : s2.kids c = s.kids c := by rw [h2k, hk1]
        have hgn : getNext x.1 c = (s2, (s2.kids c)[q + 1]?) := by
          rw [getNext, hs2, hp1, hp, h2k]
        rw [hgn] at h
        simp only at h
        cases hl : loop rec c m (s2.kids c)[q + 1]? s2 with
        | none => rw [hl] at h; cases h
        | some z =>
          rw [hl] at h
          simp only [Option.some.injEq] at h
          subst h
          have hc2 : c < s2.next := Nat.lt_of_lt_of_le hc hB'.next
          obtain ⟨g1, g2, g3, full2, g4, g5⟩ := ih (q + 1) s2 z hB'.tree hc2 h2c hl
          have hnd := ht.nodup c
          have hdn : d ∉ (s.kids c).drop (q + 1) := by
            have : ((s.kids c).drop q).Nodup := List.Nodup.sublist (List.drop_sublist _ _) hnd
            rw [hdrop] at this
            exact (List.nodup_cons.mp this).1
          refine ⟨hB'.trans g1, g2.trans hkc, ?_, full1 ++ full2, ?_, ?_⟩
          · intro y hy hyc hny
            rw [hdrop] at hny
            have e1 := hB.kids y hy (hny d List.mem_cons_self)
            have hy2 : y < s2.next := Nat.lt_of_lt_of_le hy hB'.next
            have e2 := g3 y hy2 hyc (by
              intro e he hde
              rw [hkc] at he
              exact hny e (List.mem_cons_of_mem _ he) (hB'.old hy hde))
            rw [h2k, e1.1] at e2
            rw [h2p y hyc, e1.2] at e2
            exact e2
          · rw [hdrop]
            have : Pre z.1.kids [d] full1 := by
              refine pre_congr hpre1 ?_
              intro y hy
              obtain ⟨d', hd', hdy⟩ := pre_desc hpre1 y hy
              obtain rfl := List.mem_singleton.mp hd'
              have hylt : y < s2.next := by
                rw [h2n]
                exact hdy.lt hB.tree (Nat.lt_of_lt_of_le hdlt.2 hB.next)
              have hyc : y ≠ c := by
                have := hdy.le hB.tree
                omega
              rw [← h2k]
              refine (g3 y hylt hyc ?_).1
              intro e he hde
              have hem : e ∈ s2.kids c := List.mem_of_mem_drop he
              rw [hkc] at he
              have hne : d' ≠ e := fun e' => hdn (e' ▸ he)
              have hdm2 : d' ∈ s2.kids c := by rw [hkc]; exact hdm
              rw [← h2k] at hdy
              exact disjoint hB'.tree hdm2 hem hne hdy hde
            rw [hkc] at g4
            exact pre_append this g4
          · rw [hx2, g5, List.filter_append]

theorem topdown_done {ex : Nat → State → State} (hex : Builds ex) (act : Nat → Bool) (m : Nat) :
    ∀ (n c : Nat) (s : State) (r : State × List Nat), Tree s → c < s.next → topdown ex act m n c s = some r →
      Done act c s r := by
  intro n
  induction n with
  | zero => intro c s r _ _ h; simp only [topdown] at h; cases h
  | succ n ih =>
    intro c s r ht hc h
    rw [topdown] at h
    have hB0 : Below c s (if act c then ex c s else s) := by
      split
      · exact hex c s ht hc
      · exact .refl ht
    have hown : (if act c = true then [c] else []) = [c].filter act := by
      cases ha : act c <;> simp [ha]
    rw [hown] at h
    generalize (if act c then ex c s else s) = s0 at *
    simp only at h
    have hc0 : c < s0.next := Nat.lt_of_lt_of_le hc hB0.next
    by_cases he : (s0.kids c).isEmpty = true
    · rw [if_pos he] at h
      simp only [Option.some.injEq] at h
      subst h
      have hk : s0.kids c = [] := by simpa using he
      refine ⟨hB0, [c], ?_, rfl⟩
      have hpp := Pre.cons (kids := s0.kids) (c := c) (cs := []) (l := []) (m := []) (by rw [hk]; exact .nil) .nil
      simpa using hpp
    · rw [if_neg he] at h
      have hB1 : Below c s0 (setPtr s0 c 1) := below_setPtr hB0.tree
      simp only [getFirst] at h
      cases hl : loop (topdown ex act m n) c m (s0.kids c)[0]? (setPtr s0 c 1) with
      | none => rw [hl] at h; cases h
      | some z =>
        rw [hl] at h
        simp only [Option.some.injEq] at h
        subst h
        obtain ⟨g1, g2, _, full, g4, g5⟩ := loop_done (act := act) (rec := topdown ex act m n) (c := c) ih m 0 (setPtr s0 c 1) z
          hB1.tree hc0 (by simp [setPtr]) hl
        refine ⟨hB0.trans (hB1.trans g1), c :: full, ?_, ?_⟩
        · have e : z.1.kids c = (setPtr s0 c 1).kids c := g2
          rw [List.drop_zero, ← e] at g4
          have hpp := Pre.cons (cs := []) (m := []) g4 .nil
          simpa using hpp
        · rw [g5, show c :: full = [c] ++ full from rfl, List.filter_append]

/-! ## What the listings contain -/

theorem desc_cons {k : Nat → List Nat} {c x : Nat} (h : Desc k c x) : x = c ∨ ∃ d ∈ k c, Desc k d x := by
  induction h with
  | refl => exact .inl rfl
  | @step p x _ hx ih =>
    rcases ih with rfl | ⟨d, hd, hdx⟩
    · exact .inr ⟨x, hx, .refl⟩
    · exact .inr ⟨d, hd, .step hdx hx⟩

theorem pre_all {k : Nat → List Nat} {cs l : List Nat} (h : Pre k cs l) : ∀ c ∈ cs, ∀ x, Desc k c x → x ∈ l := by
  induction h with
  | nil => intro c hc; cases hc
  | @cons c cs l m _ _ ih1 ih2 =>
    intro d hd x hx
    rw [List.cons_append, List.mem_cons, List.mem_append]
    rcases List.mem_cons.mp hd with rfl | hd
    · rcases desc_cons hx with rfl | ⟨e, he, hex⟩
      · exact .inl rfl
      · exact .inr (.inl (ih1 e he x hex))
    · exact .inr (.inr (ih2 d hd x hx))

def Apart (k : Nat → List Nat) (cs : List Nat) : Prop :=
  cs.Nodup ∧ ∀ a ∈ cs, ∀ b ∈ cs, a ≠ b → ∀ x, Desc k a x → ¬ Desc k b x

theorem apart_kids {s : State} (ht : Tree s) (c : Nat) : Apart s.kids (s.kids c) :=
  ⟨ht.nodup c, fun _ ha _ hb hne _ hx => disjoint ht ha hb hne hx⟩

theorem pre_nodup {s : State} (ht : Tree s) {cs l : List Nat} (h : Pre s.kids cs l) : Apart s.kids cs → l.Nodup := by
  induction h with
  | nil => intro _; exact List.nodup_nil
  | @cons c cs l m hl hm ih1 ih2 =>
    intro hA
    have hc := List.nodup_cons.mp hA.1
    have hcl : c ∉ l := by
      intro h
      obtain ⟨d, hd, hdc⟩ := pre_desc hl c h
      exact no_back ht hd hdc
    have hcm : ∀ x ∈ m, ¬ Desc s.kids c x := by
      intro x hx
      obtain ⟨d, hd, hdx⟩ := pre_desc hm x hx
      intro hcx
      exact hA.2 c List.mem_cons_self d (List.mem_cons_of_mem _ hd) (fun e => hc.1 (e ▸ hd)) x hcx hdx
    rw [List.cons_append, List.nodup_cons, List.mem_append, List.nodup_append]
    refine ⟨?_, ih1 (apart_kids ht c), ih2 ⟨hc.2, fun a ha b hb => hA.2 a (List.mem_cons_of_mem _ ha) b (List.mem_cons_of_mem _ hb)⟩, ?_⟩
    · rintro (h | h)
      · exact hcl h
      · exact hcm c h .refl
    · intro a ha b hb hab
      subst hab
      obtain ⟨d, hd, hda⟩ := pre_desc hl a ha
      exact hcm a hb ((Desc.step .refl hd).trans hda)

theorem post_desc {k : Nat → List Nat} {cs l : List Nat} (h : Post k cs l) : ∀ x ∈ l, ∃ c ∈ cs, Desc k c x := by
  induction h with
  | nil => intro x hx; cases hx
  | @cons c cs l m _ _ ih1 ih2 =>
    intro x hx
    rw [List.mem_append, List.mem_cons] at hx
    rcases hx with hx | rfl | hx
    · obtain ⟨d, hd, hdx⟩ := ih1 x hx
      exact ⟨c, List.mem_cons_self, (Desc.step .refl hd).trans hdx⟩
    · exact ⟨_, List.mem_cons_self, .refl⟩
    · obtain ⟨d, hd, hdx⟩ := ih2 x hx
      exact ⟨d, List.mem_cons_of_mem _ hd, hdx⟩

theorem post_all {k : Nat → List Nat} {cs l : List Nat} (h : Post k cs l) : ∀ c ∈ cs, ∀ x, Desc k c x → x ∈ l := by
  induction h with
  | nil => intro c hc; cases hc
  | @cons c cs l m _ _ ih1 ih2 =>
    intro d hd x hx
    rw [List.mem_append, List.mem_cons]
    rcases List.mem_cons.mp hd with rfl | hd
    · rcases desc_cons hx with rfl | ⟨e, he, hex⟩
      · exact .inr (.inl rfl)
      · exact .inl (ih1 e he x hex)
    · exact .inr (.inr (ih2 d hd x hx))

theorem post_nodup {s : State} (ht : Tree s) {cs l : List Nat} (h : Post s.kids cs l) : Apart s.kids cs → l.Nodup := by
  induction h with
  | nil => intro _; exact List.nodup_nil
  | @cons c cs l m hl hm ih1 ih2 =>
    intro hA
    have hc := List.nodup_cons.mp hA.1
    have hcl : c ∉ l := by
      intro h
      obtain ⟨d, hd, hdc⟩ := post_desc hl c h
      exact no_back ht hd hdc
    have hcm : ∀ x ∈ m, ¬ Desc s.kids c x := by
      intro x hx
      obtain ⟨d, hd, hdx⟩ := post_desc hm x hx
      intro hcx
      exact hA.2 c List.mem_cons_self d (List.mem_cons_of_mem _ hd) (fun e => hc.1 (e ▸ hd)) x hcx hdx
    rw [List.nodup_append, List.nodup_cons]
    refine ⟨ih1 (apart_kids ht c), ⟨fun h => hcm c h .refl,
      ih2 ⟨hc.2, fun a ha b hb => hA.2 a (List.mem_cons_of_mem _ ha) b (List.mem_cons_of_mem _ hb)⟩⟩, ?_⟩
    intro a ha b hb hab
    subst hab
    rcases List.mem_cons.mp hb with rfl | hb
    · exact hcl ha
    · obtain ⟨d, hd, hda⟩ := post_desc hl a ha
      exact hcm a hb ((Desc.step .refl hd).trans hda)

theorem post_append {k : Nat → List Nat} {cs ds l m : List Nat} (h1 : Post k cs l) (h2 : Post k ds m) :
    Post k (cs ++ ds) (l ++ m) := by
  induction h1 with
  | nil => exact h2
  | @cons c cs l' m' ha _ _ ih2 =>
    have := Post.cons ha ih2
    simpa [List.append_assoc] using this

/-! ## Bottom-up -/

/-- What a completed traversal without creation of components guarantees. -/
structure Same (act : Nat → Bool) (c : Nat) (s : State) (r : State × List Nat) : Prop where
  kids : r.1.kids = s.kids
  next : r.1.next = s.next
  ptr : ∀ d, ¬ Desc s.kids c d → r.1.ptr d = s.ptr d
  post : ∃ full, Post s.kids [c] full ∧ r.2 = full.filter act

theorem Tree.congr {s s' : State} (ht : Tree s) (hk : s'.kids = s.kids) (hn : s'.next = s.next) : Tree s' :=
  ⟨fun p x h => by rw [hk] at h; rw [hn]; exact ht.lt p x h, fun p q x h h' => by rw [hk] at h h'; exact ht.one p q x h h',
    fun p => by rw [hk]; exact ht.nodup p⟩

theorem loop_same {act : Nat → Bool} {rec : Nat → State → Option (State × List Nat)} {c : Nat}
    (hrec : ∀ d s r, Tree s → rec d s = some r → Same act d s r) :
    ∀ (m q : Nat) (s : State) (r : State × List Nat), Tree s → s.ptr c = q + 1 →
      loop rec c m (s.kids c)[q]? s = some r →
      r.1.kids = s.kids ∧ r.1.next = s.next ∧ (∀ d, ¬ Desc s.kids c d → r.1.ptr d = s.ptr d) ∧
      ∃ full, Post s.kids ((s.kids c).drop q) full ∧ r.2 = full.filter act := by
  intro m
  induction m with
  | zero =>
    intro q s r ht hp h
    cases hq : (s.kids c)[q]? with
    | some d => rw [hq] at h; simp only [loop] at h; cases h
    | none =>
      rw [hq] at h
      simp only [loop, Option.some.injEq] at h
      subst h
      have : (s.kids c).drop q = [] := List.drop_eq_nil_iff.mpr (List.getElem?_eq_none_iff.mp hq)
      exact ⟨rfl, rfl, fun _ _ => rfl, [], by rw [this]; exact .nil, rfl⟩
  | succ m ih =>
    intro q s r ht hp h
    cases hq : (s.kids c)[q]? with
    | none =>
      rw [hq] at h
      simp only [loop, Option.some.injEq] at h
      subst h
      have : (s.kids c).drop q = [] := List.drop_eq_nil_iff.mpr (List.getElem?_eq_none_iff.mp hq)
      exact ⟨rfl, rfl, fun _ _ => rfl, [], by rw [this]; exact .nil, rfl⟩
    | some d =>
      rw [hq] at h
      simp only [loop] at h
      have hdm : d ∈ s.kids c := List.mem_of_getElem? hq
      cases hr : rec d s with
      | none => rw [hr] at h; cases h
      | some x =>
        rw [hr] at h
        simp only at h
        obtain ⟨k1, n1, p1, full1, hpost1, hx2⟩ := hrec d s x ht hr
        have hp1 : x.1.ptr c = s.ptr c := p1 c (no_back ht hdm)
        have hdrop : (s.kids c).drop q = d :: (s.kids c).drop (q + 1) := by
          obtain ⟨hlt, he⟩ := List.getElem?_eq_some_iff.mp hq
          rw [List.drop_eq_getElem_cons hlt, he]
        generalize hs2 : setPtr x.1 c (x.1.ptr c + 1) = s2
        have h2k : s2.kids = s.kids := by rw [← hs2]; exact k1
        have h2n : s2.next = s.next := by rw [← hs2]; exact n1
        have h2c : s2.ptr c = q + 1 + 1 := by rw [← hs2]; simp [setPtr, hp1, hp]
        have h2p : ∀ d, d ≠ c → s2.ptr d = x.1.ptr d := by intro d hd; rw [← hs2]; simp [setPtr, hd]
        have hgn : getNext x.1 c = (s2, (s2.kids c)[q + 1]?) := by
          rw [getNext, hs2, hp1, hp, k1, h2k]
        rw [hgn] at h
        simp only at h
        cases hl : loop rec c m (s2.kids c)[q + 1]? s2 with
        | none => rw [hl] at h; cases h
        | some z =>
          rw [hl] at h
          simp only [Option.some.injEq] at h
          subst h
          obtain ⟨g1, g2, g3, full2, g4, g5⟩ := ih (q + 1) s2 z (ht.congr h2k h2n) h2c hl
          refine ⟨g1.trans h2k, g2.trans h2n, ?_, full1 ++ full2, ?_, ?_⟩
          · intro e he
            rw [g3 e (by rw [h2k]; exact he), h2p e (fun e' => he (e' ▸ .refl)), p1 e (fun h => he ((Desc.step .refl hdm).trans h))]
          · rw [hdrop]; rw [h2k] at g4; exact post_append hpost1 g4
          · rw [hx2, g5, List.filter_append]

theorem own_filter (act : Nat → Bool) (c : Nat) : (if act c = true then [c] else []) = [c].filter act := by
  cases ha : act c <;> simp [ha]

theorem bottomup_same {ex : Nat → State → State} (hex : Keeps ex) (act : Nat → Bool) (m : Nat) :
    ∀ (n c : Nat) (s : State) (r : State × List Nat), Tree s → bottomup ex act m n c s = some r → Same act c s r := by
  intro n
  induction n with
  | zero => intro c s r _ h; simp only [bottomup] at h; cases h
  | succ n ih =>
    intro c s r ht h
    rw [bottomup] at h
    -- the children
    have hkids : ∀ z, (if (s.kids c).isEmpty then some (s, []) else
        loop (bottomup ex act m n) c m (getFirst s c).2 (getFirst s c).1) = some z →
        z.1.kids = s.kids ∧ z.1.next = s.next ∧ (∀ d, ¬ Desc s.kids c d → z.1.ptr d = s.ptr d) ∧
        ∃ full, Post s.kids (s.kids c) full ∧ z.2 = full.filter act := by
      intro z hz
      by_cases he : (s.kids c).isEmpty = true
      · rw [if_pos he] at hz
        simp only [Option.some.injEq] at hz
        subst hz
        have hk : s.kids c = [] := by simpa using he
        exact ⟨rfl, rfl, fun _ _ => rfl, [], by rw [hk]; exact .nil, rfl⟩
      · rw [if_neg he] at hz
        obtain ⟨g1, g2, g3, g4⟩ := loop_same (act := act) (c := c) ih m 0 (setPtr s c 1) z (ht.congr rfl rfl) (by simp [setPtr]) hz
        refine ⟨g1, g2, ?_, g4⟩
        intro d hd
        rw [g3 d hd]
        have : d ≠ c := fun e => hd (e ▸ .refl)
        simp [setPtr, this]
    simp only at h
    generalize (if (s.kids c).isEmpty then some (s, []) else
        loop (bottomup ex act m n) c m (getFirst s c).2 (getFirst s c).1) = o at h hkids
    cases o with
    | none => cases h
    | some z =>
      simp only [Option.some.injEq] at h
      obtain ⟨k1, n1, p1, full, f1, f2⟩ := hkids z rfl
      have hpost : Post s.kids [c] (full ++ [c]) := Post.cons f1 .nil
      cases ha : act c with
      | false =>
        rw [ha] at h
        simp only [Bool.false_eq_true, if_false] at h
        subst h
        exact ⟨k1, n1, p1, full ++ [c], hpost, by rw [f2, List.filter_append, List.filter_cons_of_neg (by simp [ha])]; simp⟩
      | true =>
        rw [ha] at h
        simp only [if_true] at h
        subst h
        obtain ⟨e1, e2, e3⟩ := hex c z.1
        refine ⟨e1.trans k1, e2.trans n1, ?_, full ++ [c], hpost, ?_⟩
        · intro d hd
          show (ex c z.1).ptr d = s.ptr d
          rw [e3 d (by rw [k1]; exact hd), p1 d hd]
        · rw [f2, List.filter_append, List.filter_cons_of_pos (by simp [ha])]; rfl

/-! ## Completion -/

theorem loop_some {rec : Nat → State → Option (State × List Nat)} {c : Nat} {s0 : State} (ht : Tree s0)
    (hrec : ∀ d s, d ∈ s0.kids c → s.kids = s0.kids → s.next = s0.next →
      ∃ r, rec d s = some r ∧ r.1.kids = s.kids ∧ r.1.next = s.next ∧ ∀ e, ¬ Desc s.kids d e → r.1.ptr e = s.ptr e) :
    ∀ (k q : Nat) (s : State), s.kids = s0.kids → s.next = s0.next → s.ptr c = q + 1 → (s0.kids c).length ≤ k + q →
      ∃ r, loop rec c k (s0.kids c)[q]? s = some r ∧ r.1.kids = s0.kids ∧ r.1.next = s0.next ∧
        ∀ e, ¬ Desc s0.kids c e → r.1.ptr e = s.ptr e := by
  intro k
  induction k with
  | zero =>
    intro q s hk hn hp hl
    rw [List.getElem?_eq_none_iff.mpr (by omega)]
    exact ⟨_, rfl, hk, hn, fun _ _ => rfl⟩
  | succ k ih =>
    intro q s hk hn hp hl
    cases hq : (s0.kids c)[q]? with
    | none => exact ⟨(s, []), by simp only [loop], hk, hn, fun _ _ => rfl⟩
    | some d =>
      have hdm : d ∈ s0.kids c := List.mem_of_getElem? hq
      obtain ⟨x, hx, x1, x2, x3⟩ := hrec d s hdm hk hn
      have hp1 : x.1.ptr c = s.ptr c := x3 c (by rw [hk]; exact no_back ht hdm)
      have hgn : getNext x.1 c = (setPtr x.1 c (x.1.ptr c + 1), (s0.kids c)[q + 1]?) := by
        rw [getNext, x1, hk, hp1, hp]
      obtain ⟨z, hz, z1, z2, z3⟩ := ih (q + 1) (setPtr x.1 c (x.1.ptr c + 1)) (x1.trans hk) (x2.trans hn)
        (by simp [setPtr, hp1, hp]) (by omega)
      refine ⟨(z.1, x.2 ++ z.2), by simp only [loop, hx, hgn, hz], z1, z2, ?_⟩
      intro e he
      have hec : e ≠ c := fun e' => he (e' ▸ .refl)
      show z.1.ptr e = _
      rw [z3 e he, ← x3 e (by rw [hk]; exact fun h => he ((Desc.step .refl hdm).trans h))]
      simp [setPtr, hec]

theorem topdown_some {ex : Nat → State → State} (hex : Keeps ex) (act : Nat → Bool) (m : Nat) :
    ∀ (n c : Nat) (s : State), Tree s → c < s.next → s.next ≤ n + c → (∀ d, (s.kids d).length ≤ m) →
      ∃ r, topdown ex act m n c s = some r ∧ r.1.kids = s.kids ∧ r.1.next = s.next ∧
        ∀ e, ¬ Desc s.kids c e → r.1.ptr e = s.ptr e := by
  intro n
  induction n with
  | zero => intro c s _ hc hn _; omega
  | succ n ih =>
    intro c s ht hc hn hm
    rw [topdown]
    have h0 : (if act c then ex c s else s).kids = s.kids ∧ (if act c then ex c s else s).next = s.next ∧
        ∀ e, ¬ Desc s.kids c e → (if act c then ex c s else s).ptr e = s.ptr e := by
      split
      · exact hex c s
      · exact ⟨rfl, rfl, fun _ _ => rfl⟩
    generalize (if act c then ex c s else s) = s0 at *
    obtain ⟨k0, n0, p0⟩ := h0
    simp only
    by_cases he : (s0.kids c).isEmpty = true
    · rw [if_pos he]; exact ⟨_, rfl, k0, n0, p0⟩
    · rw [if_neg he]
      have ht0 : Tree s0 := ht.congr k0 n0
      obtain ⟨r, hr, r1, r2, r3⟩ := loop_some (rec := topdown ex act m n) (c := c) (s0 := s0) ht0 (by
        intro d s' hd hk hn'
        have hlt := ht0.lt c d hd
        exact ih d s' (ht0.congr hk hn') (by rw [hn']; exact hlt.2) (by rw [hn']; omega) (by rw [hk, k0]; exact hm))
        m 0 (setPtr s0 c 1) rfl rfl (by simp [setPtr]) (by rw [k0]; have := hm c; omega)
      simp only [getFirst, hr]
      refine ⟨_, rfl, r1.trans k0, r2.trans n0, ?_⟩
      intro e hed
      have hec : e ≠ c := fun e' => hed (e' ▸ .refl)
      show r.1.ptr e = _
      rw [r3 e (by rw [k0]; exact hed), ← p0 e hed]
      simp [setPtr, hec]

theorem bottomup_some {ex : Nat → State → State} (hex : Keeps ex) (act : Nat → Bool) (m : Nat) :
    ∀ (n c : Nat) (s : State), Tree s → c < s.next → s.next ≤ n + c → (∀ d, (s.kids d).length ≤ m) →
      ∃ r, bottomup ex act m n c s = some r := by
  intro n
  induction n with
  | zero => intro c s _ hc hn _; omega
  | succ n ih =>
    intro c s ht hc hn hm
    rw [bottomup]
    by_cases he : (s.kids c).isEmpty = true
    · simp only [if_pos he]; exact ⟨_, rfl⟩
    · simp only [if_neg he, getFirst]
      obtain ⟨r, hr, _⟩ := loop_some (rec := bottomup ex act m n) (c := c) (s0 := s) ht (by
        intro d s' hd hk hn'
        have hlt := ht.lt c d hd
        have ht' : Tree s' := ht.congr hk hn'
        obtain ⟨r, hr⟩ := ih d s' ht' (by rw [hn']; exact hlt.2) (by rw [hn']; omega) (by rw [hk]; exact hm)
        have hS := bottomup_same hex act m n d s' r ht' hr
        exact ⟨r, hr, hS.kids, hS.next, hS.ptr⟩) m 0 (setPtr s c 1) rfl rfl (by simp [setPtr]) (by have := hm c; omega)
      rw [hr]
      exact ⟨_, rfl⟩

theorem keeps_builds {ex : Nat → State → State} (hex : Keeps ex) : Builds ex := by
  intro c s ht hc
  obtain ⟨h1, h2, h3⟩ := hex c s
  refine ⟨ht.congr h1 h2, by rw [h2]; exact Nat.le_refl _, fun d _ hn => ⟨by rw [h1], h3 d hn⟩, fun d _ => ⟨[], by rw [h1]; simp, by simp⟩⟩

/-! ## find_all -/

theorem find_same (act : Nat → Bool) (m : Nat) : ∀ (n c : Nat) (s : State), Tree s → c < s.next → s.next ≤ n + c →
    (∀ d, (s.kids d).length ≤ m) → ∃ r, findAll act m n c s = some r ∧ Same act c s r := by
  intro n
  induction n with
  | zero => intro c s _ hc hn _; omega
  | succ n ih =>
    intro c s ht hc hn hm
    have hloop : ∀ (k q : Nat) (s' : State), s'.kids = s.kids → s'.next = s.next → s'.ptr c = q + 1 → q < (s.kids c).length →
        (s.kids c).length ≤ k + q → ∃ r, findLoop (findAll act m n) c k (s.kids c)[q]? s' = some r ∧
          r.1.kids = s.kids ∧ r.1.next = s.next ∧ (∀ d, ¬ Desc s.kids c d → r.1.ptr d = s'.ptr d) ∧
          ∃ full, Post s.kids ((s.kids c).drop q) full ∧ r.2 = full.filter act := by
      intro k
      induction k with
      | zero => intro q s' _ _ _ h1 h2; omega
      | succ k ihk =>
        intro q s' hk hn' hp hq hl
        have hget : (s.kids c)[q]? = some ((s.kids c)[q]) := List.getElem?_eq_getElem hq
        generalize hd : (s.kids c)[q] = d at hget
        have hdm : d ∈ s.kids c := List.mem_of_getElem? hget
        have hlt := ht.lt c d hdm
        have ht' : Tree s' := ht.congr hk hn'
        obtain ⟨x, hx, hS⟩ := ih d s' ht' (by rw [hn']; exact hlt.2) (by rw [hn']; omega) (by rw [hk]; exact hm)
        have hp1 : x.1.ptr c = q + 1 := by rw [hS.ptr c (by rw [hk]; exact no_back ht hdm), hp]
        have hxk : x.1.kids = s.kids := hS.kids.trans hk
        obtain ⟨full1, hpost1, hx2⟩ := hS.post
        rw [hk] at hpost1
        have hdrop : (s.kids c).drop q = d :: (s.kids c).drop (q + 1) := by
          rw [List.drop_eq_getElem_cons hq, hd]
        have hxp : ∀ e, ¬ Desc s.kids c e → x.1.ptr e = s'.ptr e := fun e he =>
          hS.ptr e (by rw [hk]; exact fun h => he ((Desc.step .refl hdm).trans h))
        rw [hget]
        by_cases hnx : q + 1 < (s.kids c).length
        · have hh : hasNext x.1 c = true := by simp [hasNext, hxk, hp1, hnx]
          have hgn : getNext x.1 c = (setPtr x.1 c (x.1.ptr c + 1), (s.kids c)[q + 1]?) := by
            rw [getNext, hxk, hp1]
          obtain ⟨z, hz, g1, g2, g3, full2, g4, g5⟩ := ihk (q + 1) (setPtr x.1 c (x.1.ptr c + 1)) hxk (hS.next.trans hn')
            (by simp [setPtr, hp1]) hnx (by omega)
          refine ⟨(z.1, x.2 ++ z.2), ?_, g1, g2, ?_, full1 ++ full2, ?_, ?_⟩
          · simp only [findLoop, hx, hh, if_true, hgn, hz]
          · intro e he
            have hec : e ≠ c := fun e' => he (e' ▸ .refl)
            show z.1.ptr e = _
            rw [g3 e he, ← hxp e he]
            simp [setPtr, hec]
          · rw [hdrop]; exact post_append hpost1 g4
          · rw [hx2, g5, List.filter_append]
        · have hh : hasNext x.1 c = false := by simp [hasNext, hxk, hp1]; omega
          refine ⟨x, ?_, hxk, hS.next.trans hn', hxp, full1, ?_, hx2⟩
          · simp only [findLoop, hx, hh, Bool.false_eq_true, if_false]
          · rw [hdrop, List.drop_eq_nil_iff.mpr (by omega)]; exact hpost1
    rw [findAll]
    by_cases he : (s.kids c).isEmpty = true
    · simp only [if_pos he]
      have hk : s.kids c = [] := by simpa using he
      refine ⟨_, rfl, rfl, rfl, fun _ _ => rfl, [c], ?_, ?_⟩
      · have hp := Post.cons (kids := s.kids) (c := c) (cs := []) (l := []) (m := []) (by rw [hk]; exact .nil) .nil
        simpa using hp
      · rw [own_filter]; rfl
    · simp only [if_neg he, getFirst]
      have hpos : 0 < (s.kids c).length := by
        cases h : s.kids c with
        | nil => rw [h] at he; exact absurd rfl he
        | cons a l => simp
      obtain ⟨z, hz, g1, g2, g3, full, g4, g5⟩ := hloop m 0 (setPtr s c 1) rfl rfl (by simp [setPtr]) hpos (by have := hm c; omega)
      rw [hz]
      refine ⟨_, rfl, g1, g2, ?_, full ++ [c], Post.cons g4 .nil, ?_⟩
      · intro d hd
        have hdc : d ≠ c := fun e => hd (e ▸ .refl)
        show z.1.ptr d = _
        rw [g3 d hd]
        simp [setPtr, hdc]
      · rw [g5, own_filter, List.filter_append]

theorem task_post (kids : Nat → List Nat) (act : Nat → Bool) : ∀ (n c : Nat) (l : List Nat), taskOrder kids act n c = some l →
    ∃ full, Post kids [c] full ∧ l = full.filter act := by
  intro n
  induction n with
  | zero => intro c l h; simp only [taskOrder] at h; cases h
  | succ n ih =>
    intro c l h
    have key : ∀ (cs pre acc0 : List Nat) (l : List Nat), (∃ f, Post kids pre f ∧ acc0 = f.filter act) →
        cs.foldl (fun acc d => acc.bind fun l => (taskOrder kids act n d).map fun l' => l ++ l') (some acc0) = some l →
        ∃ full, Post kids (pre ++ cs) full ∧ l = full.filter act := by
      intro cs
      induction cs with
      | nil =>
        intro pre acc0 l hf h
        simp only [List.foldl_nil, Option.some.injEq] at h
        subst h
        simpa using hf
      | cons d cs ihc =>
        intro pre acc0 l hf h
        rw [List.foldl_cons] at h
        cases hd : taskOrder kids act n d with
        | none =>
          simp only [hd, Option.map_none, Option.bind_some] at h
          exfalso
          have : ∀ cs : List Nat, cs.foldl (fun acc d => acc.bind fun l => (taskOrder kids act n d).map fun l' => l ++ l')
              (none : Option (List Nat)) = none := by
            intro cs
            induction cs with
            | nil => rfl
            | cons e cs ih => rw [List.foldl_cons]; exact ih
          rw [this] at h; cases h
        | some l' =>
          simp only [hd, Option.map_some, Option.bind_some] at h
          obtain ⟨f, hf1, hf2⟩ := hf
          obtain ⟨g, hg1, hg2⟩ := ih d l' hd
          have := ihc (pre ++ [d]) (acc0 ++ l') l ⟨f ++ g, post_append hf1 hg1, by rw [hf2, hg2, List.filter_append]⟩ h
          simpa using this
    rw [taskOrder] at h
    cases hf : (kids c).foldl (fun acc d => acc.bind fun l => (taskOrder kids act n d).map fun l' => l ++ l') (some []) with
    | none => rw [hf] at h; cases h
    | some k =>
      rw [hf] at h
      simp only [Option.map_some, Option.some.injEq] at h
      obtain ⟨full, h1, h2⟩ := key (kids c) [] [] k ⟨[], .nil, rfl⟩ hf
      refine ⟨full ++ [c], Post.cons h1 .nil, ?_⟩
      rw [← h, h2, own_filter, List.filter_append]

end Verif.Traverse
