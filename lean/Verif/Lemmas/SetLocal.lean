import Verif.Spec.SetLocal
/-
Lemmas about settings by name: the scope, the check for cycles, and the effect on trees of objects.
-/

namespace Verif.SetLocal

open Spec (dotted GoodName GoodEnv settable Reach Named TreeLike)

/-! ### The scope -/

theorem good_bracketed {x : Str} (h : GoodName x) : ScopeStack.bracketed x = false := by
  obtain ⟨c, r, rfl, h1, h2, h3⟩ := h
  simp [ScopeStack.bracketed, h1, h2, h3]

theorem good_ne {x : Str} (h : GoodName x) : x ≠ [] := by obtain ⟨c, r, rfl, _⟩ := h; simp

theorem joinLoop_good (vs : List Str) (acc : Str) (h : ∀ y ∈ vs, GoodName y) :
    ScopeStack.joinLoop acc vs = acc ++ vs.flatMap fun y => '.' :: y := by
  induction vs generalizing acc with
  | nil => simp [ScopeStack.joinLoop]
  | cons a vs ih =>
    have ha := good_bracketed (h a (by simp))
    rw [ScopeStack.joinLoop, ha, if_neg (by decide), ih _ fun y hy => h y (by simp [hy])]
    simp

theorem stack_setArg (s : ScopeStack.State) (x : Str) : (ScopeStack.step s (.setArg x)).stack = s.stack := by
  simp only [ScopeStack.step]; split <;> rfl

theorem stack_unsetArg (s : ScopeStack.State) (x : Str) : (ScopeStack.step s (.unsetArg x)).stack = s.stack := by
  simp only [ScopeStack.step]; split <;> rfl

theorem text_setArg (s : ScopeStack.State) (x : Str) (hs : ∀ y ∈ s.stack, GoodName y) (hx : GoodName x) :
    text (ScopeStack.step s (.setArg x)) = dotted (s.stack ++ [x]) := by
  obtain ⟨st, ar⟩ := s
  have hx' := good_ne hx
  simp only [ScopeStack.step, if_neg hx']
  cases st with
  | nil => simp [text, ScopeStack.get, dotted]
  | cons b vs =>
    have hb : b ≠ [] := good_ne (hs b (by simp))
    have hg : ScopeStack.joinLoop b vs = b ++ vs.flatMap fun y => '.' :: y :=
      joinLoop_good vs b fun y hy => hs y (by simp [hy])
    have hn : b ++ vs.flatMap (fun y => '.' :: y) ≠ [] := by simp [hb]
    simp only [text, ScopeStack.get, hg, if_pos hx', if_pos hn]
    simp [dotted]

theorem stack_down_up (s t : ScopeStack.State) (x : Str) (hx : GoodName x) (h : t.stack = s.stack ++ [x]) :
    (ScopeStack.step t (.up ['.'])).stack = s.stack := by
  simp only [ScopeStack.step, h, List.reverse_append, List.reverse_singleton, List.singleton_append, ScopeStack.upLoop,
    ↓reduceIte, good_bracketed hx, List.reverse_reverse]

/-! ### Without an exception the container is left as it was -/

def Keeps (g : Nat → St → St) : Prop := ∀ p s, (g p s).exc = none → (g p s).scope.stack = s.scope.stack ∧ (g p s).busy = s.busy

theorem keep_field {E : Env} {pat : Str} {v : Val} {rec : Nat → St → St} (hr : Keeps rec) {o : Nat} {f : Field}
    (hf : GoodName f.name) {s : St} (h : (setObjField E pat v rec o f s).exc = none) :
    (setObjField E pat v rec o f s).scope.stack = s.scope.stack ∧ (setObjField E pat v rec o f s).busy = s.busy := by
  unfold setObjField at h ⊢
  dsimp only at h ⊢
  split at h <;> rename_i hm
  · rw [if_pos hm]
    split <;> exact ⟨stack_setArg _ _, rfl⟩
  · rw [if_neg hm]
    split at h <;> rename_i hd
    · rw [if_pos hd]
      cases ha : s.attr o f.name with
      | none => rw [ha] at h; simp at h
      | int n => rw [ha] at h; simp at h
      | str n => rw [ha] at h; simp at h
      | obj p =>
        rw [ha] at h
        dsimp only at h ⊢
        split at h <;> rename_i he
        · rw [h] at he; simp at he
        · rw [if_neg he]
          have hk := hr p { s with scope := ScopeStack.step (ScopeStack.step s.scope (.setArg f.name)) (.down f.name) }
            (by simpa using he)
          refine ⟨?_, hk.2⟩
          refine stack_down_up s.scope _ f.name hf ?_
          rw [hk.1]
          show (ScopeStack.step s.scope (.setArg f.name)).stack ++ [f.name] = _
          rw [stack_setArg]
    · rw [if_neg hd]; exact ⟨stack_setArg _ _, rfl⟩

theorem keep_fields {E : Env} {pat : Str} {v : Val} {rec : Nat → St → St} (hr : Keeps rec) {o : Nat} (fs : List Field)
    (hf : ∀ f ∈ fs, GoodName f.name) (s : St) (h : (setObjFields E pat v rec o fs s).exc = none) :
    (setObjFields E pat v rec o fs s).scope.stack = s.scope.stack ∧ (setObjFields E pat v rec o fs s).busy = s.busy := by
  induction fs generalizing s with
  | nil => exact ⟨rfl, rfl⟩
  | cons f fs ih =>
    simp only [setObjFields] at h ⊢
    split at h <;> rename_i he
    · rw [h] at he; simp at he
    · rw [if_neg he]
      have h1 := keep_field (E := E) (pat := pat) (v := v) hr (o := o) (hf f (by simp)) (s := s) (by simpa using he)
      have h2 := ih (fun g hg => hf g (by simp [hg])) _ h
      exact ⟨h2.1.trans h1.1, h2.2.trans h1.2⟩

theorem keep_auto {E : Env} (hE : GoodEnv E) (pat : Str) (v : Val) (n : Nat) : Keeps (autoObj E pat v n) := by
  induction n with
  | zero => intro p s h; simp [autoObj] at h
  | succ n ih =>
    intro o s h
    unfold autoObj at h ⊢
    split at h <;> rename_i hb
    · rw [if_pos hb]; exact ⟨rfl, rfl⟩
    · rw [if_neg hb]
      dsimp only at h ⊢
      split at h <;> rename_i he
      · rw [h] at he; simp at he
      · rw [if_neg he]
        have hk := keep_fields (E := E) (pat := pat) (v := v) ih (o := o) (E.fields o) (hE.names o) { s with busy := s.busy ++ [o] }
          (by simpa using he)
        refine ⟨hk.1, ?_⟩
        show List.dropLast _ = _
        rw [hk.2]; simp

/-! ### Reached objects -/

theorem reach_congr_to {E : Env} {pat : Str} {a a' : Nat → Str → Val} {pre : List Str} {o : Nat} {π : List Str} {q : Nat}
    (h : Reach E pat a pre o π q) (ha : ∀ π q, Reach E pat a pre o π q → ∀ x, a' q x = a q x) : Reach E pat a' pre o π q := by
  induction h with
  | here pre o => exact .here pre o
  | down pre o x p π q h1 h2 h3 h4 ih =>
    refine .down pre o x p π q h1 h2 ?_ (ih fun π' q' hr => ha (x :: π') q' (.down pre o x p π' q' h1 h2 h3 hr))
    rw [ha [] o (.here pre o), h3]

theorem reach_congr_of {E : Env} {pat : Str} {a a' : Nat → Str → Val} {pre : List Str} {o : Nat} {π : List Str} {q : Nat}
    (h : Reach E pat a' pre o π q) (ha : ∀ π q, Reach E pat a pre o π q → ∀ x, a' q x = a q x) : Reach E pat a pre o π q := by
  induction h with
  | here pre o => exact .here pre o
  | down pre o x p π q h1 h2 h3 h4 ih =>
    rw [ha [] o (.here pre o)] at h3
    exact .down pre o x p π q h1 h2 h3 (ih fun π' q' hr => ha (x :: π') q' (.down pre o x p π' q' h1 h2 h3 hr))

theorem reach_congr {E : Env} {pat : Str} {a a' : Nat → Str → Val} {pre : List Str} {o : Nat}
    (ha : ∀ π q, Reach E pat a pre o π q → ∀ x, a' q x = a q x) (π : List Str) (q : Nat) :
    Reach E pat a' pre o π q ↔ Reach E pat a pre o π q := ⟨fun h => reach_congr_of h ha, fun h => reach_congr_to h ha⟩

/-! ### The effect on a tree -/

/-- The field is descended into, to object `p`. -/
def Down (E : Env) (pat : Str) (a : Nat → Str → Val) (pre : List Str) (o : Nat) (f : Field) (p : Nat) : Prop :=
  f.readOnly = false ∧ E.isMatch pat (dotted (pre ++ [f.name])) = false ∧ a o f.name = .obj p

/-- What the part of the loop on `fs` is to set. -/
def LNamed (E : Env) (pat : Str) (a : Nat → Str → Val) (pre : List Str) (o : Nat) (fs : List Field) (q : Nat) (x : Str) : Prop :=
  ∃ f ∈ fs, (f.readOnly = false ∧ q = o ∧ x = f.name ∧ E.isMatch pat (dotted (pre ++ [x])) = true) ∨
    ∃ p, Down E pat a pre o f p ∧ Named E pat a (pre ++ [f.name]) p q x

structure LPre (E : Env) (pat : Str) (a : Nat → Str → Val) (pre : List Str) (o : Nat) (busy : List Nat) (fs : List Field) : Prop where
  tree : ∀ f ∈ fs, ∀ p, Down E pat a pre o f p → TreeLike E pat a (pre ++ [f.name]) p
  free : ∀ f ∈ fs, ∀ p, Down E pat a pre o f p → ∀ π q, Reach E pat a (pre ++ [f.name]) p π q → q ∉ busy
  apart : ∀ f ∈ fs, ∀ f' ∈ fs, f.name ≠ f'.name → ∀ p p', Down E pat a pre o f p → Down E pat a pre o f' p' → ∀ π π' q,
    Reach E pat a (pre ++ [f.name]) p π q → Reach E pat a (pre ++ [f'.name]) p' π' q → False

/-- `a'` agrees with `a` on what the fields `fs` lead to. -/
def Agree (E : Env) (pat : Str) (a a' : Nat → Str → Val) (pre : List Str) (o : Nat) (fs : List Field) : Prop :=
  (∀ f ∈ fs, a' o f.name = a o f.name) ∧
  ∀ f ∈ fs, ∀ p, Down E pat a pre o f p → ∀ π q, Reach E pat a (pre ++ [f.name]) p π q → ∀ x, a' q x = a q x

theorem agree_down {E : Env} {pat : Str} {a a' : Nat → Str → Val} {pre : List Str} {o : Nat} {fs : List Field}
    (h : Agree E pat a a' pre o fs) {f : Field} (hf : f ∈ fs) (p : Nat) : Down E pat a' pre o f p ↔ Down E pat a pre o f p := by
  unfold Down; rw [h.1 f hf]

theorem agree_pre {E : Env} {pat : Str} {a a' : Nat → Str → Val} {pre : List Str} {o : Nat} {busy : List Nat} {fs : List Field}
    (h : Agree E pat a a' pre o fs) (hp : LPre E pat a pre o busy fs) : LPre E pat a' pre o busy fs := by
  have rc := fun f hf p hd => reach_congr (h.2 f hf p hd)
  refine ⟨fun f hf p hd π π' q h1 h2 => ?_, fun f hf p hd π q hr => ?_, fun f hf f' hf' hne p p' hd hd' π π' q h1 h2 => ?_⟩
  · rw [agree_down h hf] at hd
    rw [rc f hf p hd] at h1 h2
    exact hp.tree f hf p hd π π' q h1 h2
  · rw [agree_down h hf] at hd
    rw [rc f hf p hd] at hr
    exact hp.free f hf p hd π q hr
  · rw [agree_down h hf] at hd
    rw [agree_down h hf'] at hd'
    rw [rc f hf p hd] at h1
    rw [rc f' hf' p' hd'] at h2
    exact hp.apart f hf f' hf' hne p p' hd hd' π π' q h1 h2

theorem agree_named {E : Env} {pat : Str} {a a' : Nat → Str → Val} {pre : List Str} {o : Nat} {fs : List Field}
    (h : Agree E pat a a' pre o fs) (q : Nat) (x : Str) : LNamed E pat a' pre o fs q x ↔ LNamed E pat a pre o fs q x := by
  unfold LNamed
  constructor
  · rintro ⟨f, hf, h1 | ⟨p, hd, π, hr, hs⟩⟩
    · exact ⟨f, hf, .inl h1⟩
    · rw [agree_down h hf] at hd
      exact ⟨f, hf, .inr ⟨p, hd, π, (reach_congr (h.2 f hf p hd) π q).1 hr, hs⟩⟩
  · rintro ⟨f, hf, h1 | ⟨p, hd, π, hr, hs⟩⟩
    · exact ⟨f, hf, .inl h1⟩
    · exact ⟨f, hf, .inr ⟨p, (agree_down h hf p).2 hd, π, (reach_congr (h.2 f hf p hd) π q).2 hr, hs⟩⟩

/-- What the automation of an object is to do. -/
def DoesTree (E : Env) (pat : Str) (v : Val) (g : Nat → St → St) : Prop :=
  ∀ o s, (∀ y ∈ s.scope.stack, GoodName y) → s.exc = none → (g o s).exc = none → TreeLike E pat s.attr s.scope.stack o →
    (∀ π q, Reach E pat s.attr s.scope.stack o π q → q ∉ s.busy) →
    ∀ q x, (Named E pat s.attr s.scope.stack o q x → (g o s).attr q x = v) ∧
      (¬ Named E pat s.attr s.scope.stack o q x → (g o s).attr q x = s.attr q x)

/-- The effect of one field: nothing, one attribute, or a tree below. -/
theorem field_cases {E : Env} {pat : Str} {v : Val} {rec : Nat → St → St} {o : Nat} {f : Field} {s : St}
    (hf : GoodName f.name) (hp : pathLike pat = true)
    (hs : ∀ y ∈ s.scope.stack, GoodName y) (he : s.exc = none) (h : (setObjField E pat v rec o f s).exc = none) :
    (f.readOnly = false ∧ E.isMatch pat (dotted (s.scope.stack ++ [f.name])) = true ∧
      (setObjField E pat v rec o f s).attr = put s.attr o f.name v) ∨
    ((∀ p, ¬ Down E pat s.attr s.scope.stack o f p) ∧
      ¬ (f.readOnly = false ∧ E.isMatch pat (dotted (s.scope.stack ++ [f.name])) = true) ∧
      (setObjField E pat v rec o f s).attr = s.attr) ∨
    (∃ p t, Down E pat s.attr s.scope.stack o f p ∧ t.attr = s.attr ∧ t.scope.stack = s.scope.stack ++ [f.name] ∧ t.busy = s.busy ∧
      t.exc = none ∧ (rec p t).exc = none ∧ (setObjField E pat v rec o f s).attr = (rec p t).attr) := by
  have ht := text_setArg s.scope f.name hs hf
  unfold setObjField at h ⊢
  dsimp only at h ⊢
  rw [ht] at h ⊢
  split at h <;> rename_i hm
  · rw [if_pos hm]
    cases hro : f.readOnly with
    | true => exact .inr (.inl ⟨fun p hd => by simp [Down, hro] at hd, by simp, by simp⟩)
    | false => exact .inl ⟨rfl, hm, by simp⟩
  · rw [if_neg hm]
    have hm' : E.isMatch pat (dotted (s.scope.stack ++ [f.name])) = false := by simpa using hm
    split at h <;> rename_i hd
    · rw [if_pos hd]
      cases ha : s.attr o f.name with
      | none => rw [ha] at h; simp at h
      | int n => rw [ha] at h; simp at h
      | str n => rw [ha] at h; simp at h
      | obj p =>
        rw [ha] at h
        dsimp only at h ⊢
        split at h <;> rename_i hx
        · rw [h] at hx; simp at hx
        · rw [if_neg hx]
          refine .inr (.inr ⟨p, { s with scope := ScopeStack.step (ScopeStack.step s.scope (.setArg f.name)) (.down f.name) },
            ⟨hd.2.1, hm', ha⟩, rfl, ?_, rfl, he, by simpa using hx, rfl⟩)
          show (ScopeStack.step s.scope (.setArg f.name)).stack ++ [f.name] = _
          rw [stack_setArg]
    · rw [if_neg hd]
      refine .inr (.inl ⟨fun p hD => hd ⟨?_, hD.1, hp⟩, by simp [hm'], rfl⟩)
      rw [hD.2.2]; simp

theorem loop_tree {E : Env} (hE : GoodEnv E) {pat : Str} {v : Val} {rec : Nat → St → St} (hk : Keeps rec) (hr : DoesTree E pat v rec)
    (hpl : pathLike pat = true) (o : Nat) (fs : List Field) (hfs : ∀ f ∈ fs, f ∈ E.fields o) (hnd : (fs.map (·.name)).Nodup) (s : St)
    (hs : ∀ y ∈ s.scope.stack, GoodName y) (ho : o ∈ s.busy) (he : s.exc = none) (h : (setObjFields E pat v rec o fs s).exc = none)
    (hp : LPre E pat s.attr s.scope.stack o s.busy fs) (q : Nat) (x : Str) :
    (LNamed E pat s.attr s.scope.stack o fs q x → (setObjFields E pat v rec o fs s).attr q x = v) ∧
    (¬ LNamed E pat s.attr s.scope.stack o fs q x → (setObjFields E pat v rec o fs s).attr q x = s.attr q x) := by
  induction fs generalizing s with
  | nil => exact ⟨fun ⟨_, hf, _⟩ => absurd hf (by simp), fun _ => rfl⟩
  | cons f fs ih =>
    simp only [setObjFields] at h ⊢
    split at h <;> rename_i hx
    · rw [h] at hx; simp at hx
    · rw [if_neg hx]
      have hx' : (setObjField E pat v rec o f s).exc = none := by simpa using hx
      have hgood := hE.names o f (hfs f (by simp))
      have hkeep := keep_field (E := E) (pat := pat) (v := v) hk (o := o) hgood hx'
      have hcases := field_cases (E := E) (pat := pat) (v := v) (rec := rec) (o := o) (f := f) (s := s) hgood hpl hs he hx'
      rw [List.map_cons, List.nodup_cons] at hnd
      have hne : ∀ g ∈ fs, g.name ≠ f.name := fun g hg e => hnd.1 (List.mem_map.2 ⟨g, hg, e⟩)
      generalize setObjField E pat v rec o f s = s1 at *
      have hpt : LPre E pat s.attr s.scope.stack o s.busy fs :=
        ⟨fun g hg => hp.tree g (by simp [hg]), fun g hg => hp.free g (by simp [hg]),
          fun g hg g' hg' => hp.apart g (by simp [hg]) g' (by simp [hg'])⟩
      -- the attributes agree with the old ones on what the other fields lead to
      have hag : Agree E pat s.attr s1.attr s.scope.stack o fs := by
        rcases hcases with ⟨_, _, ha⟩ | ⟨_, _, ha⟩ | ⟨p, t, hd, t1, t2, t3, t4, t5, ha⟩
        · rw [ha]
          refine ⟨fun g hg => by simp [put, hne g hg], fun g hg p hd π q hr x => ?_⟩
          have : q ≠ o := fun e => hpt.free g hg p hd π q hr (e ▸ ho)
          simp [put, this]
        · rw [ha]; exact ⟨fun _ _ => rfl, fun _ _ _ _ _ _ _ _ => rfl⟩
        · have ht := hr p t (by
              rw [t2]; intro y hy
              rcases List.mem_append.1 hy with hy | hy
              · exact hs y hy
              · rw [List.mem_singleton.1 hy]; exact hgood) t4 t5
            (by rw [t1, t2]; exact hp.tree f (by simp) p hd)
            (by rw [t1, t2, t3]; exact hp.free f (by simp) p hd)
          rw [t1, t2] at ht
          rw [ha]
          refine ⟨fun g hg => ?_, fun g hg p' hd' π q hq x => ?_⟩
          · refine (ht o g.name).2 ?_
            rintro ⟨π, hπ, _⟩
            exact hp.free f (by simp) p hd π o hπ ho
          · refine (ht q x).2 ?_
            rintro ⟨π', hπ', _⟩
            exact hp.apart f (by simp) g (by simp [hg]) (Ne.symm (hne g hg)) p p' hd hd' π' π q hπ' hq
      have hih := ih (fun g hg => hfs g (by simp [hg])) hnd.2 s1 (by rw [hkeep.1]; exact hs) (by rw [hkeep.2]; exact ho) hx' h
        (by rw [hkeep.1, hkeep.2]; exact agree_pre hag hpt)
      rw [hkeep.1, agree_named hag] at hih
      -- the effect of the field itself
      have hown : ((f.readOnly = false ∧ q = o ∧ x = f.name ∧ E.isMatch pat (dotted (s.scope.stack ++ [x])) = true) ∨
            ∃ p, Down E pat s.attr s.scope.stack o f p ∧ Named E pat s.attr (s.scope.stack ++ [f.name]) p q x) →
          s1.attr q x = v := by
        rcases hcases with ⟨h1, h2, ha⟩ | ⟨h1, h2, ha⟩ | ⟨p, t, hd, t1, t2, t3, t4, t5, ha⟩
        · rintro (⟨_, rfl, rfl, _⟩ | ⟨p, hd, _⟩)
          · rw [ha]; simp [put]
          · rw [hd.2.1] at h2; cases h2
        · rintro (⟨h3, rfl, rfl, h4⟩ | ⟨p, hd, _⟩)
          · exact absurd ⟨h3, h4⟩ h2
          · exact absurd hd (h1 p)
        · have ht := hr p t (by
              rw [t2]; intro y hy
              rcases List.mem_append.1 hy with hy | hy
              · exact hs y hy
              · rw [List.mem_singleton.1 hy]; exact hgood) t4 t5
            (by rw [t1, t2]; exact hp.tree f (by simp) p hd)
            (by rw [t1, t2, t3]; exact hp.free f (by simp) p hd)
          rw [t1, t2] at ht
          rintro (⟨_, rfl, rfl, h4⟩ | ⟨p', hd', hn⟩)
          · rw [hd.2.1] at h4; cases h4
          · have : p' = p := by have := hd.2.2.symm.trans hd'.2.2; injection this with this; exact this.symm
            subst this
            rw [ha]; exact (ht q x).1 hn
      have hnot : ¬ ((f.readOnly = false ∧ q = o ∧ x = f.name ∧ E.isMatch pat (dotted (s.scope.stack ++ [x])) = true) ∨
            ∃ p, Down E pat s.attr s.scope.stack o f p ∧ Named E pat s.attr (s.scope.stack ++ [f.name]) p q x) →
          s1.attr q x = s.attr q x := by
        intro hn
        rcases hcases with ⟨h1, h2, ha⟩ | ⟨h1, h2, ha⟩ | ⟨p, t, hd, t1, t2, t3, t4, t5, ha⟩
        · rw [ha]
          simp only [put]
          rw [if_neg]
          rintro ⟨rfl, rfl⟩
          exact hn (.inl ⟨h1, rfl, rfl, h2⟩)
        · rw [ha]
        · have ht := hr p t (by
              rw [t2]; intro y hy
              rcases List.mem_append.1 hy with hy | hy
              · exact hs y hy
              · rw [List.mem_singleton.1 hy]; exact hgood) t4 t5
            (by rw [t1, t2]; exact hp.tree f (by simp) p hd)
            (by rw [t1, t2, t3]; exact hp.free f (by simp) p hd)
          rw [t1, t2] at ht
          rw [ha]; exact (ht q x).2 fun hN => hn (.inr ⟨p, hd, hN⟩)
      constructor
      · rintro ⟨g, hg, hgn⟩
        rcases List.mem_cons.1 hg with rfl | hg
        · by_cases hl : LNamed E pat s.attr s.scope.stack o fs q x
          · exact hih.1 hl
          · rw [hih.2 hl]; exact hown hgn
        · exact hih.1 ⟨g, hg, hgn⟩
      · intro hn
        rw [hih.2 fun ⟨g, hg, hgn⟩ => hn ⟨g, by simp [hg], hgn⟩]
        exact hnot fun hgn => hn ⟨f, by simp, hgn⟩

/-- The names of the whole object are those of its fields. -/
theorem named_iff (E : Env) (pat : Str) (a : Nat → Str → Val) (pre : List Str) (o q : Nat) (x : Str) :
    Named E pat a pre o q x ↔ LNamed E pat a pre o (E.fields o) q x := by
  constructor
  · rintro ⟨π, hr, hs, hm⟩
    cases hr with
    | here =>
      obtain ⟨f, hf, rfl, hro⟩ := hs
      exact ⟨f, hf, .inl ⟨hro, rfl, rfl, by simpa using hm⟩⟩
    | down _ _ y p π' _ h1 h2 h3 h4 =>
      obtain ⟨f, hf, rfl, hro⟩ := h1
      exact ⟨f, hf, .inr ⟨p, ⟨hro, h2, h3⟩, π', h4, hs, by simpa using hm⟩⟩
  · rintro ⟨f, hf, ⟨h1, rfl, rfl, h4⟩ | ⟨p, hd, π, hr, hs, hm⟩⟩
    · exact ⟨[], .here _ _, ⟨f, hf, rfl, h1⟩, by simpa using h4⟩
    · exact ⟨f.name :: π, .down _ _ _ p _ _ ⟨f, hf, rfl, hd.1⟩ hd.2.1 hd.2.2 hr, hs, by simpa using hm⟩

theorem auto_tree {E : Env} (hE : GoodEnv E) {pat : Str} (v : Val) (hpl : pathLike pat = true) (n : Nat) :
    DoesTree E pat v (autoObj E pat v n) := by
  induction n with
  | zero => intro o s _ _ h; simp [autoObj] at h
  | succ n ih =>
    intro o s hs he h ht hf q x
    have hb : o ∉ s.busy := hf [] o (.here _ _)
    unfold autoObj at h ⊢
    rw [if_neg hb] at h ⊢
    dsimp only at h ⊢
    split at h <;> rename_i hx
    · rw [h] at hx; simp at hx
    · rw [if_neg hx]
      have dn : ∀ f ∈ E.fields o, ∀ p, Down E pat s.attr s.scope.stack o f p → ∀ π q, Reach E pat s.attr (s.scope.stack ++ [f.name]) p π q →
          Reach E pat s.attr s.scope.stack o (f.name :: π) q := fun f hf p hd π q hr =>
        .down _ _ _ p _ _ ⟨f, hf, rfl, hd.1⟩ hd.2.1 hd.2.2 hr
      have hl := loop_tree hE (keep_auto hE pat v n) ih hpl o (E.fields o) (fun _ hf => hf) (hE.nodup o)
        { s with busy := s.busy ++ [o] } hs (by simp) he (by simpa using hx)
        ⟨fun f hf' p hd π π' q h1 h2 => (by
            have := ht _ _ q (dn f hf' p hd π q h1) (dn f hf' p hd π' q h2)
            injection this),
          fun f hf' p hd π q hr => (by
            have h1 := dn f hf' p hd π q hr
            simp only [List.mem_append, List.mem_singleton, not_or]
            refine ⟨hf _ q h1, fun e => ?_⟩
            subst e
            have := ht _ _ q h1 (.here _ _)
            cases this),
          fun f hf1 f' hf2 hne p p' hd hd' π π' q h1 h2 => (by
            have := ht _ _ q (dn f hf1 p hd π q h1) (dn f' hf2 p' hd' π' q h2)
            injection this with h3 _
            exact hne h3)⟩ q x
      rw [named_iff]
      exact hl

/-! ### The depth is bounded by the number of objects -/

/-- The state holds objects below `N` only. -/
def Small (N : Nat) (a : Nat → Str → Val) : Prop := ∀ o x p, a o x = .obj p → p < N

structure Fine (N : Nat) (s : St) : Prop where
  small : Small N s.attr
  nodup : s.busy.Nodup
  busy : ∀ p ∈ s.busy, p < N

/-- The automation never meets its bound, and keeps the state fine and the list of the check. -/
def Ends (N : Nat) (g : Nat → St → St) (room : Nat) : Prop :=
  ∀ p s, p < N → Fine N s → s.exc = none → N ≤ s.busy.length + room →
    (g p s).exc ≠ some .fuel ∧ Small N (g p s).attr ∧ ((g p s).exc = none → (g p s).busy = s.busy)

theorem small_put {N : Nat} {a : Nat → Str → Val} (h : Small N a) (o : Nat) (x : Str) {v : Val} (hv : ∀ p, v = .obj p → p < N) :
    Small N (put a o x v) := by
  intro q y p
  unfold put
  split
  · exact hv p
  · exact h q y p

theorem ends_field {E : Env} {pat : Str} {v : Val} {N : Nat} (hv : ∀ p, v = .obj p → p < N) {rec : Nat → St → St} {room : Nat}
    (hr : Ends N rec room) (o : Nat) (f : Field) (s : St) (hs : Fine N s) (he : s.exc = none) (hb : N ≤ s.busy.length + room) :
    (setObjField E pat v rec o f s).exc ≠ some .fuel ∧ Small N (setObjField E pat v rec o f s).attr ∧
      ((setObjField E pat v rec o f s).exc = none → (setObjField E pat v rec o f s).busy = s.busy) := by
  unfold setObjField
  dsimp only
  split
  · split
    · exact ⟨by simp [he], hs.small, fun _ => rfl⟩
    · exact ⟨by simp [he], small_put hs.small _ _ hv, fun _ => rfl⟩
  · split
    · cases ha : s.attr o f.name with
      | none => exact ⟨by simp, hs.small, fun _ => rfl⟩
      | int n => exact ⟨by simp, hs.small, fun _ => rfl⟩
      | str n => exact ⟨by simp, hs.small, fun _ => rfl⟩
      | obj p =>
        have h := hr p { s with scope := ScopeStack.step (ScopeStack.step s.scope (.setArg f.name)) (.down f.name) }
          (hs.small _ _ _ ha) ⟨hs.small, hs.nodup, hs.busy⟩ he hb
        dsimp only
        split
        · exact h
        · exact h
    · exact ⟨by simp [he], hs.small, fun _ => rfl⟩

theorem ends_fields {E : Env} {pat : Str} {v : Val} {N : Nat} (hv : ∀ p, v = .obj p → p < N) {rec : Nat → St → St} {room : Nat}
    (hr : Ends N rec room) (o : Nat) (fs : List Field) (s : St) (hs : Fine N s) (he : s.exc = none) (hb : N ≤ s.busy.length + room) :
    (setObjFields E pat v rec o fs s).exc ≠ some .fuel ∧ Small N (setObjFields E pat v rec o fs s).attr ∧
      ((setObjFields E pat v rec o fs s).exc = none → (setObjFields E pat v rec o fs s).busy = s.busy) := by
  induction fs generalizing s with
  | nil => exact ⟨by simp [setObjFields, he], hs.small, fun _ => rfl⟩
  | cons f fs ih =>
    obtain ⟨h1, h2, h3⟩ := ends_field (E := E) (pat := pat) hv hr o f s hs he hb
    simp only [setObjFields]
    generalize setObjField E pat v rec o f s = s1 at *
    split <;> rename_i hx
    · exact ⟨h1, h2, h3⟩
    · have hx' : s1.exc = none := by simpa using hx
      have hbz := h3 hx'
      obtain ⟨h4, h5, h6⟩ := ih s1 ⟨h2, by rw [hbz]; exact hs.nodup, by rw [hbz]; exact hs.busy⟩ hx' (by rw [hbz]; exact hb)
      exact ⟨h4, h5, fun e => (h6 e).trans hbz⟩

theorem nodup_length_le : ∀ (N : Nat) (l : List Nat), l.Nodup → (∀ p ∈ l, p < N) → l.length ≤ N := by
  intro N
  induction N with
  | zero =>
    intro l _ h
    cases l with
    | nil => simp
    | cons a l => exact absurd (h a (by simp)) (by omega)
  | succ N ih =>
    intro l hn h
    have h1 := ih (l.erase N) (hn.erase N) fun p hp => by
      have := h p (List.mem_of_mem_erase hp)
      have hne : p ≠ N := fun e => (List.Nodup.mem_erase_iff hn).1 (e ▸ hp) |>.1 rfl
      omega
    rw [List.length_erase] at h1
    split at h1 <;> omega

theorem ends_auto {E : Env} {pat : Str} {v : Val} {N : Nat} (hv : ∀ p, v = .obj p → p < N) (n : Nat) :
    Ends N (autoObj E pat v (n + 1)) n := by
  induction n with
  | zero =>
    intro o s ho hs he hb
    unfold autoObj
    have hmem : o ∈ s.busy := by
      apply Classical.byContradiction
      intro hm
      have := nodup_length_le N (o :: s.busy) (List.nodup_cons.2 ⟨hm, hs.nodup⟩) (by simpa [ho] using hs.busy)
      simp at this; omega
    rw [if_pos hmem]
    exact ⟨by simp [he], hs.small, fun _ => rfl⟩
  | succ n ih =>
    intro o s ho hs he hb
    unfold autoObj
    split <;> rename_i hm
    · exact ⟨by simp [he], hs.small, fun _ => rfl⟩
    · obtain ⟨h1, h2, h3⟩ := ends_fields (E := E) (pat := pat) hv ih o (E.fields o) { s with busy := s.busy ++ [o] }
        ⟨hs.small, List.nodup_append.2 ⟨hs.nodup, by simp, by simp; exact fun a ha e => hm (e ▸ ha)⟩,
          fun p hp => by
            rcases List.mem_append.1 hp with hp | hp
            · exact hs.busy p hp
            · rw [List.mem_singleton.1 hp]; exact ho⟩ he (by simp; omega)
      dsimp only
      split <;> rename_i hx
      · exact ⟨h1, h2, fun e => by rw [e] at hx; simp at hx⟩
      · refine ⟨h1, h2, fun e => ?_⟩
        show List.dropLast _ = _
        rw [h3 e]; simp

end Verif.SetLocal
