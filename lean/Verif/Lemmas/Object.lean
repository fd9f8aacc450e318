import Verif.Spec.Object
/-! # Lemmas: copying objects -/
namespace Verif.Object

variable {C : Nat → Cls}

theorem Reach.trans {L : Nat → List Nat} {h : Nat → Obj} {a b c : Nat} (h1 : Reach L h a b) (h2 : Reach L h b c) :
    Reach L h a c := by
  induction h2 with
  | refl => exact h1
  | step _ hf hv ih => exact .step ih hf hv

theorem Reach.child {L : Nat → List Nat} {h : Nat → Obj} {a p f : Nat} (hf : f ∈ L (h a).cls)
    (hv : (h a).vals f = some (.obj p)) : Reach L h a p := .step .refl hf hv

theorem Acyclic.sub {L : Nat → List Nat} {h : Nat → Obj} {next a b : Nat} {rank : Nat → Nat}
    (hA : Acyclic L h next a rank) (hr : Reach L h a b) : Acyclic L h next b rank :=
  ⟨fun o ho => hA.alloc o (hr.trans ho), fun o ho => hA.has o (hr.trans ho), fun o ho => hA.down o (hr.trans ho)⟩

theorem Acyclic.rank_le {L : Nat → List Nat} {h : Nat → Obj} {next a b : Nat} {rank : Nat → Nat}
    (hA : Acyclic L h next a rank) (hr : Reach L h a b) : rank b ≤ rank a := by
  induction hr with
  | refl => exact Nat.le_refl _
  | step ho hf hv ih => exact Nat.le_trans (Nat.le_of_lt (hA.down _ ho _ hf _ hv)) ih

/-- Deep copies with all new addresses in `[n, m)`. -/
inductive DC (C : Nat → Cls) (h h' : Nat → Obj) (n m : Nat) : Val → Val → Prop
  | plain (v : Val) (hv : ∀ o, v ≠ .obj o) : DC C h h' n m v v
  | obj (o k : Nat) (g g' : Nat → Val) (hn : n ≤ k) (hm : k < m) (hc : (h' k).cls = (h o).cls)
      (hg : ∀ f ∈ copyList C (h o).cls, (h o).vals f = some (g f))
      (hg' : ∀ f ∈ copyList C (h o).cls, (h' k).vals f = some (g' f))
      (hd : ∀ f ∈ copyList C (h o).cls, DC C h h' n m (g f) (g' f)) : DC C h h' n m (.obj o) (.obj k)

theorem DC.deep {h h' : Nat → Obj} {n m : Nat} {v v' : Val} (d : DC C h h' n m v v') : DeepCopy C h h' n v v' := by
  induction d with
  | plain v hv => exact .plain v hv
  | obj o k g g' hn _ hc hg hg' _ ih => exact .obj o k g g' hn hc hg hg' ih

/-- Deep copies survive changes outside their addresses. -/
theorem DC.mono {h h' h'' : Nat → Obj} {n m n' m' : Nat} {v v' : Val} (d : DC C h h' n m v v')
    (he : ∀ i, n ≤ i → i < m → h'' i = h' i) (hn' : n' ≤ n) (hm' : m ≤ m') : DC C h h'' n' m' v v' := by
  induction d with
  | plain v hv => exact .plain v hv
  | obj o k g g' hn hm hc hg hg' _ ih =>
    have e := he k hn hm
    exact .obj o k g g' (by omega) (by omega) (by rw [e]; exact hc) hg (by rw [e]; exact hg') ih

/-- The names copied out of a part of the field list. -/
def namesOf (fs : List (Nat × Nat)) : List Nat := (fs.filter (fun p => copies p.2)).map Prod.fst

theorem namesOf_cons (f m : Nat) (fs : List (Nat × Nat)) :
    namesOf ((f, m) :: fs) = if copies m = true then f :: namesOf fs else namesOf fs := by
  unfold namesOf; by_cases h : copies m = true <;> simp [h]

/-- What `dst.copy(src)` needs. -/
structure Pre (C : Nat → Cls) (h0 : Nat → Obj) (dst src : Nat) (s : State) : Prop where
  agree : ∀ i, Reach (copyList C) h0 src i → s.heap i = h0 i
  below : ∀ i, Reach (copyList C) h0 src i → i < s.next
  apart : ¬ Reach (copyList C) h0 src dst
  dstLt : dst < s.next
  cls : (s.heap dst).cls = (h0 src).cls
  map : ∀ x ∈ s.map, ¬ Reach (copyList C) h0 src x

/-- What it does. -/
structure Post (C : Nat → Cls) (h0 : Nat → Obj) (dst src : Nat) (s : State) (r : State × Bool) : Prop where
  ok : r.2 = true
  map : r.1.map = []
  next : s.next ≤ r.1.next
  frame : ∀ i, i < s.next → i ≠ dst → r.1.heap i = s.heap i
  cls : (r.1.heap dst).cls = (s.heap dst).cls
  rest : ∀ f, f ∉ copyList C (h0 src).cls → (r.1.heap dst).vals f = (s.heap dst).vals f
  copied : ∀ f ∈ copyList C (h0 src).cls, ∃ v v', (h0 src).vals f = some v ∧ (r.1.heap dst).vals f = some v' ∧
    DC C h0 r.1.heap s.next r.1.next v v'

theorem setAttr_ne (s : State) (o f : Nat) (v : Val) {i : Nat} (h : i ≠ o) : (setAttr s o f v).heap i = s.heap i := by
  simp [setAttr, h]
theorem setAttr_vals (s : State) (o f : Nat) (v : Val) (g : Nat) :
    ((setAttr s o f v).heap o).vals g = if g = f then some v else (s.heap o).vals g := by
  simp [setAttr]
theorem setAttr_cls (s : State) (o f : Nat) (v : Val) (i : Nat) : ((setAttr s o f v).heap i).cls = (s.heap i).cls := by
  simp only [setAttr]; split
  · next h => subst h; rfl
  · rfl
theorem alloc_lt (s : State) (c : Nat) {i : Nat} (h : i < s.next) : (alloc C s c).heap i = s.heap i := by
  simp only [alloc]; rw [if_neg (by omega)]
theorem alloc_new (s : State) (c : Nat) : (alloc C s c).heap s.next = ⟨c, (C c).dflt⟩ := by simp [alloc]

theorem copyFields_post {rec : Nat → Nat → State → State × Bool} {h0 : Nat → Obj} {dst src : Nat}
    (hrec : ∀ k o s, (∃ f ∈ copyList C (h0 src).cls, (h0 src).vals f = some (.obj o)) → Pre C h0 k o s →
      Post C h0 k o s (rec k o s))
    (hsrc : dst ≠ src) (hhas : ∀ f ∈ copyList C (h0 src).cls, ∃ v, (h0 src).vals f = some v)
    (fs : List (Nat × Nat)) (hsub : ∀ f ∈ namesOf fs, f ∈ copyList C (h0 src).cls) (s : State)
    (agree : ∀ i, Reach (copyList C) h0 src i → s.heap i = h0 i)
    (below : ∀ i, Reach (copyList C) h0 src i → i < s.next)
    (dstLt : dst < s.next) (apart : ¬ Reach (copyList C) h0 src dst)
    (map : ∀ x ∈ s.map, ∀ f ∈ copyList C (h0 src).cls, ∀ p, (h0 src).vals f = some (.obj p) →
      ¬ Reach (copyList C) h0 p x) :
    let r := copyFields C rec dst src fs s
    r.2 = true ∧ (r.1.map = [] ∨ (r.1.map = s.map ∧ r.1.depth = s.depth)) ∧ s.next ≤ r.1.next ∧
    (∀ i, i < s.next → i ≠ dst → r.1.heap i = s.heap i) ∧ (r.1.heap dst).cls = (s.heap dst).cls ∧
    (∀ f, f ∉ namesOf fs → (r.1.heap dst).vals f = (s.heap dst).vals f) ∧
    (∀ f ∈ namesOf fs, ∃ v v', (h0 src).vals f = some v ∧ (r.1.heap dst).vals f = some v' ∧
      DC C h0 r.1.heap s.next r.1.next v v') := by
  induction fs generalizing s with
  | nil =>
    intro r
    exact ⟨rfl, .inr ⟨rfl, rfl⟩, Nat.le_refl _, fun _ _ _ => rfl, rfl, fun _ _ => rfl, by simp [namesOf]⟩
  | cons fm fs ih =>
    obtain ⟨f, m⟩ := fm
    rw [namesOf_cons] at hsub ⊢
    by_cases hm : copies m = true
    · rw [if_pos hm] at hsub ⊢
      have hf : f ∈ copyList C (h0 src).cls := hsub f List.mem_cons_self
      have hsub' : ∀ g ∈ namesOf fs, g ∈ copyList C (h0 src).cls := fun g hg => hsub g (List.mem_cons_of_mem _ hg)
      obtain ⟨v, hv⟩ := hhas f hf
      have hsv : (s.heap src).vals f = some v := by rw [agree src .refl]; exact hv
      have step : ∀ (s1 : State) (v' : Val), (∀ i, i < s.next → i ≠ dst → s1.heap i = s.heap i) →
          (s1.heap dst).cls = (s.heap dst).cls → (∀ g, (s1.heap dst).vals g = (s.heap dst).vals g) → s.next ≤ s1.next →
          (s1.map = [] ∨ (s1.map = s.map ∧ s1.depth = s.depth)) → DC C h0 s1.heap s.next s1.next v v' →
          let r := copyFields C rec dst src fs (setAttr s1 dst f v')
          r.2 = true ∧ (r.1.map = [] ∨ (r.1.map = s.map ∧ r.1.depth = s.depth)) ∧ s.next ≤ r.1.next ∧
          (∀ i, i < s.next → i ≠ dst → r.1.heap i = s.heap i) ∧ (r.1.heap dst).cls = (s.heap dst).cls ∧
          (∀ g, g ∉ f :: namesOf fs → (r.1.heap dst).vals g = (s.heap dst).vals g) ∧
          (∀ g ∈ f :: namesOf fs, ∃ v v', (h0 src).vals g = some v ∧ (r.1.heap dst).vals g = some v' ∧
            DC C h0 r.1.heap s.next r.1.next v v') := by
        intro s1 v' hfr hcl hvals hnx hmp hdc r
        have hI := ih hsub' (setAttr s1 dst f v')
          (fun i hi => by
            have hne : i ≠ dst := fun e => apart (e ▸ hi)
            rw [setAttr_ne _ _ _ _ hne, hfr i (below i hi) hne, agree i hi])
          (fun i hi => Nat.lt_of_lt_of_le (below i hi) hnx)
          (Nat.lt_of_lt_of_le dstLt hnx)
          (by
            intro x hx
            have hx : x ∈ s1.map := hx
            rcases hmp with e | ⟨e, _⟩
            · rw [e] at hx; cases hx
            · rw [e] at hx; exact map x hx)
        obtain ⟨h1, h2, h3, h4, h5, h6, h7⟩ := hI
        have h3' : s1.next ≤ r.1.next := h3
        refine ⟨h1, ?_, Nat.le_trans hnx h3', ?_, ?_, ?_, ?_⟩
        · rcases h2 with e | ⟨e, e'⟩
          · exact .inl e
          · rcases hmp with q | ⟨q, q'⟩
            · exact .inl (e.trans q)
            · exact .inr ⟨e.trans q, e'.trans q'⟩
        · intro i hi hne
          exact (h4 i (Nat.lt_of_lt_of_le hi hnx) hne).trans ((setAttr_ne _ _ _ _ hne).trans (hfr i hi hne))
        · exact h5.trans ((setAttr_cls _ _ _ _ _).trans hcl)
        · intro g hg
          rw [List.mem_cons, not_or] at hg
          have := h6 g hg.2
          exact this.trans ((setAttr_vals _ _ _ _ _).trans ((if_neg hg.1).trans (hvals g)))
        · intro g hg
          by_cases hgm : g ∈ namesOf fs
          · obtain ⟨w, w', e1, e2, e3⟩ := h7 g hgm
            exact ⟨w, w', e1, e2, e3.mono (fun _ _ _ => rfl) hnx (Nat.le_refl _)⟩
          · have hgf : g = f := by
              rcases List.mem_cons.mp hg with e | e
              · exact e
              · exact absurd e hgm
            subst hgf
            refine ⟨v, v', hv, ?_, ?_⟩
            · exact (h6 g hgm).trans ((setAttr_vals _ _ _ _ _).trans (if_pos rfl))
            · refine hdc.mono (fun i hi hi' => ?_) (Nat.le_refl _) h3'
              have hne : i ≠ dst := by omega
              exact (h4 i hi' hne).trans (setAttr_ne _ _ _ _ hne)
      intro r
      have hr : r = copyFields C rec dst src ((f, m) :: fs) s := rfl
      simp only [copyFields, hm, if_true, hsv] at hr
      cases v with
      | obj o =>
        simp only at hr
        have hch : Reach (copyList C) h0 src o := .child hf hv
        have hoN : o < s.next := below o hch
        have hpre : Pre C h0 s.next o (alloc C s (s.heap o).cls) :=
          { agree := fun i hi => by rw [alloc_lt _ _ (below i (hch.trans hi))]; exact agree i (hch.trans hi)
            below := fun i hi => Nat.lt_succ_of_lt (below i (hch.trans hi))
            apart := fun hi => absurd (below _ (hch.trans hi)) (Nat.lt_irrefl _)
            dstLt := Nat.lt_succ_self _
            cls := by rw [alloc_new, agree o hch]
            map := fun x hx => map x hx f hf o hv }
        have hp := hrec s.next o (alloc C s (s.heap o).cls) ⟨f, hf, hv⟩ hpre
        rw [if_pos hp.ok] at hr
        rw [hr]
        have hnx : s.next + 1 ≤ (rec s.next o (alloc C s (s.heap o).cls)).1.next := hp.next
        refine step _ (.obj s.next) ?_ ?_ ?_ (by omega) (.inl hp.map) ?_
        · intro i hi hne
          rw [hp.frame i (Nat.lt_succ_of_lt hi) (by omega), alloc_lt _ _ hi]
        · rw [hp.frame dst (Nat.lt_succ_of_lt dstLt) (by omega), alloc_lt _ _ dstLt]
        · intro g
          rw [hp.frame dst (Nat.lt_succ_of_lt dstLt) (by omega), alloc_lt _ _ dstLt]
        · have hcp := hp.copied
          have hg1 : ∃ g : Nat → Val, ∃ g' : Nat → Val, ∀ f ∈ copyList C (h0 o).cls, (h0 o).vals f = some (g f) ∧
              ((rec s.next o (alloc C s (s.heap o).cls)).1.heap s.next).vals f = some (g' f) ∧
              DC C h0 (rec s.next o (alloc C s (s.heap o).cls)).1.heap (s.next + 1)
                (rec s.next o (alloc C s (s.heap o).cls)).1.next (g f) (g' f) := by
            refine ⟨fun f => ((h0 o).vals f).getD .none,
              fun f => (((rec s.next o (alloc C s (s.heap o).cls)).1.heap s.next).vals f).getD .none, fun f hf => ?_⟩
            obtain ⟨w, w', e1, e2, e3⟩ := hcp f hf
            simp only [e1, e2, Option.getD_some]
            exact ⟨trivial, trivial, e3⟩
          obtain ⟨g, g', hgg⟩ := hg1
          refine .obj o s.next g g' (Nat.le_refl _) (by omega) ?_ (fun f hf => (hgg f hf).1) (fun f hf => (hgg f hf).2.1)
            (fun f hf => ((hgg f hf).2.2).mono (fun _ _ _ => rfl) (by omega) (Nat.le_refl _))
          rw [hp.cls, alloc_new, agree o hch]
      | int n => simp only at hr; rw [hr]; exact step s (.int n) (fun _ _ _ => rfl) rfl (fun _ => rfl) (Nat.le_refl _) (.inr ⟨rfl, rfl⟩) (.plain _ (by simp))
      | str n => simp only at hr; rw [hr]; exact step s (.str n) (fun _ _ _ => rfl) rfl (fun _ => rfl) (Nat.le_refl _) (.inr ⟨rfl, rfl⟩) (.plain _ (by simp))
      | none => simp only at hr; rw [hr]; exact step s .none (fun _ _ _ => rfl) rfl (fun _ => rfl) (Nat.le_refl _) (.inr ⟨rfl, rfl⟩) (.plain _ (by simp))
      | other n => simp only at hr; rw [hr]; exact step s (.other n) (fun _ _ _ => rfl) rfl (fun _ => rfl) (Nat.le_refl _) (.inr ⟨rfl, rfl⟩) (.plain _ (by simp))
    · rw [if_neg hm] at hsub ⊢
      intro r
      have hr : r = copyFields C rec dst src fs s := by
        show copyFields C rec dst src ((f, m) :: fs) s = _
        simp only [copyFields, hm]; rfl
      rw [hr]
      exact ih hsub s agree below dstLt map

theorem copyN_post {h0 : Nat → Obj} {rank : Nat → Nat} (n : Nat) : ∀ (dst src N : Nat) (s : State),
    Acyclic (copyList C) h0 N src rank → rank src < n → Pre C h0 dst src s → Post C h0 dst src s (copyN C n dst src s) := by
  induction n with
  | zero => intro dst src N s _ h _; omega
  | succ n ih =>
    intro dst src N s hA hrk hp
    have hne : dst ≠ src := fun e => hp.apart (e ▸ .refl)
    have hF := copyFields_post (C := C) (rec := copyN C n) (h0 := h0) (dst := dst) (src := src)
      (fun k o s hc hp => by
        obtain ⟨f, hf, hv⟩ := hc
        exact ih k o N s (hA.sub (.child hf hv)) (by have := hA.down src .refl f hf o hv; omega) hp)
      hne (hA.has src .refl) (C (h0 src).cls).auto (fun f hf => hf)
      { s with map := src :: s.map, depth := 0 + 1 } hp.agree hp.below hp.dstLt hp.apart
      (by
        intro x hx f hf p hv hr
        have hx : x ∈ src :: s.map := hx
        rcases List.mem_cons.mp hx with e | e
        · subst e
          have h1 := hA.down x .refl f hf p hv
          have h2 := (hA.sub (.child hf hv)).rank_le hr
          omega
        · exact hp.map x e (Reach.trans (.child hf hv) hr))
    have hmem : src ∉ s.map := fun h => hp.map src h .refl
    obtain ⟨h1, h2, h3, h4, h5, h6, h7⟩ := hF
    have hr : copyN C (n + 1) dst src s =
        (if (copyFields C (copyN C n) dst src (C (h0 src).cls).auto { s with map := src :: s.map, depth := 0 + 1 }).1.depth - 1 = 0
          then { (copyFields C (copyN C n) dst src (C (h0 src).cls).auto { s with map := src :: s.map, depth := 0 + 1 }).1 with
            depth := (copyFields C (copyN C n) dst src (C (h0 src).cls).auto { s with map := src :: s.map, depth := 0 + 1 }).1.depth - 1,
            map := [] }
          else { (copyFields C (copyN C n) dst src (C (h0 src).cls).auto { s with map := src :: s.map, depth := 0 + 1 }).1 with
            depth := (copyFields C (copyN C n) dst src (C (h0 src).cls).auto { s with map := src :: s.map, depth := 0 + 1 }).1.depth - 1 },
          true) := by
      simp only [copyN, if_neg hmem, hp.cls, h1, if_true]
    rw [hr]
    generalize copyFields C (copyN C n) dst src (C (h0 src).cls).auto { s with map := src :: s.map, depth := 0 + 1 } = R at *
    by_cases hd : R.1.depth - 1 = 0
    · rw [if_pos hd]; exact ⟨rfl, rfl, h3, h4, h5, h6, h7⟩
    · rw [if_neg hd]
      refine ⟨rfl, ?_, h3, h4, h5, h6, h7⟩
      rcases h2 with e | ⟨_, e⟩
      · exact e
      · exact absurd (show R.1.depth - 1 = 0 by rw [e]; rfl) hd

/-- The objects at `dst` and at `lo` or above form a forest below `dst`. -/
structure Tree (lo dst : Nat) (s : State) : Prop where
  val : ∀ o f p, (o = dst ∨ (lo ≤ o ∧ o < s.next)) → (s.heap o).vals f = some (.obj p) → lo ≤ p ∧ p < s.next ∧ o < p
  uniq : ∀ o o' f f' p, (o = dst ∨ (lo ≤ o ∧ o < s.next)) → (o' = dst ∨ (lo ≤ o' ∧ o' < s.next)) →
    (s.heap o).vals f = some (.obj p) → (s.heap o').vals f' = some (.obj p) → o = o' ∧ f = f'

theorem Tree.plain {lo dst : Nat} {s : State} (t : Tree lo dst s) (f : Nat) (v : Val) (hv : ∀ o, v ≠ .obj o) :
    Tree lo dst (setAttr s dst f v) := by
  have key : ∀ o g p, ((setAttr s dst f v).heap o).vals g = some (.obj p) → (s.heap o).vals g = some (.obj p) := by
    intro o g p h
    by_cases e : o = dst
    · subst e
      rw [setAttr_vals] at h
      by_cases e' : g = f
      · rw [if_pos e'] at h; exact absurd (Option.some.inj h) (hv p)
      · rwa [if_neg e'] at h
    · rwa [setAttr_ne _ _ _ _ e] at h
  exact ⟨fun o g p ho h => t.val o g p ho (key o g p h),
    fun o o' g g' p ho ho' h h' => t.uniq o o' g g' p ho ho' (key o g p h) (key o' g' p h')⟩

theorem copyFields_tree {rec : Nat → Nat → State → State × Bool} {h0 : Nat → Obj} {dst src : Nat}
    (hd0 : ∀ c f o, (C c).dflt f ≠ some (.obj o))
    (hrec : ∀ k o s, (∃ f ∈ copyList C (h0 src).cls, (h0 src).vals f = some (.obj o)) → Pre C h0 k o s →
      Post C h0 k o s (rec k o s) ∧ ((∀ f p, (s.heap k).vals f ≠ some (.obj p)) → Tree s.next k (rec k o s).1))
    (hsrc : dst ≠ src) (hhas : ∀ f ∈ copyList C (h0 src).cls, ∃ v, (h0 src).vals f = some v)
    (fs : List (Nat × Nat)) (hsub : ∀ f ∈ namesOf fs, f ∈ copyList C (h0 src).cls) (s : State)
    (agree : ∀ i, Reach (copyList C) h0 src i → s.heap i = h0 i)
    (below : ∀ i, Reach (copyList C) h0 src i → i < s.next)
    (dstLt : dst < s.next) (apart : ¬ Reach (copyList C) h0 src dst)
    (map : ∀ x ∈ s.map, ∀ f ∈ copyList C (h0 src).cls, ∀ p, (h0 src).vals f = some (.obj p) →
      ¬ Reach (copyList C) h0 p x)
    (lo : Nat) (hlo : dst < lo) (hlo' : lo ≤ s.next) (t : Tree lo dst s) :
    Tree lo dst (copyFields C rec dst src fs s).1 := by
  induction fs generalizing s with
  | nil => exact t
  | cons fm fs ih =>
    obtain ⟨f, m⟩ := fm
    rw [namesOf_cons] at hsub
    by_cases hm : copies m = true
    · rw [if_pos hm] at hsub
      have hf : f ∈ copyList C (h0 src).cls := hsub f List.mem_cons_self
      have hsub' : ∀ g ∈ namesOf fs, g ∈ copyList C (h0 src).cls := fun g hg => hsub g (List.mem_cons_of_mem _ hg)
      obtain ⟨v, hv⟩ := hhas f hf
      have hsv : (s.heap src).vals f = some v := by rw [agree src .refl]; exact hv
      have plain : ∀ v : Val, (∀ o, v ≠ .obj o) → Tree lo dst (copyFields C rec dst src fs (setAttr s dst f v)).1 := by
        intro v hv
        refine ih hsub' (setAttr s dst f v) ?_ below dstLt map hlo' (t.plain f v hv)
        intro i hi
        have hne : i ≠ dst := fun e => apart (e ▸ hi)
        rw [setAttr_ne _ _ _ _ hne, agree i hi]
      simp only [copyFields, hm, if_true, hsv]
      cases v with
      | obj o =>
        simp only
        have hch : Reach (copyList C) h0 src o := .child hf hv
        have hpre : Pre C h0 s.next o (alloc C s (s.heap o).cls) :=
          { agree := fun i hi => by rw [alloc_lt _ _ (below i (hch.trans hi))]; exact agree i (hch.trans hi)
            below := fun i hi => Nat.lt_succ_of_lt (below i (hch.trans hi))
            apart := fun hi => absurd (below _ (hch.trans hi)) (Nat.lt_irrefl _)
            dstLt := Nat.lt_succ_self _
            cls := by rw [alloc_new, agree o hch]
            map := fun x hx => map x hx f hf o hv }
        obtain ⟨hp, ht⟩ := hrec s.next o (alloc C s (s.heap o).cls) ⟨f, hf, hv⟩ hpre
        have ht := ht (by intro g p; rw [alloc_new]; exact hd0 _ g p)
        rw [if_pos hp.ok]
        have hnx : s.next + 1 ≤ (rec s.next o (alloc C s (s.heap o).cls)).1.next := hp.next
        have hfr : ∀ i, i < s.next → (rec s.next o (alloc C s (s.heap o).cls)).1.heap i = s.heap i := by
          intro i hi
          rw [hp.frame i (Nat.lt_succ_of_lt hi) (by omega), alloc_lt _ _ hi]
        have hmp := hp.map
        have ht : Tree (s.next + 1) s.next (rec s.next o (alloc C s (s.heap o).cls)).1 := ht
        generalize (rec s.next o (alloc C s (s.heap o).cls)).1 = s1 at *
        refine ih hsub' (setAttr s1 dst f (.obj s.next)) ?_ ?_ ?_ ?_ ?_ ?_
        · intro i hi
          have hne : i ≠ dst := fun e => apart (e ▸ hi)
          rw [setAttr_ne _ _ _ _ hne, hfr i (below i hi), agree i hi]
        · intro i hi; exact Nat.lt_of_lt_of_le (below i hi) (by show s.next ≤ s1.next; omega)
        · show dst < s1.next; omega
        · intro x hx
          have hx : x ∈ s1.map := hx
          rw [hmp] at hx; cases hx
        · show lo ≤ s1.next; omega
        · -- where a value can come from
          have src : ∀ o g p, (o = dst ∨ (lo ≤ o ∧ o < s1.next)) →
              ((setAttr s1 dst f (.obj s.next)).heap o).vals g = some (.obj p) →
              (o = dst ∧ g = f ∧ p = s.next) ∨
              ((o = dst ∨ (lo ≤ o ∧ o < s.next)) ∧ (s.heap o).vals g = some (.obj p) ∧ p < s.next) ∨
              ((o = s.next ∨ (s.next + 1 ≤ o ∧ o < s1.next)) ∧ (s1.heap o).vals g = some (.obj p) ∧ s.next < p) := by
            intro o g p ho h
            by_cases e : o = dst
            · subst e
              rw [setAttr_vals] at h
              by_cases e' : g = f
              · rw [if_pos e'] at h
                have := Option.some.inj h
                simp only [Val.obj.injEq] at this
                exact .inl ⟨rfl, e', this.symm⟩
              · rw [if_neg e', hfr o dstLt] at h
                exact .inr (.inl ⟨.inl rfl, h, (t.val o g p (.inl rfl) h).2.1⟩)
            · rw [setAttr_ne _ _ _ _ e] at h
              have ho : lo ≤ o ∧ o < s1.next := by
                rcases ho with ho | ho
                · exact absurd ho e
                · exact ho
              by_cases e' : o < s.next
              · rw [hfr o e'] at h
                exact .inr (.inl ⟨.inr ⟨ho.1, e'⟩, h, (t.val o g p (.inr ⟨ho.1, e'⟩) h).2.1⟩)
              · have hin : o = s.next ∨ (s.next + 1 ≤ o ∧ o < s1.next) := by omega
                exact .inr (.inr ⟨hin, h, by have := (ht.val o g p hin h).1; omega⟩)
          constructor
          · intro o g p ho h
            have hnext : (setAttr s1 dst f (.obj s.next)).next = s1.next := rfl
            rw [hnext] at ho ⊢
            rcases src o g p ho h with ⟨e1, e2, e3⟩ | ⟨h1, h2, h3⟩ | ⟨h1, h2, h3⟩
            · subst e1 e3; omega
            · have := t.val o g p h1 h2; omega
            · have := ht.val o g p h1 h2; omega
          · intro o o' g g' p ho ho' h h'
            rcases src o g p ho h with ⟨e1, e2, e3⟩ | ⟨h1, h2, h3⟩ | ⟨h1, h2, h3⟩ <;>
              rcases src o' g' p ho' h' with ⟨q1, q2, q3⟩ | ⟨k1, k2, k3⟩ | ⟨k1, k2, k3⟩
            · exact ⟨e1.trans q1.symm, e2.trans q2.symm⟩
            · omega
            · omega
            · omega
            · exact t.uniq o o' g g' p h1 k1 h2 k2
            · omega
            · omega
            · omega
            · exact ht.uniq o o' g g' p h1 k1 h2 k2
      | int n => exact plain _ (by simp)
      | str n => exact plain _ (by simp)
      | none => exact plain _ (by simp)
      | other n => exact plain _ (by simp)
    · rw [if_neg hm] at hsub
      simp only [copyFields, hm]
      exact ih hsub s agree below dstLt map hlo' t

theorem copyN_tree {h0 : Nat → Obj} {rank : Nat → Nat} (hd0 : ∀ c f o, (C c).dflt f ≠ some (.obj o)) (n : Nat) :
    ∀ (dst src N : Nat) (s : State),
    Acyclic (copyList C) h0 N src rank → rank src < n → Pre C h0 dst src s →
    (∀ f p, (s.heap dst).vals f ≠ some (.obj p)) → Tree s.next dst (copyN C n dst src s).1 := by
  induction n with
  | zero => intro dst src N s _ h _; omega
  | succ n ih =>
    intro dst src N s hA hrk hp hno
    have hne : dst ≠ src := fun e => hp.apart (e ▸ .refl)
    have hT0 : Tree s.next dst { s with map := src :: s.map, depth := (0 : Int) + 1 } := by
      constructor
      · intro o f p ho h
        rcases ho with e | e
        · subst e; exact absurd h (hno f p)
        · have e : s.next ≤ o ∧ o < s.next := e
          omega
      · intro o o' f f' p ho _ h _
        rcases ho with e | e
        · subst e; exact absurd h (hno f p)
        · have e : s.next ≤ o ∧ o < s.next := e
          omega
    have hF := copyFields_tree (C := C) (rec := copyN C n) (h0 := h0) (dst := dst) (src := src) hd0
      (fun k o s hc hp => by
        obtain ⟨f, hf, hv⟩ := hc
        have hr : rank o < n := by have := hA.down src .refl f hf o hv; omega
        exact ⟨copyN_post n k o N s (hA.sub (.child hf hv)) hr hp, ih k o N s (hA.sub (.child hf hv)) hr hp⟩)
      hne (hA.has src .refl) (C (h0 src).cls).auto (fun f hf => hf)
      { s with map := src :: s.map, depth := 0 + 1 } hp.agree hp.below hp.dstLt hp.apart
      (by
        intro x hx f hf p hv hr
        have hx : x ∈ src :: s.map := hx
        rcases List.mem_cons.mp hx with e | e
        · subst e
          have h1 := hA.down x .refl f hf p hv
          have h2 := (hA.sub (.child hf hv)).rank_le hr
          omega
        · exact hp.map x e (Reach.trans (.child hf hv) hr))
      s.next hp.dstLt (Nat.le_refl _) hT0
    have hmem : src ∉ s.map := fun h => hp.map src h .refl
    simp only [copyN, if_neg hmem, hp.cls]
    generalize copyFields C (copyN C n) dst src (C (h0 src).cls).auto { s with map := src :: s.map, depth := 0 + 1 } = R at *
    split
    · split
      · exact ⟨hF.val, hF.uniq⟩
      · exact ⟨hF.val, hF.uniq⟩
    · exact hF

end Verif.Object
