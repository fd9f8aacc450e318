import Verif.Spec.RandStab
/-! # C189–C191: random stability -/
namespace Verif.RandStab
variable {S V : Type}

/-- The state after `n` values. -/
def after (solve : S → V × S) : Nat → S → S
  | 0, s => s
  | n + 1, s => after solve n (solve s).2

theorem stream_add (f : S → V × S) (n m : Nat) (s : S) : stream f (n + m) s = stream f n s ++ stream f m (after f n s) := by
  induction n generalizing s with
  | zero => simp [stream, after]
  | succ n ih => simp only [Nat.succ_add, stream, after, ih, List.cons_append]

theorem after_add (f : S → V × S) (n m : Nat) (s : S) : after f (n + m) s = after f m (after f n s) := by
  induction n generalizing s with
  | zero => simp [after]
  | succ n ih => simp only [Nat.succ_add, after, ih]

/-- `w'` comes from `w` by randomizing `o` `n` times from its own state. -/
structure Adv (G : Gen S V) (o n : Nat) (w w' : World S V) : Prop where
  vals : w'.vals o = w.vals o ++ stream (G.solve o) n (w.saved o)
  saved : w'.saved o = after (G.solve o) n (w.saved o)
  mode : w'.mode = w.mode

theorem Adv.refl (G : Gen S V) (o : Nat) (w : World S V) : Adv G o 0 w w := ⟨by simp [stream], rfl, rfl⟩

theorem Adv.trans {G : Gen S V} {o n m : Nat} {w w' w'' : World S V} (h : Adv G o n w w') (h' : Adv G o m w' w'') : Adv G o (n + m) w w'' :=
  ⟨by rw [h'.vals, h.vals, h.saved, stream_add, List.append_assoc], by rw [h'.saved, h.saved, after_add], by rw [h'.mode, h.mode]⟩

mutual
theorem adv_randomize (G : Gen S V) (o : Nat) (w : World S V) (x : Obj) (hx : leafIn o x = true) :
    Adv G o (occ w.mode o x) w (randomize G w x).1 ∧ (randomize G w x).2 = true := by
  match x with
  | .node i b subs =>
    simp only [leafIn, Bool.and_eq_true, Bool.or_eq_true, bne_iff_ne, ne_eq, List.isEmpty_iff] at hx
    simp only [randomize, occ]
    cases hm : w.mode i with
    | false => simp only [if_true, Bool.false_eq_true, if_false]; exact ⟨Adv.refl G o w, by trivial⟩
    | true =>
      simp only [if_true, Bool.true_eq_false, if_false]
      have h := adv_entries G o { w with g := w.saved i } subs hx.2
      simp only [h.2, if_true]
      refine ⟨?_, trivial⟩
      by_cases hio : i = o
      · subst hio
        have hs : subs = [] := by
          rcases hx.1 with h | h
          · exact absurd rfl h
          · exact h
        subst hs
        simp only [entries, occAll, if_true, Nat.zero_add]
        exact ⟨by simp [save, draw, stream], by simp [save, draw, after], by simp [save, draw]⟩
      · simp only [hio, if_false, Nat.add_zero]
        have hoi : ¬ o = i := fun h => hio h.symm
        obtain ⟨h1, h2, h3⟩ := h.1
        simp only at h1 h2 h3
        exact ⟨by simp [save, draw, hoi, h1], by simp [save, draw, hoi, h2], by simp [save, draw, h3]⟩
theorem adv_entries (G : Gen S V) (o : Nat) (w : World S V) (l : List Obj) (hl : leafInAll o l = true) :
    Adv G o (occAll w.mode o l) w (entries G w l).1 ∧ (entries G w l).2 = true := by
  match l with
  | [] => exact ⟨Adv.refl G o w, rfl⟩
  | e :: es =>
    simp only [leafInAll, Bool.and_eq_true, Bool.not_eq_true'] at hl
    simp only [entries, hl.1.1, Bool.false_eq_true, if_false, occAll]
    have h := adv_randomize G o w e hl.1.2
    simp only [h.2, if_true]
    have h' := adv_entries G o (randomize G w e).1 es hl.2
    rw [h.1.mode] at h'
    exact ⟨h.1.trans h'.1, h'.2⟩
end

theorem adv_step (G : Gen S V) (o : Nat) (w : World S V) (e : Ev S) (he : fair o e = true) : Adv G o (times w.mode o e) w (step G w e) := by
  cases e with
  | create x =>
    simp only [fair, bne_iff_ne, ne_eq] at he
    have : ¬ o = x := fun h => he h.symm
    exact ⟨by simp [step, create, this, times, stream], by simp [step, create, this, times, after], rfl⟩
  | randomize x => exact (adv_randomize G o w x he).1
  | use g => exact ⟨by simp [step, times, stream], rfl, rfl⟩
  | randomizeWith x =>
    obtain ⟨i, b, subs⟩ := x
    simp only [fair, Obj.id, Bool.and_eq_true, bne_iff_ne, ne_eq, leafIn] at he
    simp only [step, randomizeWith, times, occ]
    cases hm : w.mode i with
    | false => simp only [if_true, Bool.false_eq_true, if_false]; exact Adv.refl G o w
    | true =>
      simp only [if_true, Bool.true_eq_false, if_false]
      have h := adv_entries G o w subs he.2.2
      simp only [h.2, if_true, he.1, if_false, Nat.add_zero]
      have hoi : ¬ o = i := fun h => he.1 h.symm
      obtain ⟨h1, h2, h3⟩ := h.1
      exact ⟨by simp [draw, hoi, h1], by simp [draw, h2], by simp [draw, h3]⟩

theorem adv_run (G : Gen S V) (o : Nat) (es : List (Ev S)) (w : World S V) (he : ∀ e ∈ es, fair o e = true) :
    Adv G o ((es.map (times w.mode o)).sum) w (run G w es) := by
  induction es generalizing w with
  | nil => exact Adv.refl G o w
  | cons e es ih =>
    have h := adv_step G o w e (he e (List.mem_cons_self ..))
    have h' := ih (step G w e) (fun x hx => he x (List.mem_cons_of_mem _ hx))
    rw [h.mode] at h'
    exact h.trans h'

/-- C189: random stability: the values that `randomize()` gives to an object without random sub-objects are the stream that begins with its own seed, whatever else
happens in between: other objects are created or randomized, alone, as sub-objects or with inline constraints, and the test draws numbers itself. -/
theorem C189_own_stream (G : Gen S V) (w : World S V) (o : Nat) (es : List (Ev S)) (he : ∀ e ∈ es, fair o e = true) :
    (run G (create G w o) es).vals o = stream (G.solve o) ((es.map (times w.mode o)).sum) (G.seed (G.number w.g).1) := by
  have h := (adv_run G o es (create G w o) he).vals
  simpa [create] using h

/-- C189: two runs that give the object the same seed and randomize it equally often give it the same values. -/
theorem C189_same_seed (G : Gen S V) (w w' : World S V) (o : Nat) (es es' : List (Ev S)) (he : ∀ e ∈ es, fair o e = true) (he' : ∀ e ∈ es', fair o e = true)
    (hs : (G.number w.g).1 = (G.number w'.g).1) (hn : (es.map (times w.mode o)).sum = (es'.map (times w'.mode o)).sum) :
    (run G (create G w o) es).vals o = (run G (create G w' o) es').vals o := by
  rw [C189_own_stream G w o es he, C189_own_stream G w' o es' he', hs, hn]

/-- C190 fails: the values of an object come from the state its last sub-object left, not from its own: its own saved state does not matter. -/
theorem C190_sub_object_fails (G : Gen S V) (w : World S V) (o c : Nat) (hc : c ≠ o) (hm : w.mode o = true) (hmc : w.mode c = true) :
    (randomize G w (.node o false [.node c false []])).1.vals o = w.vals o ++ [(G.solve o (G.solve c (w.saved c)).2).1] := by
  have hoc : ¬ o = c := fun h => hc h.symm
  simp [randomize, entries, Obj.byObject, hm, hmc, save, draw, hc, hoc]

/-- C190 fails: `randomize_with()` draws from the state that happens to be there, and keeps nothing. -/
theorem C190_with_fails (G : Gen S V) (w : World S V) (o : Nat) (hm : w.mode o = true) :
    (randomizeWith G w (.node o false [])).1.vals o = w.vals o ++ [(G.solve o w.g).1] ∧ (randomizeWith G w (.node o false [])).1.saved = w.saved := by
  simp [randomizeWith, entries, hm, draw]

/-- A generator whose numbers are its states. -/
def counter : Gen Nat Nat := ⟨fun s => (s, s + 1), fun n => 10 * n, fun _ s => (s, s + 1)⟩

def w0 : World Nat Nat := ⟨3, fun _ => 0, fun _ => [], fun _ => true⟩

/-- C190 fails: the values of an object change when a sub-object of it was randomized by itself, or when the test drew numbers before `randomize_with()`. -/
theorem C190_stable_fails :
    (run counter w0 [.create 1, .create 2, .randomize (.node 1 false [.node 2 false []])]).vals 1 ≠
      (run counter w0 [.create 1, .create 2, .randomize (.node 2 false []), .randomize (.node 1 false [.node 2 false []])]).vals 1 ∧
    (run counter w0 [.create 1, .randomizeWith (.node 1 false [])]).vals 1 ≠ (run counter w0 [.create 1, .use 7, .randomizeWith (.node 1 false [])]).vals 1 := by
  decide

/-- C190: what holds: a sub-object keeps its own stream whatever its parent does (C189 counts these calls), and an object's own state is kept in itself after `randomize()`. -/
theorem C190_saved_partial (G : Gen S V) (w : World S V) (x : Obj) (hm : w.mode x.id = true) (hr : (randomize G w x).2 = true) :
    (randomize G w x).1.saved x.id = (randomize G w x).1.g := by
  obtain ⟨i, b, subs⟩ := x
  simp only [Obj.id] at hm
  simp only [randomize, hm, Bool.true_eq_false, if_false, Obj.id] at hr ⊢
  split
  · simp [save]
  · next h => simp [h] at hr

/-- C190 fails: an object that registered a sub-object by passing it cannot be randomized: the call raises, before anything of the object is drawn. -/
theorem C190_by_object_fails (G : Gen S V) (w : World S V) (o : Nat) (b : Bool) (c : Nat) (ss more : List Obj) (hm : w.mode o = true) :
    (randomize G w (.node o b (.node c true ss :: more))).2 = false ∧ (randomize G w (.node o b (.node c true ss :: more))).1.vals = w.vals ∧
    (randomizeWith G w (.node o b (.node c true ss :: more))).2 = false ∧ (randomizeWith G w (.node o b (.node c true ss :: more))).1.vals = w.vals := by
  simp [randomize, randomizeWith, entries, Obj.byObject, hm]

/-- C191 fails: the seed of a new object depends on which object was randomized last, and is drawn from the state that object will use next: the seed is a number
from that object's own stream. -/
theorem C191_seed_from_other_fails (G : Gen S V) (w : World S V) (x : Obj) (n : Nat) (hm : w.mode x.id = true) (hr : (randomize G w x).2 = true) :
    (create G (randomize G w x).1 n).saved n = G.seed (G.number ((randomize G w x).1.saved x.id)).1 := by
  rw [C190_saved_partial G w x hm hr]
  simp [create]

/-- C191: objects created one after the other get a chain of seeds that is fixed by the state before the first. -/
theorem C191_chain_partial (G : Gen S V) (os : List Nat) (w w' : World S V) (hg : w.g = w'.g) :
    (run G w (os.map .create)).g = (run G w' (os.map .create)).g ∧ ∀ o ∈ os, (run G w (os.map .create)).saved o = (run G w' (os.map .create)).saved o := by
  suffices h : ∀ (os : List Nat) (w w' : World S V) (D : Nat → Prop), w.g = w'.g → (∀ o, D o → w.saved o = w'.saved o) →
      (run G w (os.map .create)).g = (run G w' (os.map .create)).g ∧ ∀ o, o ∈ os ∨ D o → (run G w (os.map .create)).saved o = (run G w' (os.map .create)).saved o by
    have := h os w w' (fun _ => False) hg (fun _ h => h.elim)
    exact ⟨this.1, fun o ho => this.2 o (.inl ho)⟩
  intro os
  induction os with
  | nil =>
    intro w w' D hg hD
    exact ⟨hg, fun o ho => hD o (ho.resolve_left (by simp))⟩
  | cons a os ih =>
    intro w w' D hg hD
    have := ih (create G w a) (create G w' a) (fun o => o = a ∨ D o) (by simp [create, hg]) (by
      intro o ho
      by_cases h : o = a
      · simp [create, h, hg]
      · simp [create, h, hD o (ho.resolve_left h)])
    refine ⟨this.1, fun o ho => this.2 o ?_⟩
    rcases ho with ho | ho
    · rcases List.mem_cons.1 ho with h | h
      · exact .inr (.inl h)
      · exact .inl h
    · exact .inr (.inr ho)

/-- C191: the global generator continues from the seed of the object created last, so the next object gets a seed drawn from that. -/
theorem C191_next_seed_partial (G : Gen S V) (w : World S V) (a b : Nat) :
    (run G w [.create a, .create b]).saved b = G.seed (G.number (G.seed (G.number w.g).1)).1 := by
  simp [run, step, create]

-- three values for object 1 with all else going on
example : (run counter (create counter w0 1) [.randomize (.node 1 false []), .create 2, .use 99, .randomize (.node 2 false [.node 1 false []]), .randomizeWith (.node 2 false [.node 1 false []])]).vals 1 =
    [30, 31, 32] ∧ ∀ e ∈ ([.randomize (.node 1 false []), .create 2, .use 99, .randomize (.node 2 false [.node 1 false []])] : List (Ev Nat)), fair 1 e = true := by decide

end Verif.RandStab
