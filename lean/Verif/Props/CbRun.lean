import Verif.Lemmas.Callback
import Verif.Props.PoolIter
import Verif.Spec.CbRun
/-! # C383, C384: callbacks that use the callback facility while they run -/
namespace Verif.CbRun
open Verif.Callback

/-- Object `o` has the queue `q` of its own, not empty. -/
def Own (s : State) (o : Nat) (q : List Nat) : Prop := s.pool o = some q ∧ q ≠ []

theorem own_getQ {s : State} {o : Nat} {q : List Nat} (h : Own s o q) : getQ s (some o) = q := by simp [getQ, h.1]

theorem own_instQ {s : State} {o : Nat} {q : List Nat} (h : Own s o q) : instQ s o = q := by
  cases q with
  | nil => exact absurd rfl h.2
  | cons c q => simp [instQ, h.1]

theorem setMode_pool (s : State) (c : Nat) (on : Int) : (setMode s c on).pool = s.pool := by
  unfold setMode; split
  · rfl
  · split <;> rfl

theorem own_step {s : State} {o : Nat} {q : List Nat} (h : Own s o q) (hn : q.Nodup) {x : Op} (hx : appends o x = true) :
    ∃ e, Own (step s x).1 o (q ++ e) ∧ (q ++ e).Nodup ∧ ∀ d ∈ e, adds o x = some d := by
  cases x with
  | addInst o' c a =>
    by_cases ho : o' = o
    · subst ho
      simp [appends] at hx
      subst hx
      by_cases hc : c ∈ q
      · exact ⟨[], ⟨by simp [step, addInst, upd, own_instQ h, hc], by simpa using h.2⟩, by simpa using hn, by simp⟩
      · refine ⟨[c], ⟨by simp [step, addInst, upd, own_instQ h, hc, Callback.insert], by simp⟩, ?_, by simp [adds]⟩
        rw [List.nodup_append]
        exact ⟨hn, by simp, by intro a ha b hb; simp at hb; subst hb; intro e; exact hc (e ▸ ha)⟩
    · exact ⟨[], ⟨by simp [step, addInst, upd, Ne.symm ho, h.1], by simpa using h.2⟩, by simpa using hn, by simp⟩
  | mode c on => exact ⟨[], ⟨by simp [step, setMode_pool, h.1], by simpa using h.2⟩, by simpa using hn, by simp⟩
  | _ => simp [appends] at hx

theorem own_run {s : State} {o : Nat} {q : List Nat} (h : Own s o q) (hn : q.Nodup) (l : List Op) (hl : ∀ x ∈ l, appends o x = true) :
    ∃ e, Own (runS step s l) o (q ++ e) ∧ (q ++ e).Nodup ∧ ∀ d ∈ e, d ∈ l.filterMap (adds o) := by
  induction l generalizing s q with
  | nil => exact ⟨[], by simpa using h, by simpa using hn, by simp⟩
  | cons x l ih =>
    obtain ⟨e, h1, h2, h3⟩ := own_step h hn (hl x List.mem_cons_self)
    obtain ⟨e', g1, g2, g3⟩ := ih h1 h2 fun y hy => hl y (List.mem_cons_of_mem _ hy)
    refine ⟨e ++ e', by simpa using g1, by simpa using g2, fun d hd => ?_⟩
    rw [List.mem_filterMap]
    rcases List.mem_append.1 hd with hd | hd
    · exact ⟨x, List.mem_cons_self, h3 d hd⟩
    · obtain ⟨y, hy, hy2⟩ := List.mem_filterMap.1 (g3 d hd)
      exact ⟨y, List.mem_cons_of_mem _ hy, hy2⟩

theorem modes_run (s : State) (l : List Op) (hl : ∀ x ∈ l, keepsModes x = true) : (runS step s l).enabled = s.enabled := by
  induction l generalizing s with
  | nil => rfl
  | cons x l ih =>
    rw [runS_cons, ih _ fun y hy => hl y (List.mem_cons_of_mem _ hy)]
    have := hl x List.mem_cons_self
    cases x with
    | addType c a => simp only [step, addType]; split <;> rfl
    | addInst o c a => rfl
    | delete o c => rfl
    | mode c on => simp [keepsModes] at this

/-- Where a scan of the queue from index `m` stops. -/
theorem scan_split {p : Nat → Bool} {q : List Nat} {m last c j : Nat} (h : scanUp p (q.drop m) m last = (some c, j)) :
    ∃ l1 l2, q = l1 ++ c :: l2 ∧ l1.length = j ∧ m ≤ j ∧ (l1.drop m).filter p = [] ∧ p c = true := by
  obtain ⟨h1, h2⟩ := scanUp_spec p (q.drop m) m last
  rw [h] at h1 h2
  obtain ⟨h3, h4, h5⟩ := h2 c rfl
  dsimp only at h1 h3 h4 h5
  rw [List.drop_drop, List.drop_drop, show m + (j - m) = j by omega, show m + (j - m + 1) = j + 1 by omega] at h4
  have hj : j < q.length := by
    rcases Nat.lt_or_ge j q.length with hh | hh
    · exact hh
    · rw [List.drop_eq_nil_of_le hh] at h4; cases h4
  refine ⟨q.take j, q.drop (j + 1), ?_, by simp; omega, h3, ?_, List.find?_some h1.symm⟩
  · rw [← h4, List.take_append_drop]
  · rw [List.drop_take]; exact h5

/-- The loop from index `m` of the queue on. -/
theorem dyn_spec (isa : Nat → Nat → Bool) (o : Nat) (k : Option Nat) (eff : Effect) (he : ∀ i c, ∀ x ∈ eff i c, appends o x = true)
    (n i : Nat) (s : State) (q : List Nat) (hq : Own s o q) (hn : q.Nodup) (m last : Nat) :
    let r := dynLoop isa (some o) k eff n i s (scanUp (accepts isa s k) (q.drop m) m last)
    ∃ e, Own r.2.1 o (q ++ e) ∧ (q ++ e).Nodup ∧ r.1.Sublist ((q ++ e).drop m) ∧
      (∀ d ∈ e, ∃ i c, d ∈ (eff i c).filterMap (adds o)) ∧
      (r.2.2 = false → r.1.length = n) ∧
      ((∀ i c, ∀ x ∈ eff i c, keepsModes x = true) → r.2.2 = true → r.1 = ((q ++ e).drop m).filter (accepts isa s k)) := by
  induction n generalizing i s q m last with
  | zero =>
    rcases hg : scanUp (accepts isa s k) (q.drop m) m last with ⟨_ | c, j⟩
    · refine ⟨[], by rw [List.append_nil]; exact hq, by simpa using hn, by simp [dynLoop], by simp, by simp [dynLoop], fun _ _ => ?_⟩
      have := (scanUp_spec (accepts isa s k) (q.drop m) m last).1
      rw [hg] at this
      have h2 := List.find?_eq_none.1 this.symm
      rw [List.append_nil, show (q.drop m).filter (accepts isa s k) = [] from List.filter_eq_nil_iff.2 h2]
      rfl
    · exact ⟨[], by rw [List.append_nil]; exact hq, by simpa using hn, by simp [dynLoop], by simp, by simp [dynLoop], by simp [dynLoop]⟩
  | succ n ih =>
    rcases hg : scanUp (accepts isa s k) (q.drop m) m last with ⟨_ | c, j⟩
    · refine ⟨[], by rw [List.append_nil]; exact hq, by simpa using hn, by simp [dynLoop], by simp, by simp [dynLoop], fun _ _ => ?_⟩
      have := (scanUp_spec (accepts isa s k) (q.drop m) m last).1
      rw [hg] at this
      have h2 := List.find?_eq_none.1 this.symm
      rw [List.append_nil, show (q.drop m).filter (accepts isa s k) = [] from List.filter_eq_nil_iff.2 h2]
      rfl
    · obtain ⟨l1, l2, rfl, rfl, hm, hf, hp⟩ := scan_split hg
      obtain ⟨e1, g1, g2, g3⟩ := own_run hq hn (eff i c) (he i c)
      have ih' := ih (i + 1) (runS step s (eff i c)) _ g1 g2 (l1.length + 1) l1.length
      have hnext : getNext isa (runS step s (eff i c)) (some o) k l1.length =
          scanUp (accepts isa (runS step s (eff i c)) k) (((l1 ++ c :: l2) ++ e1).drop (l1.length + 1)) (l1.length + 1) l1.length := by
        rw [getNext, own_getQ g1]
      simp only [dynLoop, hnext]
      generalize dynLoop isa (some o) k eff n (i + 1) (runS step s (eff i c)) _ = r at ih'
      obtain ⟨e2, k1, k2, k3, k4, k5, k6⟩ := ih'
      have hd : ((l1 ++ c :: l2) ++ (e1 ++ e2)).drop m = l1.drop m ++ c :: (l2 ++ (e1 ++ e2)) := by
        rw [List.append_assoc, List.drop_append, show m - l1.length = 0 by omega]; rfl
      have hd2 : ((l1 ++ c :: l2) ++ e1 ++ e2).drop (l1.length + 1) = l2 ++ (e1 ++ e2) := by
        rw [List.append_assoc, List.append_assoc, List.drop_append, List.drop_eq_nil_of_le (by omega)]
        simp
      rw [hd2] at k3 k6
      refine ⟨e1 ++ e2, by simpa [List.append_assoc] using k1, by simpa [List.append_assoc] using k2, ?_, ?_, ?_, ?_⟩
      · rw [hd]
        exact List.Sublist.trans (List.Sublist.cons_cons c k3) (List.sublist_append_right _ _)
      · intro d hd'
        rcases List.mem_append.1 hd' with hd' | hd'
        · exact ⟨i, c, g3 d hd'⟩
        · exact k4 d hd'
      · intro hu; simp [k5 hu]
      · intro hk hfin
        have hen : accepts isa (runS step s (eff i c)) k = accepts isa s k := by
          funext d; unfold accepts; rw [modes_run _ _ (hk i c)]
        rw [hd, List.filter_append, hf, List.nil_append, List.filter_cons, if_pos hp, k6 hk hfin, hen]

theorem hasOwn_own {h : List Op} {o : Nat} (b : Bool) (ho : HasOwn h o) : Own (runS step (init b) h) o (kept h o) ∧ (kept h o).Nodup := by
  have hk : kept h o = queueOf (h.filterMap (instAdd o)) := by unfold kept; rw [if_neg ho]
  refine ⟨⟨?_, ?_⟩, ?_⟩
  · rw [pool_eq, hk]; unfold poolOf; rw [if_neg ho]
  · rw [hk]
    intro e
    obtain ⟨x, l, hx⟩ := List.exists_cons_of_ne_nil ho
    have : x.1 ∈ queueOf (h.filterMap (instAdd o)) := by rw [mem_queueOf, hx]; simp
    rw [e] at this; cases this
  · rw [hk]; exact nodup_queueOf _

/-- C383. If the methods of callbacks add callbacks to their own object only at the end, every callback is run at most once in one run: what is run are callbacks of
the queue of the object at the end of the run, in its order, and that queue extends the one at its beginning. -/
theorem C383_once (isa : Nat → Nat → Bool) (b : Bool) (h : List Op) (o : Nat) (ho : HasOwn h o) (k : Option Nat) (eff : Effect)
    (he : ∀ i c, ∀ x ∈ eff i c, appends o x = true) (n : Nat) :
    let r := dynCallbacks isa (some o) k eff n (runS step (init b) h)
    r.1.Nodup ∧ r.1.Sublist (getQ r.2.1 (some o)) ∧ kept h o <+: getQ r.2.1 (some o) := by
  intro r
  obtain ⟨hO, hN⟩ := hasOwn_own b ho
  obtain ⟨e, h1, h2, h3, _⟩ := dyn_spec isa o k eff he n 0 (runS step (init b) h) _ hO hN 0 0
  have hr : r = dynLoop isa (some o) k eff n 0 (runS step (init b) h) (scanUp (accepts isa (runS step (init b) h) k) ((kept h o).drop 0) 0 0) := by
    show dynCallbacks _ _ _ _ _ _ = _
    rw [dynCallbacks, getFirst, own_getQ hO, List.drop_zero]
  rw [← hr] at h1 h3
  rw [List.drop_zero] at h3
  rw [own_getQ h1]
  exact ⟨h3.nodup h2, h3, List.prefix_append _ _⟩

/-- C383. Such a run ends if the methods choose the callbacks they add from a finite collection, and if they change no modes the callbacks run are then exactly the
enabled ones of the class in the queue at the end of the run: those added meanwhile are run, too. -/
theorem C383_complete (isa : Nat → Nat → Bool) (b : Bool) (h : List Op) (o : Nat) (ho : HasOwn h o) (k : Nat) (eff : Effect)
    (he : ∀ i c, ∀ x ∈ eff i c, appends o x = true) (pool : List Nat) (hp : ∀ i c d a, .addInst o d a ∈ eff i c → d ∈ pool) (n : Nat) (hn : (kept h o).length + pool.length < n) :
    let r := dynCallbacks isa (some o) (some k) eff n (runS step (init b) h)
    r.2.2 = true ∧ ((∀ i c, ∀ x ∈ eff i c, keepsModes x = true) → r.1 = (getQ r.2.1 (some o)).filter (fun c => isa c k && isEnabled h c)) := by
  intro r
  obtain ⟨hO, hN⟩ := hasOwn_own b ho
  obtain ⟨e, h1, h2, h3, h4, h5, h6⟩ := dyn_spec isa o (some k) eff he n 0 (runS step (init b) h) _ hO hN 0 0
  have hr : r = dynLoop isa (some o) (some k) eff n 0 (runS step (init b) h) (scanUp (accepts isa (runS step (init b) h) (some k)) ((kept h o).drop 0) 0 0) := by
    show dynCallbacks _ _ _ _ _ _ = _
    rw [dynCallbacks, getFirst, own_getQ hO, List.drop_zero]
  rw [← hr] at h1 h3 h5 h6
  rw [List.drop_zero] at h3 h6
  have hfin : r.2.2 = true := by
    rcases hx : r.2.2 with _ | _
    · exfalso
      have hl := h5 hx
      have hle := h3.length_le
      have hee : e.length ≤ pool.length := by
        refine PoolIter.sub_length e pool (List.nodup_append.1 h2).2.1 fun d hd => ?_
        obtain ⟨i, c, hd2⟩ := h4 d hd
        obtain ⟨x, hx1, hx2⟩ := List.mem_filterMap.1 hd2
        cases x <;> simp [adds] at hx2
        obtain ⟨rfl, rfl⟩ := hx2
        exact hp _ _ _ _ hx1
      rw [List.length_append] at hle
      omega
    · rfl
  refine ⟨hfin, fun hk => ?_⟩
  rw [h6 hk hfin, own_getQ h1]
  congr 1
  funext c
  simp [accepts, enabled_eq]

example : HasOwn [.addInst 0 1 true, .addInst 0 2 true] 0 ∧
    (dynCallbacks (fun _ _ => true) (some 0) (some 9) (fun i _ => if i = 0 then [.addInst 0 3 true, .addInst 1 1 false] else []) 10
      (runS step (init false) [.addInst 0 1 true, .addInst 0 2 true])).1 = [1, 2, 3] := by decide

/-! ## Switching callbacks off -/

theorem off_run {s : State} {d : Nat} (h : s.enabled d = false) (l : List Op) (hl : ∀ x ∈ l, x ≠ .mode d 1) : (runS step s l).enabled d = false := by
  induction l generalizing s with
  | nil => exact h
  | cons x l ih =>
    refine ih ?_ fun y hy => hl y (List.mem_cons_of_mem _ hy)
    have := hl x List.mem_cons_self
    cases x with
    | addType c a => simp only [step, addType]; split <;> exact h
    | addInst o c a => exact h
    | delete o c => exact h
    | mode c on =>
      simp only [step, setMode]
      split
      · simp only [upd]; split
        · rfl
        · exact h
      · split
        · next h1 =>
          subst h1
          have : d ≠ c := fun e => this (by rw [e])
          simp [upd, this, h]
        · exact h

theorem off_sets {s : State} {d : Nat} (l : List Op) (hl : ∀ x ∈ l, x ≠ .mode d 1) (hm : .mode d 0 ∈ l) : (runS step s l).enabled d = false := by
  obtain ⟨l1, l2, rfl⟩ := List.append_of_mem hm
  rw [runS_append, runS_cons]
  exact off_run (by simp [step, setMode, upd]) l2 fun x hx => hl x (by simp [hx])

theorem scan_accepts {p : Nat → Bool} {q : List Nat} {m last c j : Nat} (h : scanUp p q m last = (some c, j)) : p c = true := by
  have := (scanUp_spec p q m last).1
  rw [h] at this
  exact List.find?_some this.symm

theorem off_loop (isa : Nat → Nat → Bool) (o : Option Nat) (k : Nat) (eff : Effect) (d : Nat) (hd : ∀ i c, ∀ x ∈ eff i c, x ≠ .mode d 1) (n i : Nat) (s : State)
    (h : s.enabled d = false) (q : List Nat) (m last : Nat) : d ∉ (dynLoop isa o (some k) eff n i s (scanUp (accepts isa s (some k)) q m last)).1 := by
  induction n generalizing i s q m last with
  | zero => rcases scanUp (accepts isa s (some k)) q m last with ⟨_ | c, j⟩ <;> simp [dynLoop]
  | succ n ih =>
    rcases hg : scanUp (accepts isa s (some k)) q m last with ⟨_ | c, j⟩
    · simp [dynLoop]
    · have hc := scan_accepts hg
      simp only [dynLoop, List.mem_cons, not_or]
      refine ⟨fun e => ?_, ih _ _ (off_run h _ (hd i c)) _ _ _⟩
      subst e
      simp [accepts, h] at hc

/-- C383. A callback switched off by the method of another one, and switched on by none, is not run after it. -/
theorem C383_switched_off (isa : Nat → Nat → Bool) (o : Option Nat) (k : Nat) (eff : Effect) (c d : Nat) (hc : ∀ i, .mode d 0 ∈ eff i c)
    (hd : ∀ i c', ∀ x ∈ eff i c', x ≠ .mode d 1) (n : Nat) (s : State) (l1 l2 : List Nat) (hr : (dynCallbacks isa o (some k) eff n s).1 = l1 ++ c :: l2) : d ∉ l2 := by
  suffices H : ∀ (n i : Nat) (s : State) (q : List Nat) (m last : Nat) (l1 : List Nat),
      (dynLoop isa o (some k) eff n i s (scanUp (accepts isa s (some k)) q m last)).1 = l1 ++ c :: l2 → d ∉ l2 from H n 0 s _ _ _ l1 hr
  intro n
  induction n with
  | zero =>
    intro i s q m last l1 h
    rcases hg : scanUp (accepts isa s (some k)) q m last with ⟨_ | c, j⟩ <;> (rw [hg] at h; simp [dynLoop] at h)
  | succ n ih =>
    intro i s q m last l1 h
    rcases hg : scanUp (accepts isa s (some k)) q m last with ⟨_ | c', j⟩
    · rw [hg] at h; simp [dynLoop] at h
    · rw [hg] at h
      simp only [dynLoop] at h
      cases l1 with
      | nil =>
        rw [List.nil_append] at h
        injection h with h1 h2
        subst h1
        rw [← h2]
        exact off_loop isa o k eff d hd n (i + 1) _ (off_sets _ (hd i c') (hc i)) _ _ _
      | cons x l1 =>
        rw [List.cons_append] at h
        injection h with h1 h2
        exact ih _ _ _ _ _ l1 h2

example : (dynCallbacks (fun _ _ => true) (some 0) (some 9) (fun _ c => if c = 1 then [.mode 2 0] else []) 10
      (runS step (init false) [.addInst 0 1 true, .addInst 0 2 true, .addInst 0 3 true])).1 = [1, 3] := by decide

/-! ## Adding before -/

/-- C384 fails. The method of a callback puts a new callback before those of its object: it is itself run a second time, at once, and the new callback is not run. -/
theorem C384_prepend_fails (isa : Nat → Nat → Bool) (s : State) (o c d : Nat) (q : List Nat) (hs : s.pool o = some (c :: q)) (k : Option Nat) (ha : accepts isa s k c = true)
    (hd : d ∉ c :: q) (eff : Effect) (he : eff 0 c = [.addInst o d false]) (hq : ∀ i c', 0 < i → eff i c' = []) :
    (dynCallbacks isa (some o) k eff (q.length + 3) s).1 = c :: c :: q.filter (accepts isa s k) := by
  have hrun : ∀ (n i : Nat) (t : State) (cur : Option Nat × Nat), 0 < i → (dynLoop isa (some o) k eff n i t cur).1 = doLoop isa t (some o) k n cur := by
    intro n
    induction n with
    | zero => rintro i t ⟨_ | c', j⟩ hi <;> rfl
    | succ n ih =>
      rintro i t ⟨_ | c', j⟩ hi
      · rfl
      · simp only [dynLoop, hq i c' hi, runS_nil, doLoop]
        rw [ih (i + 1) t _ (by omega)]
  have hgq : getQ s (some o) = c :: q := by simp [getQ, hs]
  have hfirst : getFirst isa s (some o) k 0 = (some c, 0) := by rw [getFirst, hgq]; simp [scanUp, ha]
  rw [dynCallbacks, hfirst]
  simp only [dynLoop, he, runS_cons, runS_nil]
  have hi : instQ s o = c :: q := by simp [instQ, hs]
  have hgq2 : getQ (step s (.addInst o d false)).1 (some o) = d :: c :: q := by
    simp only [step, addInst, getQ, upd, if_true, hi, hd, if_false, Callback.insert, Bool.false_eq_true]
  have hacc : accepts isa (step s (.addInst o d false)).1 k = accepts isa s k := rfl
  rw [hrun _ _ _ _ (by omega), getNext, doLoop_spec isa _ _ _ _ _ _ (by rw [hgq2]; simp), hgq2, hacc]
  simp [ha]

example : (dynCallbacks (fun _ _ => true) (some 0) (some 9) (fun i _ => if i = 0 then [.addInst 0 3 false] else []) 10
      (runS step (init false) [.addInst 0 1 true, .addInst 0 2 true])).1 = [1, 1, 2] := by decide

/-- The state in which the callbacks `0, …, i - 1` have been put before callback `c`. -/
theorem forever_loop (isa : Nat → Nat → Bool) (o c : Nat) (k : Option Nat) (eff : Effect) (he : ∀ i, eff i c = [.addInst o (c + 1 + i) false])
    (n i : Nat) (s : State) (q : List Nat) (hs : s.pool o = some (q ++ [c])) (hl : q.length = i) (hq : ∀ d ∈ q, c < d ∧ d < c + 1 + i) (ha : accepts isa s k c = true) :
    (dynLoop isa (some o) k eff n i s (some c, i)).2.2 = false := by
  induction n generalizing i s q with
  | zero => rfl
  | succ n ih =>
    have hi : instQ s o = q ++ [c] := by cases q <;> simp [instQ, hs]
    have hnm : (c + 1 + i) ∉ q ++ [c] := by
      simp only [List.mem_append, List.mem_singleton, not_or]
      exact ⟨fun hm => by have := (hq _ hm).2; omega, by omega⟩
    have hp : (step s (.addInst o (c + 1 + i) false)).1.pool o = some (((c + 1 + i) :: q) ++ [c]) := by
      simp only [step, addInst, upd, if_true, hi, hnm, if_false, Callback.insert, Bool.false_eq_true, List.cons_append]
    have hnext : getNext isa (step s (.addInst o (c + 1 + i) false)).1 (some o) k i = (some c, i + 1) := by
      rw [getNext]
      simp only [getQ, hp]
      rw [show i + 1 = ((c + 1 + i) :: q).length by simp [hl], List.drop_left]
      have : accepts isa (step s (.addInst o (c + 1 + i) false)).1 k c = true := ha
      simp [scanUp, this]
    simp only [dynLoop, he i, runS_cons, runS_nil, hnext]
    refine ih (i + 1) _ ((c + 1 + i) :: q) hp (by simp [hl]) (fun d hd => ?_) ha
    rcases List.mem_cons.1 hd with rfl | hd
    · omega
    · have := hq d hd; omega

/-- C384 fails. A callback whose method puts a new callback before those of its object is run again and again: the run never ends, even though it is the only callback. -/
theorem C384_forever_fails (isa : Nat → Nat → Bool) (s : State) (o c : Nat) (hs : s.pool o = some [c]) (k : Option Nat) (ha : accepts isa s k c = true)
    (eff : Effect) (he : ∀ i, eff i c = [.addInst o (c + 1 + i) false]) (n : Nat) : (dynCallbacks isa (some o) k eff n s).2.2 = false := by
  have hfirst : getFirst isa s (some o) k 0 = (some c, 0) := by simp [getFirst, getQ, hs, scanUp, ha]
  rw [dynCallbacks, hfirst]
  exact forever_loop isa o c k eff he n 0 s [] hs rfl (by simp) ha

example : (runS step (init false) [.addInst 0 1 true]).pool 0 = some [1] ∧
    (dynCallbacks (fun _ _ => true) (some 0) (some 9) (fun i c => [.addInst 0 (c + 1 + i) false]) 4 (runS step (init false) [.addInst 0 1 true])).1 = [1, 1, 1, 1] := by decide

end Verif.CbRun
