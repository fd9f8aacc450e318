import Verif.Lemmas.PhaseRunPair
import Verif.Lemmas.PhaseRunShape
/-! # Two parallel task phases in the whole machine -/
namespace Verif.PhaseRun
open Pair

/-- The position of a task whose only sibling is `q`. -/
def cl (q : Nat) : Pc → Cl
  | .idle => .pre true
  | .waitPreds => .pre true
  | .syncing => .pre true
  | .started => .pre true
  | .crit => .pre true
  | .ownFirst w => .pre (!w)
  | .startW b => .startW b
  | .sib b n l w => if n = false ∧ l = [q] then .sib b w else .bad
  | .sibDrop b l w => if l = [q] then .sibDrop b w else .bad
  | .beforeRte => .rte
  | .ended => .post
  | .cleanup => .post
  | .sched _ => .post
  | .over => .post
  | .fexec => .bad
  | .oexec => .bad
  | .predWait _ _ => .bad
  | .ownDrop _ _ => .bad
  | .crashed => .bad

/-- Which of the two changed its state last. -/
def nwOf (log : List (Nat × St)) (p q : Nat) : Option Bool := (log.find? (fun e => e.1 == p || e.1 == q)).map (fun e => e.1 == p)

def view (s : State) (p q : Nat) : View :=
  ⟨cl q (s.pc p), cl p (s.pc q), s.st p, s.st q, s.ev p, s.ev q, s.obj p, s.obj q, nwOf s.log p q⟩

theorem nwOf_swap {p q : Nat} (h : p ≠ q) (l : List (Nat × St)) : nwOf l q p = (nwOf l p q).map not := by
  induction l with
  | nil => rfl
  | cons e l ih =>
    simp only [nwOf, List.find?_cons] at ih ⊢
    by_cases h1 : e.1 = p
    · have h2 : (e.1 == q) = false := by simp; rw [h1]; exact h
      simp [h1, h]
    · by_cases h2 : e.1 = q
      · simp [h2, Ne.symm h]
      · have e1 : (e.1 == p) = false := by simpa using h1
        have e2 : (e.1 == q) = false := by simpa using h2
        simp only [e1, e2, Bool.or_self]; exact ih

theorem view_swap (s : State) {p q : Nat} (h : p ≠ q) : view s q p = (view s p q).swap := by
  simp [view, View.swap, nwOf_swap h]

theorem cl_wakeSt (p : Nat) (c : Pc) : cl p (wakeSt p c) = wake (cl p c) := by
  cases c with
  | sib b n l w =>
    cases l with
    | nil => simp [cl, wake, wakeSt]
    | cons x l =>
      by_cases h : n = false ∧ x :: l = [p]
      · obtain ⟨rfl, h⟩ := h
        cases h
        simp [cl, wake, wakeSt]
      · simp only [cl, h, if_false, wake, wakeSt]
  | predWait l w => cases l <;> rfl
  | sibDrop b l w => simp only [cl, wakeSt]; split <;> rfl
  | _ => rfl

theorem cl_wakeDrop_other {p x : Nat} (h : x ≠ p) (c : Pc) : cl p (wakeDrop p x c) = wakeD (cl p c) := by
  have hx : (x == p) = false := by simpa using h
  cases c with
  | ownFirst w => simp [cl, wakeDrop, hx, wakeD]
  | sib b n l w => simp only [cl, wakeDrop]; split <;> rfl
  | sibDrop b l w =>
    cases l with
    | nil => simp [cl, wakeD, wakeDrop]
    | cons y l =>
      by_cases e : y :: l = [p]
      · cases e; simp [cl, wakeD, wakeDrop]
      · simp only [cl, e, if_false, wakeD, wakeDrop]
  | _ => rfl

theorem cl_wakeDrop_own {p q : Nat} (h : q ≠ p) (c : Pc) :
    cl q (wakeDrop p p c) = cl q c ∨ (cl q c = .pre true ∧ ∃ e, cl q (wakeDrop p p c) = .pre e) := by
  unfold wakeDrop
  split
  · rename_i w; cases w <;> simp [cl]
  · left; rfl
  · rename_i b y l w
    left
    by_cases e : y :: l = [q]
    · cases e
      have : (q == p) = false := by simpa using h
      simp [cl, this]
    · simp only [cl, e, if_false]
  · left; rfl

theorem cl_sib (q : Nat) (b w : Bool) : cl q (.sib b false [q] w) = .sib b w := by simp [cl]

theorem view_setSt_setPc (t : State) {p q : Nat} (h : p ≠ q) (x : St) (c : Pc) :
    view (setPc (setSt t p x) p c) p q = Pair.set (view t p q) x (cl q c) := by
  have h' : q ≠ p := Ne.symm h
  simp [view, Pair.set, setPc, setSt, upd, h', cl_wakeSt, nwOf]

theorem view_setPc (t : State) {p q : Nat} (h : p ≠ q) (c : Pc) : view (setPc t p c) p q = { view t p q with cp := cl q c } := by
  have h' : q ≠ p := Ne.symm h
  simp [view, setPc, upd, h']

theorem view_ev (t : State) {p q : Nat} (h : p ≠ q) : view { t with ev := upd t.ev q false } p q = { view t p q with eq := false } := by
  simp [view, upd, h]

/-- The two phases wait for each other. -/
structure Two (G : Graph) (p q : Nat) : Prop where
  ne : p ≠ q
  np : p < G.n
  nq : q < G.n
  kp : G.kind p = .task
  kq : G.kind q = .task
  sp : sibs G p = some [q]
  sq : sibs G q = some [p]
  /-- nobody else waits for them -/
  excl : ∀ r l, G.kind r ≠ .other → sibs G r = some l → (p ∈ l → r = q) ∧ (q ∈ l → r = p)

theorem Two.symm {G p q} (h : Two G p q) : Two G q p :=
  ⟨h.ne.symm, h.nq, h.np, h.kq, h.kp, h.sq, h.sp, fun r l hk hl => ⟨(h.excl r l hk hl).2, (h.excl r l hk hl).1⟩⟩

/-- A step of one of the two keeps the protocol. -/
theorem live_own {G : Graph} {s s' : State} {p q : Nat} (h2 : Two G p q) (hi : Inv G s) (hs : AllShp G s) (hr : s'.rte p < 20)
    (hv : VI (view s p q)) (h : adv G s p = some s') : VI (view s' p q) := by
  have hst := hi.pcs p
  have hp := hs p
  have ne := h2.ne
  have hb : cl q (s.pc p) ≠ .bad := by intro e; have := hv.1.a; simp only [view, e, clst] at this; cases this
  have b := hv.1.b
  unfold adv at h
  split at h
  · simp at h
  · rename_i hpc
    rw [hpc] at hst
    split at h
    · split at h
      · rename_i hd; rw [hd] at hst; simp [pcst] at hst
      · cases h
        rw [view_setSt_setPc _ ne]
        refine vi_preSet _ _ _ _ _ _ _ _ _ .syncing (by rw [hpc]; rfl) (by decide) ?_ hv
        show (s.st p).code < _
        revert hst; cases s.st p <;> simp [pcst, St.code]
    · simp at h
  · rename_i hpc
    cases h
    rw [view_setSt_setPc _ ne]
    refine vi_preSet _ _ _ _ _ _ _ _ _ .started (by rw [hpc]; rfl) (by decide) ?_ hv
    show (s.st p).code < _
    rw [show s.st p = .syncing from pcst_syncing (hpc ▸ hst)]; decide
  · rename_i hpc
    cases h
    rw [view_setSt_setPc _ ne, h2.kp]
    refine vi_preSet _ _ _ _ _ _ _ _ _ .executing (by rw [hpc]; rfl) (by decide) ?_ hv
    show (s.st p).code < _
    rw [show s.st p = .started from pcst_started (hpc ▸ hst)]; decide
  · rename_i hpc; rw [hpc] at hb; exact absurd rfl hb
  · rename_i hpc; rw [hpc] at hb; exact absurd rfl hb
  · rename_i hpc; rw [hpc] at hb; exact absurd rfl hb
  · rename_i hpc; rw [hpc] at hb; exact absurd rfl hb
  · rename_i hpc
    split at h
    · cases h
      rw [view_setPc _ ne]
      have : view s p q = { view s p q with cp := cl q (.ownFirst false) } := by simp [view, hpc, cl]
      rw [← this]; exact hv
    · rename_i ho
      rw [h2.sp] at h
      cases h
      rw [view_setPc _ ne]
      exact vi_enter _ _ _ _ _ _ _ _ _ true (by rw [hpc]; rfl) (pcst_crit (hpc ▸ hst)).1 (by show s.obj p = 0; omega) hv
  · rename_i w hpc
    split at h
    · rename_i hw
      subst hw
      rw [h2.sp] at h
      cases h
      rw [view_setPc _ ne]
      refine vi_enter _ _ _ _ _ _ _ _ _ false (by rw [hpc]; rfl) (pcst_ownFirst (hpc ▸ hst)).1 ?_ hv
      rcases b with b | b
      · simp [view, hpc, cl] at b
      · exact b
    · simp at h
  · rename_i sec hpc
    have ho : s.obj p = 0 := by
      rcases b with b | b
      · simp [view, hpc, cl] at b
      · exact b
    cases h
    rw [h2.sp]
    simp only [Option.getD_some, topW, ho, ne_eq, not_true_eq_false, if_false]
    rw [view_setPc _ ne]
    rw [cl_sib]
    exact vi_start _ _ _ _ _ _ _ _ _ sec (by rw [hpc]; rfl) hv
  · rename_i hpc; rw [hpc] at hb; exact absurd rfl hb
  · rename_i sec need w hpc
    rw [hpc] at hp
    exact absurd rfl hp.1
  · rename_i sec need x l w hpc
    have hcl : need = false ∧ x :: l = [q] := by
      apply Classical.byContradiction; intro e; apply hb; rw [hpc]; simp only [cl, e, if_false]
    obtain ⟨rfl, e⟩ := hcl
    cases e
    have ho : s.obj p = 0 := by
      rcases b with b | b
      · simp [view, hpc, cl] at b
      · exact b
    split at h
    · rename_i hw
      subst hw
      have hcp : cl q (s.pc p) = .sib sec true := by rw [hpc]; simp [cl]
      dsimp only at h
      split at h
      · rename_i h16
        have h16 : 16 ≤ (s.st q).code := h16
        split at h
        · rename_i hoq
          cases h
          have := vi_consumeDrop _ _ _ _ _ _ _ _ _ sec hcp h16 hoq hv
          rw [view_setSt_setPc _ ne, view_ev _ ne]
          simpa [cl, Pair.set, view] using this
        · rename_i hoq
          have hoq : s.obj q = 0 := by simpa using hoq
          rw [h2.sp] at h
          simp only [Option.getD_some, nextSib, Bool.false_eq_true, if_false] at h
          unfold exitW at h
          split at h
          · rename_i hsec; subst hsec
            cases h
            rw [view_setPc _ ne, view_ev _ ne]
            exact vi_exitFirst _ _ _ _ _ _ _ _ _ hcp h16 hoq hv
          · rename_i hsec
            have hsec : sec = true := by simpa using hsec
            subst hsec
            split at h
            · rename_i hx
              cases h
              rw [view_setPc _ ne, view_ev _ ne]
              exact vi_exitAgain _ _ _ _ _ _ _ _ _ hcp h16 hoq hx.1 hv
            · rename_i hx
              cases h
              have hx' : s.st p ≠ .executing := fun e => hx ⟨e, hr⟩
              rw [view_setSt_setPc _ ne, view_ev _ ne]
              exact vi_exitEnd _ _ _ _ _ (view s p q).eq _ _ _ hcp h16 hoq hx' hv
      · rename_i h16
        cases h
        rw [view_setPc _ ne, view_ev _ ne]
        rw [cl_sib]
        exact vi_consumeNo _ _ _ _ _ (view s p q).eq _ _ _ sec hcp (Nat.lt_of_not_le h16) hv
    · simp at h
  · rename_i sec l w hpc
    have hcl : l = [q] := by
      apply Classical.byContradiction; intro e; apply hb; rw [hpc]; simp only [cl, e, if_false]
    subst hcl
    have ho : s.obj p = 0 := by
      rcases b with b | b
      · simp [view, hpc, cl] at b
      · exact b
    split at h
    · rename_i hw
      subst hw
      rw [h2.sp] at h
      cases h
      simp only [Option.getD_some, List.tail_cons, nextSib, if_true, topW, ho, ne_eq, not_true_eq_false, if_false]
      rw [view_setPc _ ne]
      rw [cl_sib]
      exact vi_again _ _ _ _ _ _ _ _ _ sec (by rw [hpc]; simp [cl]) hv
    · simp at h
  · rename_i hpc
    cases h
    rw [view_setSt_setPc _ ne]
    exact vi_toRte _ _ _ _ _ _ _ _ _ (by rw [hpc]; rfl) hv
  · rename_i hpc
    cases h
    rw [view_setSt_setPc _ ne]
    exact vi_postSet _ _ _ _ _ _ _ _ _ .cleanup (by rw [hpc]; rfl) (by decide) hv
  · rename_i hpc
    cases h
    generalize ht : wakeDropped { s with obj := upd s.obj p 0 } p = t
    have hv1 := vi_droppedSame _ _ _ _ _ _ _ _ _ (vi_wakeD _ _ _ _ _ _ _ _ _ hv)
    have hvt : view t p q = ⟨cl q (s.pc p), wakeD (cl p (s.pc q)), s.st p, s.st q, s.ev p, s.ev q, 0, s.obj q, nwOf s.log p q⟩ := by
      subst ht
      simp only [view, wakeDropped, cl_wakeDrop_other ne.symm]
      simp [hpc, wakeDrop, upd, ne.symm]
    rw [← hvt] at hv1
    have hpt : cl q (t.pc p) = .post := by
      have := congrArg View.cp hvt; simp only [view] at this; rw [this, hpc]; rfl
    have fin := vi_postSet _ _ _ _ _ _ _ _ _ .done hpt (by decide) hv1
    unfold finish
    dsimp only
    split
    · have e := view_setSt_setPc t ne .done .over
      have : view (setPc { setSt t p .done with allDone := true } p .over) p q = view (setPc (setSt t p .done) p .over) p q := rfl
      rw [this, e]; exact fin
    · rw [view_setSt_setPc _ ne]; exact fin
  · rename_i hpc
    cases h
    rw [view_setPc _ ne]
    have : view s p q = { view s p q with cp := cl q .over } := by simp [view, hpc, cl]
    rw [← this]; exact hv
  · rename_i x l hpc
    cases h
    have hdone : s.st p = .done := pcst_sched (hpc ▸ hst)
    rw [view_setPc _ ne]
    have hpost : cl q (s.pc p) = .post := by rw [hpc]; rfl
    split
    · rename_i hx
      have hxp : x ≠ p := by rintro rfl; rw [hdone] at hx; simp [St.code] at hx
      have hxq : x ≠ q := by
        rintro rfl
        rcases hv.1.h hpost with e | e
        · have := hv.2.a
          simp only [View.swap, e, clst] at this
          have : 64 ≤ (s.st x).code := of_decide_eq_true this
          have : (s.st x).code < 2 := hx
          omega
        · have : s.st x = .readyToEnd := e.1
          rw [this] at hx; simp [St.code] at hx
      have hqx : wakeSt x (s.pc q) = s.pc q := by
        have hq := hs q
        generalize s.pc q = c at hq
        cases c with
        | sib b n l w =>
          obtain ⟨h1, pre, h3⟩ := hq
          rw [h2.sq] at h3
          cases l with
          | nil => rfl
          | cons y l =>
            have : y = p := by
              have : y ∈ [p] := by simp only [Option.some.injEq] at h3; rw [h3]; simp
              simpa using this
            have : (y == x) = false := by rw [this]; simpa using hxp.symm
            simp [wakeSt, this]
        | predWait l w =>
          obtain ⟨⟨pre, h3⟩, _⟩ := hq
          rw [h2.sq] at h3
          cases l with
          | nil => rfl
          | cons y l =>
            have : y = p := by
              have : y ∈ [p] := by simp only [Option.some.injEq] at h3; rw [h3]; simp
              simpa using this
            have : (y == x) = false := by rw [this]; simpa using hxp.symm
            simp [wakeSt, this]
        | _ => rfl
      have : ({ view { setSt s x .scheduled with hopper := s.hopper ++ [x] } p q with cp := cl q (.sched l) } : View) = view s p q := by
        have e1 : (x == p) = false := by simpa using hxp
        have e2 : (x == q) = false := by simpa using hxq
        simp [view, setSt, upd, hxp.symm, hxq.symm, hqx, hpc, cl, nwOf, e1, e2]
      exact this ▸ hv
    · have : view s p q = { view s p q with cp := cl q (.sched l) } := by simp [view, hpc, cl]
      rw [← this]; exact hv
  · simp at h
  · simp at h

/-- A task whose siblings do not include `x` is not woken by a change of `x`. -/
theorem wakeSt_none {G : Graph} {obj : Nat → Nat} {p q x : Nat} {c : Pc} (hs : sibs G p = some [q]) (hx : q ≠ x) (h : Shp G obj p c) :
    wakeSt x c = c := by
  cases c with
  | sib b n l w =>
    obtain ⟨h1, pre, h3⟩ := h
    rw [hs] at h3
    cases l with
    | nil => rfl
    | cons y l =>
      have : y = q := by
        have : y ∈ [q] := by simp only [Option.some.injEq] at h3; rw [h3]; simp
        simpa using this
      have : (y == x) = false := by rw [this]; simpa using hx
      simp [wakeSt, this]
  | predWait l w =>
    obtain ⟨⟨pre, h3⟩, _⟩ := h
    rw [hs] at h3
    cases l with
    | nil => rfl
    | cons y l =>
      have : y = q := by
        have : y ∈ [q] := by simp only [Option.some.injEq] at h3; rw [h3]; simp
        simpa using this
      have : (y == x) = false := by rw [this]; simpa using hx
      simp [wakeSt, this]
  | _ => rfl

theorem wakeDrop_none {G : Graph} {obj : Nat → Nat} {p q x : Nat} {c : Pc} (hs : sibs G p = some [q]) (hx : q ≠ x) (hp : p ≠ x)
    (h : Shp G obj p c) : wakeDrop x p c = c := by
  have hp' : (p == x) = false := by simpa using hp
  cases c with
  | ownFirst w => simp [wakeDrop, hp']
  | ownDrop b w => simp [wakeDrop, hp']
  | sibDrop b l w =>
    obtain ⟨_, pre, h3⟩ := h
    rw [hs] at h3
    cases l with
    | nil => rfl
    | cons y l =>
      have : y = q := by
        have : y ∈ [q] := by simp only [Option.some.injEq] at h3; rw [h3]; simp
        simpa using this
      have : (y == x) = false := by rw [this]; simpa using hx
      simp [wakeDrop, this]
  | _ => rfl

/-- Nothing the two phases see has changed. -/
structure Keep (p q : Nat) (s t : State) : Prop where
  pp : t.pc p = s.pc p
  pq : t.pc q = s.pc q
  sp : t.st p = s.st p
  sq : t.st q = s.st q
  ep : t.ev p = s.ev p
  eq : t.ev q = s.ev q
  op : t.obj p = s.obj p
  oq : t.obj q = s.obj q
  nw : nwOf t.log p q = nwOf s.log p q

theorem Keep.refl (p q : Nat) (s : State) : Keep p q s s := ⟨rfl, rfl, rfl, rfl, rfl, rfl, rfl, rfl, rfl⟩

theorem Keep.view {p q s t} (h : Keep p q s t) : view t p q = view s p q := by
  simp [PhaseRun.view, h.pp, h.pq, h.sp, h.sq, h.ep, h.eq, h.op, h.oq, h.nw]

section
variable {G : Graph} {s t : State} {p q r : Nat}

theorem keep_setPc (hp : p ≠ r) (hq : q ≠ r) (h : Keep p q s t) (c : Pc) : Keep p q s (setPc t r c) :=
  ⟨by simp [setPc, upd, hp, h.pp], by simp [setPc, upd, hq, h.pq], h.sp, h.sq, h.ep, h.eq, h.op, h.oq, h.nw⟩

theorem keep_setSt (h2 : Two G p q) (hs : AllShp G s) (hp : p ≠ r) (hq : q ≠ r) (h : Keep p q s t) (x : St) : Keep p q s (setSt t r x) := by
  refine ⟨?_, ?_, by simp [setSt, upd, hp, h.sp], by simp [setSt, upd, hq, h.sq], by simp [setSt, upd, hp, h.ep],
    by simp [setSt, upd, hq, h.eq], h.op, h.oq, ?_⟩
  · show wakeSt r (t.pc p) = _
    rw [h.pp]; exact wakeSt_none h2.sp hq (hs p)
  · show wakeSt r (t.pc q) = _
    rw [h.pq]; exact wakeSt_none h2.sq hp (hs q)
  · have e1 : (r == p) = false := by simpa using hp.symm
    have e2 : (r == q) = false := by simpa using hq.symm
    rw [← h.nw]
    simp [setSt, nwOf, e1, e2]

theorem keep_ev {x : Nat} (hp : p ≠ x) (hq : q ≠ x) (h : Keep p q s t) : Keep p q s { t with ev := upd t.ev x false } :=
  ⟨h.pp, h.pq, h.sp, h.sq, by simp [upd, hp, h.ep], by simp [upd, hq, h.eq], h.op, h.oq, h.nw⟩

theorem keep_dropped (h2 : Two G p q) (hs : AllShp G s) (hp : p ≠ r) (hq : q ≠ r) (n : Nat) (h : Keep p q s t) :
    Keep p q s (wakeDropped { t with obj := upd t.obj r n } r) := by
  refine ⟨?_, ?_, h.sp, h.sq, h.ep, h.eq, by simp [wakeDropped, upd, hp, h.op], by simp [wakeDropped, upd, hq, h.oq], h.nw⟩
  · show wakeDrop r p (t.pc p) = _
    rw [h.pp]; exact wakeDrop_none h2.sp hq hp (hs p)
  · show wakeDrop r q (t.pc q) = _
    rw [h.pq]; exact wakeDrop_none h2.sq hp hq (hs q)

theorem keep_exitW (h2 : Two G p q) (hs : AllShp G s) (hp : p ≠ r) (hq : q ≠ r) (h : Keep p q s t) (b : Bool) : Keep p q s (exitW t r b) := by
  unfold exitW
  split
  · exact keep_setPc hp hq h _
  · split
    · exact keep_setPc hp hq h _
    · exact keep_setPc hp hq (keep_setSt h2 hs hp hq h _) _

theorem keep_topW (h2 : Two G p q) (hs : AllShp G s) (hp : p ≠ r) (hq : q ≠ r) (h : Keep p q s t) (b : Bool) (l : List Nat) :
    Keep p q s (topW t r b l) := by
  unfold topW
  split
  · exact keep_setPc hp hq (keep_setSt h2 hs hp hq h _) _
  · split
    · exact keep_exitW h2 hs hp hq h b
    · exact keep_setPc hp hq h _

theorem keep_nextSib (h2 : Two G p q) (hs : AllShp G s) (hp : p ≠ r) (hq : q ≠ r) (h : Keep p q s t) (b n : Bool) (a l : List Nat) :
    Keep p q s (nextSib t r b n a l) := by
  unfold nextSib
  split
  · exact keep_setPc hp hq h _
  · split
    · exact keep_topW h2 hs hp hq h b a
    · exact keep_exitW h2 hs hp hq h b

theorem keep_nextPred (hp : p ≠ r) (hq : q ≠ r) (h : Keep p q s t) (l : List Nat) : Keep p q s (nextPred t r l) := by
  unfold nextPred
  split <;> exact keep_setPc hp hq h _

theorem keep_finish (h2 : Two G p q) (hs : AllShp G s) (hp : p ≠ r) (hq : q ≠ r) (h : Keep p q s t) : Keep p q s (finish G t r) := by
  have k := keep_setSt h2 hs hp hq h .done
  unfold finish
  dsimp only
  split
  · exact keep_setPc (t := { setSt t r .done with allDone := true }) hp hq ⟨k.pp, k.pq, k.sp, k.sq, k.ep, k.eq, k.op, k.oq, k.nw⟩ _
  · exact keep_setPc hp hq k _

/-- A phase that is being scheduled. -/
theorem live_sched (h2 : Two G p q) (hi : Inv G s) (hd : s.st p = .dormant) (hv : VI (view s p q)) (l : List Nat) :
    VI (view { setSt s p .scheduled with hopper := l } p q) := by
  have hpc : s.pc p = .idle ∨ s.pc p = .waitPreds := by
    have := hi.pcs p
    rw [hd] at this
    revert this
    cases s.pc p <;> simp [pcst]
  have hc : cl q (s.pc p) = .pre true := by rcases hpc with e | e <;> rw [e] <;> rfl
  have e : view { setSt s p .scheduled with hopper := l } p q = Pair.set (view s p q) .scheduled (cl q (s.pc p)) := by
    have hw : wakeSt p (s.pc p) = s.pc p := by rcases hpc with e | e <;> rw [e] <;> rfl
    simp [view, Pair.set, setSt, upd, h2.ne.symm, cl_wakeSt, nwOf, hw]
  rw [e, hc]
  exact vi_preSet _ _ _ _ _ _ _ _ _ .scheduled hc (by decide) (by show (s.st p).code < _; rw [hd]; decide) hv

theorem live_other {s' : State} (h2 : Two G p q) (hi : Inv G s) (hs : AllShp G s) (hp : p ≠ r) (hq : q ≠ r)
    (hv : VI (view s p q)) (h : adv G s r = some s') : VI (view s' p q) := by
  have k : ∀ {t : State}, Keep p q s t → VI (view t p q) := fun h => h.view ▸ hv
  have k0 := Keep.refl p q s
  have hr := hs r
  unfold adv at h
  split at h
  · simp at h
  · split at h
    · split at h
      · cases h; exact k (keep_setPc hp hq k0 _)
      · cases h; exact k (keep_setPc hp hq (keep_setSt h2 hs hp hq k0 _) _)
    · simp at h
  · cases h
    exact k (keep_setPc hp hq (keep_setSt (t := { s with rte := upd s.rte r 0 }) h2 hs hp hq ⟨rfl, rfl, rfl, rfl, rfl, rfl, rfl, rfl, rfl⟩ _) _)
  · cases h; exact k (keep_setPc hp hq (keep_setSt h2 hs hp hq k0 _) _)
  · cases h; exact k (keep_finish h2 hs hp hq k0)
  · split at h
    · cases h; exact k (keep_setPc hp hq k0 _)
    · cases h; exact k (keep_nextPred hp hq k0 _)
  · cases h; exact k (keep_setPc hp hq (keep_setSt h2 hs hp hq k0 _) _)
  · rename_i x l w hpc
    rw [hpc] at hr
    obtain ⟨⟨pre, hl⟩, _⟩ := hr
    have ex := h2.excl r _ (by have hk : G.kind r = .func := (pcst_predWait (hpc ▸ hi.pcs r)).2; rw [hk]; nofun) hl
    have hpx : p ≠ x := fun e => hq (ex.1 (by simp [e])).symm
    have hqx : q ≠ x := fun e => hp (ex.2 (by simp [e])).symm
    split at h
    · dsimp only at h
      split at h
      · cases h; exact k (keep_nextPred hp hq (keep_ev hpx hqx k0) _)
      · cases h; exact k (keep_setPc hp hq (keep_ev hpx hqx k0) _)
    · simp at h
  · split at h
    · cases h; exact k (keep_setPc hp hq k0 _)
    · split at h <;> cases h <;> exact k (keep_setPc hp hq k0 _)
  · split at h
    · split at h <;> cases h <;> exact k (keep_setPc hp hq k0 _)
    · simp at h
  · cases h; exact k (keep_topW h2 hs hp hq k0 _ _)
  · split at h
    · cases h; exact k (keep_nextSib h2 hs hp hq k0 _ _ _ _)
    · simp at h
  · cases h; exact k (keep_nextSib h2 hs hp hq k0 _ _ _ _)
  · rename_i sec need x l w hpc
    rw [hpc] at hr
    obtain ⟨_, pre, hl⟩ := hr
    have hW : InW (s.pc r) sec := .inr (.inr (.inl ⟨_, _, _, hpc⟩))
    have ex := h2.excl r _ (by rw [(inW_st hW (hi.pcs r)).1]; nofun) hl
    have hpx : p ≠ x := fun e => hq (ex.1 (by simp [e])).symm
    have hqx : q ≠ x := fun e => hp (ex.2 (by simp [e])).symm
    split at h
    · dsimp only at h
      split at h
      · split at h
        · cases h; exact k (keep_setPc hp hq (keep_setSt h2 hs hp hq (keep_ev hpx hqx k0) _) _)
        · cases h; exact k (keep_nextSib h2 hs hp hq (keep_ev hpx hqx k0) _ _ _ _)
      · cases h; exact k (keep_setPc hp hq (keep_ev hpx hqx k0) _)
    · simp at h
  · split at h
    · cases h; exact k (keep_nextSib h2 hs hp hq k0 _ _ _ _)
    · simp at h
  · cases h
    exact k (keep_setPc hp hq (keep_setSt (t := { s with rte := upd s.rte r (s.rte r + 1) }) h2 hs hp hq
      ⟨rfl, rfl, rfl, rfl, rfl, rfl, rfl, rfl, rfl⟩ _) _)
  · cases h; exact k (keep_setPc hp hq (keep_setSt h2 hs hp hq k0 _) _)
  · cases h; exact k (keep_finish h2 hs hp hq (keep_dropped h2 hs hp hq 0 k0))
  · cases h; exact k (keep_setPc hp hq k0 _)
  · rename_i x l hpc
    cases h
    split
    · rename_i hx
      have hd : s.st x = .dormant := by
        have hx : (s.st x).code < 2 := hx
        revert hx; cases s.st x <;> simp [St.code]
      by_cases e1 : x = p
      · subst e1
        have := live_sched h2 hi hd hv (s.hopper ++ [x])
        have kk := keep_setPc (r := r) hp hq (Keep.refl x q { setSt s x .scheduled with hopper := s.hopper ++ [x] }) (.sched l)
        exact kk.view ▸ this
      · by_cases e2 : x = q
        · subst e2
          have := live_sched h2.symm hi hd (view_swap s h2.ne ▸ hv.symm) (s.hopper ++ [x])
          have kk := keep_setPc (r := r) hq hp (Keep.refl x p { setSt s x .scheduled with hopper := s.hopper ++ [x] }) (.sched l)
          have := kk.view ▸ this
          rw [view_swap _ h2.ne.symm]; exact this.symm
        · have k1 := keep_setSt h2 hs (Ne.symm e1) (Ne.symm e2) k0 .scheduled
          exact k (keep_setPc (t := { setSt s x .scheduled with hopper := s.hopper ++ [x] }) hp hq
            ⟨k1.pp, k1.pq, k1.sp, k1.sq, k1.ep, k1.eq, k1.op, k1.oq, k1.nw⟩ _)
    · exact k (keep_setPc hp hq k0 _)
  · simp at h
  · simp at h

/-- Dropping an objection to one of the two. -/
theorem live_drop_own (h2 : Two G p q) (hv : VI (view s p q)) : VI (view (step G s (.drop p)) p q) := by
  have ne := h2.ne
  unfold step
  dsimp only
  split
  · exact hv
  · rename_i h0
    have hc : cl q (s.pc p) = .pre true := by
      rcases hv.1.b with b | b
      · exact b
      · exact absurd b h0
    split
    · rename_i h1
      have e : view (wakeDropped { s with obj := upd s.obj p (s.obj p - 1) } p) p q =
          ⟨cl q (wakeDrop p p (s.pc p)), wakeD (cl p (s.pc q)), s.st p, s.st q, s.ev p, s.ev q, 0, s.obj q, nwOf s.log p q⟩ := by
        simp only [view, wakeDropped, cl_wakeDrop_other ne.symm]
        simp [upd, ne.symm, h1]
      rw [e]
      rcases cl_wakeDrop_own ne.symm (s.pc p) with e | ⟨_, e', he⟩
      · rw [e]
        exact vi_droppedSame _ _ _ _ _ _ (s.obj p) _ _ (vi_wakeD _ _ _ _ _ _ _ _ _ hv)
      · rw [he]
        exact vi_dropped _ _ _ _ _ _ (s.obj p) _ _ e' hc (vi_wakeD _ _ _ _ _ _ _ _ _ hv)
    · have e : view { s with obj := upd s.obj p (s.obj p - 1) } p q = { view s p q with op := s.obj p - 1 } := by
        simp [view, upd, ne.symm]
      rw [e]
      exact vi_objs _ _ _ _ _ _ (s.obj p) _ _ _ hc hv

theorem live_raise_own (h2 : Two G p q) (he : Early s p) (hv : VI (view s p q)) : VI (view (step G s (.raise p)) p q) := by
  have ne := h2.ne
  have hc : cl q (s.pc p) = .pre true := by
    rcases he with e | e | e | e | e | e <;> rw [e] <;> rfl
  unfold step
  dsimp only
  split
  · have e : view { s with obj := upd s.obj p (s.obj p + 1) } p q = { view s p q with op := s.obj p + 1 } := by
      simp [view, upd, ne.symm]
    rw [e]
    exact vi_objs _ _ _ _ _ _ (s.obj p) _ _ _ hc hv
  · exact hv

theorem live_step (h2 : Two G p q) (hi : Inv G s) (hs : AllShp G s) (o : Op) (hr : ∀ x, x < G.n → (step G s o).rte x < 20)
    (hc : ∀ x, o = .raise x → sibs G x = some [] ∨ Early s x) (hv : VI (view s p q)) : VI (view (step G s o) p q) := by
  have hv' : VI (view s q p) := view_swap s h2.ne ▸ hv.symm
  have sw : ∀ t : State, VI (view t q p) → VI (view t p q) := fun t h => view_swap t h2.ne.symm ▸ h.symm
  have k : ∀ {t : State}, Keep p q s t → VI (view t p q) := fun h => h.view ▸ hv
  have k0 := Keep.refl p q s
  cases o with
  | adv r =>
    cases h : adv G s r with
    | none => simpa [step, h] using hv
    | some t =>
      have hr' : ∀ x, x < G.n → t.rte x < 20 := by simpa [step, h] using hr
      have e : step G s (.adv r) = t := by simp [step, h]
      rw [e]
      by_cases e1 : p = r
      · subst e1; exact live_own h2 hi hs (hr' _ h2.np) hv h
      · by_cases e2 : q = r
        · subst e2; exact sw _ (live_own h2.symm hi hs (hr' _ h2.nq) hv' h)
        · exact live_other h2 hi hs e1 e2 hv h
  | spawn =>
    show VI (view ((spawn s).getD s) p q)
    unfold spawn
    cases hh : s.hopper with
    | nil => exact hv
    | cons x t =>
      dsimp only
      have hx := (hi.hop x (by simp [hh])).1
      rw [if_pos hx]
      simp only [Option.getD_some]
      have e : view { setPc s x .waitPreds with hopper := t } p q = view s p q := by
        simp only [view, setPc]
        by_cases e1 : p = x
        · subst e1; simp [upd, h2.ne.symm, hx, cl]
        · by_cases e2 : q = x
          · subst e2; simp [upd, h2.ne, hx, cl]
          · simp [upd, e1, e2]
      rw [e]; exact hv
  | raise x =>
    by_cases e1 : p = x
    · subst e1
      rcases hc p rfl with e | e
      · rw [h2.sp] at e; simp at e
      · exact live_raise_own h2 e hv
    · by_cases e2 : q = x
      · subst e2
        rcases hc q rfl with e | e
        · rw [h2.sq] at e; simp at e
        · exact sw _ (live_raise_own h2.symm e hv')
      · unfold step
        dsimp only
        split
        · exact k ⟨rfl, rfl, rfl, rfl, rfl, rfl, by simp [upd, e1], by simp [upd, e2], rfl⟩
        · exact hv
  | drop x =>
    by_cases e1 : p = x
    · subst e1; exact live_drop_own h2 hv
    · by_cases e2 : q = x
      · subst e2; exact sw _ (live_drop_own h2.symm hv')
      · unfold step
        dsimp only
        split
        · exact hv
        · split
          · exact k (keep_dropped h2 hs e1 e2 _ k0)
          · exact k ⟨rfl, rfl, rfl, rfl, rfl, rfl, by simp [upd, e1], by simp [upd, e2], rfl⟩

theorem live_run (hG : Wf G) (h2 : Two G p q) : ∀ (ops : List Op) (s : State), Inv G s → AllShp G s → Calm G s ops → VI (view s p q) →
    VI (view (run G s ops) p q)
  | [], _, _, _, _, hv => hv
  | o :: ops, s, hi, hs, hc, hv =>
    live_run hG h2 ops (step G s o) (inv_step hG hi o) (shp_step hs o) hc.2.2 (live_step h2 hi hs o hc.2.1 hc.1 hv)

theorem vi_init (p q : Nat) : VI (view {} p q) := by
  constructor <;>
    (refine ⟨?_, ?_, ?_, ?_, ?_, ?_, ?_, ?_, ?_⟩ <;> simp [view, View.swap, cl, clst, St.code, late, nwOf])

/-! ## Nothing gets stuck -/

theorem Paired.two {rk : Nat → Nat} (hP : Paired G rk) (hp : p < G.n) (hk : G.kind p = .task) (hs : sibs G p ≠ some []) :
    ∃ q, Two G p q ∧ q < G.n ∧ ∀ x ∈ G.preds q, rk x < rk p := by
  rcases hP.task p hp hk with h | ⟨q, hne, hq, hkq, hsp, hsq, hr⟩
  · exact absurd h hs
  · refine ⟨q, ⟨hne.symm, hp, hq, hk, hkq, hsp, hsq, ?_⟩, hq, hr⟩
    -- a phase that waits for another one is waited for by it
    have key : ∀ a b r l, sibs G a = some [b] → G.kind r ≠ .other → sibs G r = some l → a ∈ l → r = b := by
      intro a b r l hab hkr hl hal
      have hrn : r < G.n := by
        apply Classical.byContradiction; intro h; exact hkr (hP.out r (by omega))
      cases hkr' : G.kind r with
      | other => exact absurd hkr' hkr
      | func => rw [hP.func r hrn hkr'] at hl; cases hl; simp at hal
      | task =>
        rcases hP.task r hrn hkr' with h | ⟨x, _, _, _, e1, e2, _⟩
        · rw [h] at hl; cases hl; simp at hal
        · rw [hl] at e1
          cases e1
          simp at hal; subst hal
          rw [hab] at e2
          cases e2; rfl
    exact fun r l hkr hl => ⟨key p q r l hsp hkr hl, key q p r l hsq hkr hl⟩

/-- Where a task is that cannot go on although its predecessors are done and nobody objects. -/
theorem blocked (hG : Wf G) {rk : Nat → Nat} (hP : Paired G rk) (hi : Inv G s) (hs : AllShp G s) (hst : Stuck G s) (ho : ¬ Objected s) (hp : p < G.n)
    (hpre : ∀ x ∈ G.preds p, s.st x = .done) :
    s.pc p = .over ∨ (∃ b n l, s.pc p = .sib b n l false ∧ G.kind p = .task ∧ sibs G p ≠ some []) := by
  have no : ∀ x, s.obj x = 0 := fun x => Classical.byContradiction fun h => ho ⟨x, h⟩
  have hadv := hst.1 p
  have hsp := hs p
  have hpcs := hi.pcs p
  have hsib : G.kind p ≠ .other → sibs G p ≠ none := by
    intro hk
    cases hk' : G.kind p with
    | other => exact absurd hk' hk
    | func => rw [hP.func p hp hk']; nofun
    | task => rcases hP.task p hp hk' with h | ⟨q, _, _, _, h, _⟩ <;> rw [h] <;> nofun
  have hidle : s.pc p ≠ .idle := by
    intro e
    have hh : s.hopper = [] := by
      have := hst.2
      unfold spawn at this
      revert this
      cases s.hopper with
      | nil => simp
      | cons a l => dsimp only; split <;> simp
    rcases hi.idle p e with h | ⟨h0, hd⟩
    · rw [hh] at h; simp at h
    · have := hP.conn p hp h0
      cases hl : G.preds p with
      | nil => exact this hl
      | cons x l =>
        have hx : s.st x = .done := hpre x (by simp [hl])
        have hxp := hi.pcs x
        rw [hx] at hxp
        have hxa := hst.1 x
        have : s.pc x = .over := by
          unfold adv at hxa
          revert hxp hxa
          cases s.pc x with
          | sched l => cases l <;> simp
          | over => simp
          | _ => simp [pcst]
        exact hi.over x this p ((hG.agree p x).1 (by simp [hl])) hd
  unfold adv at hadv
  split at hadv
  · rename_i h; exact absurd h hidle
  · have : (G.preds p).all s.doneEv = true := List.all_eq_true.2 fun x hx => (hi.doneEv x).2 (hpre x hx)
    rw [if_pos this] at hadv; split at hadv <;> simp at hadv
  · simp at hadv
  · simp at hadv
  · simp at hadv
  · split at hadv <;> simp at hadv
  · simp at hadv
  · rename_i q l w hpc
    have hk := (pcst_predWait (hpc ▸ hpcs)).2
    rw [hpc] at hsp
    obtain ⟨⟨pre, hl⟩, _⟩ := hsp
    rw [hP.func p hp hk] at hl
    simp at hl
  · split at hadv
    · simp at hadv
    · split at hadv <;> simp at hadv
  · rename_i w hpc
    rw [hpc] at hsp
    rcases hsp with rfl | h
    · simp only [if_true] at hadv; split at hadv <;> simp at hadv
    · exact absurd (no p) h
  · simp at hadv
  · rename_i sec w hpc
    rw [hpc] at hsp
    rcases hsp.2 with rfl | h
    · simp at hadv
    · exact absurd (no p) h
  · simp at hadv
  · rename_i sec n q l w hpc
    have hW : InW (s.pc p) sec := .inr (.inr (.inl ⟨_, _, _, hpc⟩))
    rw [hpc] at hsp
    obtain ⟨_, pre, hl⟩ := hsp
    cases w with
    | false => exact .inr ⟨_, _, _, hpc, (inW_st hW hpcs).1, by rw [hl]; simp⟩
    | true =>
      simp only [if_true] at hadv
      split at hadv
      · split at hadv <;> simp at hadv
      · simp at hadv
  · rename_i sec l w hpc
    rw [hpc] at hsp
    obtain ⟨⟨q, t, _, rfl | h⟩, _⟩ := hsp
    · simp at hadv
    · exact absurd (no q) h
  · simp at hadv
  · simp at hadv
  · simp at hadv
  · simp at hadv
  · simp at hadv
  · exact .inl ‹_›
  · rename_i hpc
    rw [hpc] at hsp hpcs
    refine absurd hsp (hsib ?_)
    intro e
    rw [e] at hpcs
    revert hpcs
    cases s.st p <;> simp [pcst]

/-- In a stuck state without objections every phase is done. -/
theorem stuck_done (hG : Wf G) {rk : Nat → Nat} (hP : Paired G rk) (hi : Inv G s) (hs : AllShp G s)
    (hv : ∀ p q, Two G p q → VI (view s p q)) (hst : Stuck G s) (ho : ¬ Objected s) :
    ∀ k p, p < G.n → rk p < k → s.st p = .done := by
  intro k
  induction k with
  | zero => intro p _ h; omega
  | succ k ih =>
    intro p hp hk
    have hpre : ∀ x ∈ G.preds p, s.st x = .done := fun x hx =>
      ih x (hP.inside p hp x hx) (by have := hP.rank p hp x hx; omega)
    rcases blocked hG hP hi hs hst ho hp hpre with h | ⟨b, n, l, hpc, hkp, hsib⟩
    · exact pcst_over (h ▸ hi.pcs p)
    · exfalso
      obtain ⟨q, h2, hq, hrq⟩ := hP.two hp hkp hsib
      have hvp := hv p q h2
      have hqpre : ∀ x ∈ G.preds q, s.st x = .done := fun x hx =>
        ih x (hP.inside q hq x hx) (by have := hrq x hx; omega)
      have cp : cl q (s.pc p) = .sib b false := by
        have hb : cl q (s.pc p) ≠ .bad := by intro e; have := hvp.1.a; simp only [view, e, clst] at this; cases this
        rw [hpc] at hb ⊢
        simp only [cl] at hb ⊢
        split at hb
        · rename_i h; rw [if_pos h]
        · exact absurd rfl hb
      have cst : ∀ {a : Nat} {b w : Bool} {c : Cl} {x : St}, c = .sib b w → clst c x = true → 16 ≤ x.code := by
        intro a b w c x e h
        rw [e] at h
        cases b <;> cases x <;> simp_all [clst, St.code]
      have p16 : 16 ≤ (s.st p).code := cst (a := 0) cp hvp.1.a
      rcases blocked hG hP hi hs hst ho hq hqpre with h | ⟨b', n', l', hqc, _, _⟩
      · -- the other one is over: then this one has been woken
        have cq : cl p (s.pc q) = .post := by rw [h]; rfl
        rcases hvp.2.h cq with e | ⟨_, e | e⟩
        · have : cl q (s.pc p) = .post := e; rw [cp] at this; cases this
        · have : cl q (s.pc p) = .startW true := e.1; rw [cp] at this; cases this
        · have : cl q (s.pc p) = .sib true true := e; rw [cp] at this; cases this
      · -- both wait: each changed its state after the other
        have cq : cl p (s.pc q) = .sib b' false := by
          have hb : cl p (s.pc q) ≠ .bad := by intro e; have := hvp.2.a; simp only [view, View.swap, e, clst] at this; cases this
          rw [hqc] at hb ⊢
          simp only [cl] at hb ⊢
          split at hb
          · rename_i h; rw [if_pos h]
          · exact absurd rfl hb
        have q16 : 16 ≤ (s.st q).code := cst (a := 0) cq hvp.2.a
        have e1 : nwOf s.log p q = some true := by
          rcases hvp.1.e b cp with h | h
          · have : (s.st q).code < 16 := h; omega
          · exact h
        have e2 : (nwOf s.log p q).map not = some true := by
          rcases hvp.2.e b' cq with h | h
          · have : (s.st p).code < 16 := h; omega
          · exact h
        rw [e1] at e2; simp at e2

/-- Phases outside the schedule never run. -/
def Outside (G : Graph) (s : State) : Prop := ∀ p, G.n ≤ p → s.pc p = .idle ∧ p ∉ s.hopper

theorem outside_adv {s' : State} (hsu : ∀ p, ∀ q ∈ G.succs p, q < G.n) (hi : Inv G s) (ho : Outside G s) (h : adv G s r = some s') :
    Outside G s' := by
  have hr : s.pc r ≠ .idle := by intro e; unfold adv at h; rw [e] at h; simp at h
  have hrn : r < G.n := Classical.byContradiction fun e => hr (ho r (by omega)).1
  intro p hp
  have hpr : p ≠ r := by rintro rfl; omega
  obtain ⟨h1, h3⟩ := ho p hp
  cases adv_eff G (hi.pcs r) h with
  | quiet _ e1 e2 e3 e4 e5 e6 e7 => rw [e7 p hpr, e3]; exact ⟨h1, h3⟩
  | set _ x e1 e2 e3 e4 e5 e6 e6' e7 => rw [e3]; exact ⟨(e7 p hpr).2.2.1.2 h1, h3⟩
  | sched q l _ hpc hs' =>
    have hq : q < G.n := hsu r q ((hi.sched r (q :: l) hpc).1 q (by simp))
    subst hs'
    split
    · refine ⟨?_, ?_⟩
      · simp only [setPc, upd_other _ _ hpr, setSt]; exact (same_wakeSt q _).2.2.1.2 h1
      · simp only [setPc, List.mem_append, List.mem_singleton]
        rintro (h | h)
        · exact h3 h
        · omega
    · exact ⟨by simp [setPc, upd_other _ _ hpr, h1], h3⟩

theorem outside_step (hsu : ∀ p, ∀ q ∈ G.succs p, q < G.n) (hi : Inv G s) (ho : Outside G s) (o : Op) : Outside G (step G s o) := by
  cases o with
  | adv r =>
    cases h : adv G s r with
    | none => simpa [step, h] using ho
    | some t => simpa [step, h] using outside_adv hsu hi ho h
  | spawn =>
    show Outside G ((spawn s).getD s)
    unfold spawn
    cases hh : s.hopper with
    | nil => exact ho
    | cons x t =>
      have hx := (hi.hop x (by simp [hh])).1
      dsimp only
      rw [if_pos hx]
      intro p hp
      obtain ⟨h1, h3⟩ := ho p hp
      rw [hh] at h3
      simp only [List.mem_cons, not_or] at h3
      exact ⟨by simp [setPc, upd_other _ _ h3.1, h1], h3.2⟩
  | raise x => unfold step; dsimp only; split <;> exact ho
  | drop x =>
    unfold step
    dsimp only
    split
    · exact ho
    · split
      · intro p hp
        obtain ⟨h1, h3⟩ := ho p hp
        exact ⟨(same_wakeDrop x p _).2.2.1.2 h1, h3⟩
      · exact ho

theorem outside_run (hG : Wf G) (h0 : 0 < G.n) (hsu : ∀ p, ∀ q ∈ G.succs p, q < G.n) (ops : List Op) : Outside G (run G {} ops) := by
  have : ∀ (ops : List Op) (s : State), Inv G s → Outside G s → Outside G (run G s ops) := by
    intro ops
    induction ops with
    | nil => intro s _ h; exact h
    | cons o ops ih => intro s hi h; exact ih _ (inv_step hG hi o) (outside_step hsu hi h o)
  exact this ops {} (inv_init G) fun p hp => ⟨rfl, by simp; omega⟩

/-- To see that nothing can go on it is enough to look at the phases of the schedule. -/
theorem stuck_of (hG : Wf G) (h0 : 0 < G.n) (hsu : ∀ p, ∀ q ∈ G.succs p, q < G.n) (ops : List Op)
    (h : ∀ p, p < G.n → (adv G (run G {} ops) p).isNone = true) (hh : (run G {} ops).hopper = []) : Stuck G (run G {} ops) := by
  refine ⟨fun p => ?_, by unfold spawn; rw [hh]⟩
  by_cases hp : p < G.n
  · exact Option.isNone_iff_eq_none.1 (h p hp)
  · unfold adv; rw [(outside_run hG h0 hsu ops p (by omega)).1]

end

end Verif.PhaseRun
