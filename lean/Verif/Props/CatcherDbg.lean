import Verif.Spec.CatcherDbg
import Verif.Props.Callback
import Verif.Props.ReportText
/-!
# C305 – C309: debugging report catchers, callback iterators
-/
namespace Verif.CatcherDbg
open Verif.ReportText

theorem copy_plain (m : Msg) (h : m.elems = []) : copy m = some m := by
  simp only [copy, h, List.any_nil, Bool.false_eq_true, if_false, List.map_nil, Option.some.injEq]
  cases m; simp_all

theorem adjust_same (act : Sev → Nat) (m : Msg) : adjust act m.sev m = m := by
  unfold adjust; rw [if_neg (by simp)]

theorem loop_kept (f : Flags) (act : Sev → Nat) (m : Msg) (h : m.elems = []) (hf : f.noModify = true) (q : List Catcher)
    (hq : ∀ c ∈ q, ∀ x, (c.catch_ x).2 ≠ .raises) :
    loop f act m q m = ⟨m, (asked f.noCatch m q).map fun _ => m,
      if !f.noCatch && q.any (fun c => c.enabled && catches m c) then .caught else .thrown⟩ := by
  induction q with
  | nil => simp [loop, asked, through]
  | cons c q ih =>
    have ih := ih fun x hx => hq x (by simp [hx])
    have hc := hq c (by simp) m
    have hr : restore f m (c.catch_ m).1 = some m := by unfold restore; rw [if_pos hf, copy_plain m h]
    unfold loop
    cases he : c.enabled with
    | false =>
      rw [if_pos rfl, ih]
      simp [asked, he]
    | true =>
      rw [if_neg (by simp), if_neg hc, hr]
      simp only [adjust_same, ih]
      by_cases hcc : (c.catch_ m).2 = .caught
      · cases hn : f.noCatch with
        | true => simp [thrown, hcc, hn, asked, he, through]
        | false => simp [thrown, hcc, hn, asked, he, through, catches]
      · have : thrown f (c.catch_ m).2 = true := by
          cases hx : (c.catch_ m).2 with
          | caught => exact absurd hx hcc
          | throw => rfl
          | raises => rfl
        simp [this, asked, he, through, catches, hcc]

/-- C305. With the do-not-modify flag set, whatever the catchers do to a message without elements: every enabled catcher up
to the first that catches it is given the message as it was issued, the message is afterwards as it was issued, and it is
caught exactly if one of them catches it and the do-not-catch flag is off. -/
theorem C305_unmodified (what : Nat) (hw : what / 2 % 2 = 1) (act : Sev → Nat) (q : List Catcher) (m : Msg)
    (h : m.elems = []) (hq : ∀ c ∈ q, ∀ x, (c.catch_ x).2 ≠ .raises) :
    process (flags what) act q m = ⟨m, (asked (flags what).noCatch m q).map fun _ => m,
      if what % 2 = 0 ∧ ∃ c ∈ q, c.enabled = true ∧ (c.catch_ m).2 = .caught then .caught else .thrown⟩ := by
  have hf : (flags what).noModify = true := by simp [flags, hw]
  have e : process (flags what) act q m = loop (flags what) act m q m := by
    unfold process
    rw [copy_plain m h]
    split <;> rfl
  rw [e, loop_kept _ _ _ h hf q hq]
  congr 1
  have : (!(flags what).noCatch && q.any (fun c => c.enabled && catches m c)) = true ↔
      (what % 2 = 0 ∧ ∃ c ∈ q, c.enabled = true ∧ (c.catch_ m).2 = .caught) := by
    simp [flags, catches, List.any_eq_true]
  by_cases hh : (what % 2 = 0 ∧ ∃ c ∈ q, c.enabled = true ∧ (c.catch_ m).2 = .caught)
  · rw [if_pos hh, if_pos (this.2 hh)]
  · rw [if_neg hh, if_neg (fun x => hh (this.1 x))]

example : (process (flags 2) (fun _ => 3)
    [⟨true, fun m => ({ m with sev := .info, text := ['x'] }, .throw)⟩, ⟨false, fun m => (m, .caught)⟩,
      ⟨true, fun m => ({ m with action := 0 }, .caught)⟩, ⟨true, fun m => (m, .throw)⟩]
    ⟨.error, ['I'], ['t'], 0, [], [], [], 3, none, []⟩) =
    ⟨⟨.error, ['I'], ['t'], 0, [], [], [], 3, none, []⟩, [⟨.error, ['I'], ['t'], 0, [], [], [], 3, none, []⟩,
      ⟨.error, ['I'], ['t'], 0, [], [], [], 3, none, []⟩], .caught⟩ := by decide

theorem loop_elems (f : Flags) (act : Sev → Nat) (orig m : Msg) (hf : f.noModify = true) (ho : copy orig = none)
    (q : List Catcher) (hq : ∃ c ∈ q, c.enabled = true) : (loop f act orig q m).verdict = .raised := by
  induction q with
  | nil => obtain ⟨c, hc, _⟩ := hq; cases hc
  | cons c q ih =>
    unfold loop
    cases he : c.enabled with
    | false =>
      rw [if_pos rfl]
      apply ih
      obtain ⟨d, hd, hd2⟩ := hq
      rcases List.mem_cons.1 hd with rfl | hd
      · rw [he] at hd2; cases hd2
      · exact ⟨d, hd, hd2⟩
    | true =>
      rw [if_neg (by simp)]
      have hr : restore f orig (c.catch_ m).1 = none := by unfold restore; rw [if_pos hf, ho]
      rw [hr]
      split <;> rfl

theorem reports_stuck (f : Flags) (act : Sev → Nat) (q : List Catcher) (ms : List Msg) :
    reports f act q true ms = ms.map fun m => ⟨m, [], .thrown⟩ := by
  induction ms with
  | nil => rfl
  | cons m ms ih => simp [reports, report, ih]

/-- C306 fails for every message with elements once there is an enabled catcher: processing it raises, and after that no
catcher is ever asked again. -/
theorem C306_elements_fails (what : Nat) (hw : what / 2 % 2 = 1) (act : Sev → Nat) (q : List Catcher) (m : Msg)
    (h : m.elems ≠ []) (hq : ∃ c ∈ q, c.enabled = true) (ms : List Msg) :
    (process (flags what) act q m).verdict = .raised ∧
    (reports (flags what) act q false (m :: ms)).tail = ms.map fun m => ⟨m, [], .thrown⟩ := by
  have hf : (flags what).noModify = true := by simp [flags, hw]
  have hv : (process (flags what) act q m).verdict = .raised := by
    unfold process
    have hany : q.any (·.enabled) = true := by
      obtain ⟨c, hc, he⟩ := hq
      exact List.any_eq_true.2 ⟨c, hc, he⟩
    rw [hf, hany]
    simp only [Bool.and_self, if_true]
    generalize hg : copy m = g
    cases g with
    | none => rfl
    | some orig =>
      apply loop_elems _ _ _ _ hf _ _ hq
      unfold copy at hg
      split at hg
      · cases hg
      · injection hg with hg
        subst hg
        unfold copy
        rw [if_pos]
        cases hm : m.elems with
        | nil => exact absurd hm h
        | cons x l => rfl
  refine ⟨hv, ?_⟩
  simp only [reports, report, List.tail_cons, Bool.false_eq_true, if_false, hv, decide_true]
  exact reports_stuck _ _ _ _

example : (add ⟨.info, ['I'], ['t'], 0, [], [], [], 3, none, []⟩ ['a'] ['1'] 2).elems ≠ [] := by decide

/-- C306, what holds: with the flag off nothing is copied, and a message with elements is processed without an exception. -/
theorem C306_plain_partial (what : Nat) (hw : what / 2 % 2 = 0) (act : Sev → Nat) (q : List Catcher) (m : Msg)
    (hq : ∀ c ∈ q, ∀ x, (c.catch_ x).2 ≠ .raises) : (process (flags what) act q m).verdict ≠ .raised := by
  have hf : (flags what).noModify = false := by simp [flags, hw]
  unfold process
  rw [hf]
  simp only [Bool.false_and, Bool.false_eq_true, if_false]
  generalize hm : m = orig
  rw [← hm]
  have : ∀ x, (loop (flags what) act orig q x).verdict ≠ .raised := by
    induction q with
    | nil => intro x h; cases h
    | cons c q ih =>
      intro x
      unfold loop
      split
      · exact ih (fun c hc => hq c (by simp [hc])) x
      · rw [if_neg (hq c (by simp) x)]
        unfold restore
        rw [hf]
        simp only [Bool.false_eq_true, if_false]
        split
        · exact ih (fun c hc => hq c (by simp [hc])) _
        · intro h; cases h
  rw [hm]
  exact this m |> (hm ▸ ·)

/-- C307 fails always: whatever catchers have been added, type-wide or to objects, no name finds one, and the printout lists
none. -/
theorem C307_lookup_fails (isa : Nat → Nat → Bool) (b : Bool) (ops : List Callback.Op) (name : Nat → Txt) (n : Txt) :
    getReportCatcher isa (runS Callback.step (Callback.init b) ops) name n = none ∧
    printCatcher isa (runS Callback.step (Callback.init b) ops) name = [] := ⟨rfl, rfl⟩

example : (runS Callback.step (Callback.init true) [.addType 1 true]).tw = [1] := by decide

/-! ## Iterators -/

open Callback in
/-- The iterator stands on the `j`-th accepted entry. -/
def Stands (p : Nat → Bool) (q : List Nat) (it : Iter) (j : Nat) : Prop :=
  ∃ c, it.cb = some c ∧ p c = true ∧ q.drop it.mi = c :: q.drop (it.mi + 1) ∧ ((q.take it.mi).filter p).length = j

theorem stands_split {p : Nat → Bool} {q : List Nat} {it : Iter} {j : Nat} (h : Stands p q it j) :
    ∃ c, it.cb = some c ∧ q.filter p = (q.take it.mi).filter p ++ c :: (q.drop (it.mi + 1)).filter p ∧
      ((q.take it.mi).filter p).length = j := by
  obtain ⟨c, h1, h2, h3, h4⟩ := h
  refine ⟨c, h1, ?_, h4⟩
  conv => lhs; rw [← List.take_append_drop it.mi q]
  rw [List.filter_append, h3, List.filter_cons, if_pos h2]

theorem stands_get {p : Nat → Bool} {q : List Nat} {it : Iter} {j : Nat} (h : Stands p q it j) :
    it.cb = (q.filter p)[j]? := by
  obtain ⟨c, h1, h2, h3⟩ := stands_split h
  rw [h1, h2, List.getElem?_append_right (by omega), h3]
  simp

theorem stands_up (p : Nat → Bool) (q : List Nat) (n last c i : Nat)
    (h : Callback.scanUp p (q.drop n) n last = (some c, i)) : Stands p q ⟨i, some c⟩ ((q.take n).filter p).length := by
  obtain ⟨h1, h2⟩ := Callback.scanUp_spec p (q.drop n) n last
  rw [h] at h1 h2
  obtain ⟨h3, h4, h5⟩ := h2 c rfl
  simp only at h3 h4 h5
  have hp : p c = true := by
    have := List.find?_some h1.symm
    simpa using this
  refine ⟨c, rfl, hp, ?_, ?_⟩
  · rw [List.drop_drop, List.drop_drop] at h4
    have e1 : n + (i - n) = i := by omega
    have e2 : n + (i - n + 1) = i + 1 := by omega
    rw [e1, e2] at h4
    exact h4
  · show ((q.take i).filter p).length = _
    have e : q.take i = q.take n ++ (q.drop n).take (i - n) := by
      have : i = n + (i - n) := by omega
      conv => lhs; rw [this, List.take_add]
    rw [e, List.filter_append, h5, List.append_nil]

theorem scanDown_at (p : Nat → Bool) (q : List Nat) (n last c i : Nat) (hn : n ≤ q.length)
    (h : Callback.scanDown p (q.take n).reverse (n - 1) last = (some c, i)) : q[i]? = some c := by
  induction n generalizing last with
  | zero => simp [Callback.scanDown] at h
  | succ n ih =>
    have e : q.take (n + 1) = q.take n ++ [q[n]] := by rw [List.take_succ_eq_append_getElem (by omega)]
    rw [e, List.reverse_append, List.reverse_singleton, List.singleton_append, Callback.scanDown] at h
    by_cases hp : p q[n] = true
    · rw [if_pos hp] at h
      injection h with h1 h2
      injection h1 with h1
      have : i = n := by omega
      subst this
      rw [List.getElem?_eq_getElem (by omega), h1]
    · rw [if_neg hp] at h
      exact ih (n + 1 - 1) (by omega) h

theorem stands_down (p : Nat → Bool) (q : List Nat) (n last c i : Nat) (hn : n ≤ q.length)
    (h : Callback.scanDown p (q.take n).reverse (n - 1) last = (some c, i)) :
    Stands p q ⟨i, some c⟩ (((q.take n).filter p).length - 1) := by
  obtain ⟨h1, h2⟩ := Callback.scanDown_take p q n last hn c i h
  have hp : p c = true := by
    have := Callback.scanDown_spec p (q.take n).reverse (n - 1) last
    rw [h] at this
    exact List.find?_some this.symm
  have hc := scanDown_at p q n last c i hn h
  refine ⟨c, rfl, hp, ?_, by rw [h2]; simp⟩
  show q.drop i = c :: q.drop (i + 1)
  have hi : i < q.length := by omega
  rw [List.getElem?_eq_getElem hi] at hc
  injection hc with hc
  rw [List.drop_eq_getElem_cons hi, hc]

theorem stands_mi {p : Nat → Bool} {q : List Nat} {it : Iter} {j : Nat} (h : Stands p q it j) : it.mi < q.length := by
  obtain ⟨c, _, _, h3, _⟩ := h
  have := congrArg List.length h3
  simp only [List.length_drop, List.length_cons] at this
  omega

/-- One call, from a position where the iterator stands on a callback or with `first` and `last` from anywhere. -/
theorem iter_step (isa : Nat → Nat → Bool) (s : Callback.State) (o k : Option Nat) (it : Iter) (at_ : Option Nat)
    (h : ∀ j, at_ = some j → Stands (Callback.accepts isa s k) (Callback.getQ s o) it j) (op : IterOp) :
    (∀ j, moved ((Callback.getQ s o).filter (Callback.accepts isa s k)) at_ op = some j →
      Stands (Callback.accepts isa s k) (Callback.getQ s o) (iterStep isa s o k it op) j) ∧
    ((at_ ≠ none ∨ op = .first ∨ op = .last) →
      moved ((Callback.getQ s o).filter (Callback.accepts isa s k)) at_ op = none → (iterStep isa s o k it op).cb = none) := by
  generalize hp : Callback.accepts isa s k = p at *
  generalize hq : Callback.getQ s o = q at *
  have up : ∀ n last, (Callback.scanUp p (q.drop n) n last).1 = ((q.drop n).filter p).head? := by
    intro n last; rw [(Callback.scanUp_spec p (q.drop n) n last).1, List.head?_filter]
  have down : ∀ n last, (Callback.scanDown p (q.take n).reverse (n - 1) last).1 = ((q.take n).filter p).getLast? := by
    intro n last
    rw [Callback.scanDown_spec, List.getLast?_eq_head?_reverse, ← List.filter_reverse, List.head?_filter]
  cases op with
  | first =>
    have e : Callback.getFirst isa s o k it.mi = Callback.scanUp p (q.drop 0) 0 it.mi := by
      simp only [Callback.getFirst, hp, hq, List.drop_zero]
    simp only [iterStep, moved, e]
    cases hs : Callback.scanUp p (q.drop 0) 0 it.mi with
    | mk r i =>
      have h1 := up 0 it.mi
      rw [hs] at h1
      simp only [List.drop_zero] at h1
      cases r with
      | none =>
        have : q.filter p = [] := by simpa using h1.symm
        simp [this]
      | some c =>
        have hne : q.filter p ≠ [] := by intro h0; rw [h0] at h1; cases h1
        simp only [hne, if_false]
        refine ⟨?_, nofun⟩
        rintro j ⟨⟩
        simpa using stands_up p q 0 it.mi c i hs
  | last =>
    have e : Callback.getLast isa s o k it.mi = Callback.scanDown p (q.take q.length).reverse (q.length - 1) it.mi := by
      simp only [Callback.getLast, hp, hq, List.take_length]
    simp only [iterStep, moved, e]
    cases hs : Callback.scanDown p (q.take q.length).reverse (q.length - 1) it.mi with
    | mk r i =>
      have h1 := down q.length it.mi
      rw [hs] at h1
      simp only [List.take_length] at h1
      cases r with
      | none =>
        have : q.filter p = [] := by simpa using h1.symm
        simp [this]
      | some c =>
        have hne : q.filter p ≠ [] := by intro h0; rw [h0] at h1; cases h1
        simp only [hne, if_false]
        refine ⟨?_, nofun⟩
        rintro j ⟨⟩
        have := stands_down p q q.length it.mi c i (by omega) hs
        simpa only [List.take_length] using this
  | next =>
    have e : Callback.getNext isa s o k it.mi = Callback.scanUp p (q.drop (it.mi + 1)) (it.mi + 1) it.mi := by
      simp only [Callback.getNext, hp, hq]
    simp only [iterStep, moved, e]
    cases at_ with
    | none => simp
    | some j0 =>
      have hst := h j0 rfl
      obtain ⟨c0, hc0, hsp, hl⟩ := stands_split hst
      have hlen : ((q.take (it.mi + 1)).filter p).length = j0 + 1 := by
        obtain ⟨d, _, hd2, hd3, hd4⟩ := hst
        have : q.take (it.mi + 1) = q.take it.mi ++ (q.drop it.mi).take 1 := by rw [List.take_add]
        rw [this, List.filter_append, List.length_append, hd4, hd3]
        simp [hd2]
      have hL : (q.filter p).length = j0 + 1 + ((q.drop (it.mi + 1)).filter p).length := by
        rw [hsp, List.length_append, List.length_cons, hl]; omega
      cases hs : Callback.scanUp p (q.drop (it.mi + 1)) (it.mi + 1) it.mi with
      | mk r i =>
        have h1 := up (it.mi + 1) it.mi
        rw [hs] at h1
        cases r with
        | none =>
          have h0 : (q.drop (it.mi + 1)).filter p = [] := by simpa using h1.symm
          rw [h0] at hL
          simp only [List.length_nil] at hL
          simp only [Option.bind_some, hL]
          rw [if_neg (by omega)]
          exact ⟨nofun, fun _ _ => by simp⟩
        | some c =>
          have hne : ((q.drop (it.mi + 1)).filter p).length ≠ 0 := by
            intro h0; rw [List.eq_nil_of_length_eq_zero h0] at h1; cases h1
          simp only [Option.bind_some]
          rw [if_pos (by omega)]
          refine ⟨?_, nofun⟩
          rintro j ⟨⟩
          have := stands_up p q (it.mi + 1) it.mi c i hs
          rwa [hlen] at this
  | prev =>
    have e : Callback.getPrev isa s o k it.mi = Callback.scanDown p (q.take it.mi).reverse (it.mi - 1) it.mi := by
      simp only [Callback.getPrev, hp, hq]
    simp only [iterStep, moved, e]
    cases at_ with
    | none => simp
    | some j0 =>
      have hst := h j0 rfl
      have hmi := stands_mi hst
      obtain ⟨c0, hc0, hsp, hl⟩ := stands_split hst
      cases hs : Callback.scanDown p (q.take it.mi).reverse (it.mi - 1) it.mi with
      | mk r i =>
        have h1 := down it.mi it.mi
        rw [hs] at h1
        cases r with
        | none =>
          have h0 : (q.take it.mi).filter p = [] := by simpa using h1.symm
          rw [h0] at hl
          simp only [List.length_nil] at hl
          subst hl
          simp
        | some c =>
          have hne : ((q.take it.mi).filter p).length ≠ 0 := by
            intro h0; rw [List.eq_nil_of_length_eq_zero h0] at h1; cases h1
          simp only [Option.bind_some]
          rw [if_neg (by omega)]
          refine ⟨?_, nofun⟩
          rintro j ⟨⟩
          have := stands_down p q it.mi it.mi c i (by omega) hs
          rwa [hl] at this

theorem iterate_stands (isa : Nat → Nat → Bool) (s : Callback.State) (o k : Option Nat) (ops : List IterOp) (j : Nat)
    (h : position ((Callback.getQ s o).filter (Callback.accepts isa s k)) ops = some j) :
    Stands (Callback.accepts isa s k) (Callback.getQ s o) (iterate isa s o k ops) j := by
  induction ops using Callback.snoc_ind generalizing j with
  | h0 => cases h
  | h1 ops op ih =>
    simp only [position, iterate, List.foldl_append, List.foldl_cons, List.foldl_nil] at h ⊢
    exact (iter_step isa s o k _ _ (fun j hj => ih j hj) op).1 j h

/-- C308. An iterator walks over the callbacks run for its object and class: after any calls of `first`, `last`, `next` and
`prev` that have not gone past an end, it returns the one at the position those calls lead to; the call that goes past an end
returns nothing; and `first` and `last` lead back to the ends from anywhere. -/
theorem C308_walk (isa : Nat → Nat → Bool) (b : Bool) (cbs : List Callback.Op) (o k : Nat) (ops : List IterOp) (j : Nat)
    (run : List Nat) (hr : run = (Callback.kept cbs o).filter fun c => isa c k && Callback.isEnabled cbs c)
    (h : position run ops = some j) :
    (iterate isa (runS Callback.step (Callback.init b) cbs) (some o) (some k) ops).cb = run[j]? ∧
    ∀ op, (iterate isa (runS Callback.step (Callback.init b) cbs) (some o) (some k) (ops ++ [op])).cb =
      (position run (ops ++ [op])).bind fun i => run[i]? := by
  have hrun : (Callback.getQ (runS Callback.step (Callback.init b) cbs) (some o)).filter
      (Callback.accepts isa (runS Callback.step (Callback.init b) cbs) (some k)) = run := by
    rw [hr, ← Callback.C41_run isa b, Callback.doCallbacks_eq]
  have hst := iterate_stands isa _ (some o) (some k) ops j (hrun ▸ h)
  refine ⟨by rw [stands_get hst, hrun], ?_⟩
  intro op
  have hstep := iter_step isa _ (some o) (some k) _ (some j) (fun i hi => by cases hi; exact hst) op
  have he : position run (ops ++ [op]) = moved run (some j) op := by
    simp only [position, List.foldl_append, List.foldl_cons, List.foldl_nil]
    rw [show ops.foldl (moved run) none = some j from h]
  have hi : iterate isa (runS Callback.step (Callback.init b) cbs) (some o) (some k) (ops ++ [op]) =
      iterStep isa (runS Callback.step (Callback.init b) cbs) (some o) (some k) (iterate isa (runS Callback.step (Callback.init b) cbs) (some o) (some k) ops) op := by
    simp only [iterate, List.foldl_append, List.foldl_cons, List.foldl_nil]
  rw [he, hi]
  rw [hrun] at hstep
  cases hm : moved run (some j) op with
  | none => exact hstep.2 (.inl nofun) hm
  | some i =>
    have := stands_get (hstep.1 i hm)
    rw [this, hrun]
    rfl

/-- C308. `first` and `last` restart, also past an end. -/
theorem C308_restart (isa : Nat → Nat → Bool) (b : Bool) (cbs : List Callback.Op) (o k : Nat) (ops : List IterOp)
    (run : List Nat) (hr : run = (Callback.kept cbs o).filter fun c => isa c k && Callback.isEnabled cbs c) :
    (iterate isa (runS Callback.step (Callback.init b) cbs) (some o) (some k) (ops ++ [.first])).cb = run.head? ∧
    (iterate isa (runS Callback.step (Callback.init b) cbs) (some o) (some k) (ops ++ [.last])).cb = run.getLast? := by
  have hrun : Callback.doCallbacks isa (runS Callback.step (Callback.init b) cbs) (some o) (some k) = run := by
    rw [hr, ← Callback.C41_run isa b]
  simp only [iterate, List.foldl_append, List.foldl_cons, List.foldl_nil, iterStep]
  rw [← hrun]
  exact Callback.C41_first_last isa _ _ _ _

example : (iterate (fun _ _ => true) (runS Callback.step (Callback.init false) [.addInst 7 1 true, .addInst 7 2 true,
      .addInst 7 3 true, .mode 2 0]) (some 7) (some 0) [.first, .next, .prev, .next]).cb = some 3 ∧
    position [1, 3] [.first, .next, .prev, .next] = some 1 := by decide

theorem scanUp_off (p : Nat → Bool) (q : List Nat) (i last : Nat) (h : ∀ c ∈ q, p c = false) :
    Callback.scanUp p q i last = (none, if q = [] then last else i + q.length - 1) := by
  induction q generalizing i last with
  | nil => rfl
  | cons d q ih =>
    unfold Callback.scanUp
    rw [h d (by simp), if_neg (by simp), ih (i + 1) i (fun c hc => h c (by simp [hc]))]
    cases q with
    | nil => simp
    | cons e q => simp only [if_neg (List.cons_ne_nil _ _), List.length_cons]; congr 1; omega

/-- The iterator at the last callback has the end of the queue behind it. -/
theorem last_rest (p : Nat → Bool) (q : List Nat) (it : Iter) (h : Stands p q it ((q.filter p).length - 1)) :
    ∀ c ∈ q.drop (it.mi + 1), p c = false := by
  obtain ⟨c0, h1, h2, h3⟩ := stands_split h
  have : ((q.drop (it.mi + 1)).filter p) = [] := by
    apply List.eq_nil_of_length_eq_zero
    have := congrArg List.length h2
    rw [List.length_append, List.length_cons] at this
    omega
  intro c hc
  have := (List.filter_eq_nil_iff.1 this) c hc
  simpa using this

theorem back_core (isa : Nat → Nat → Bool) (s : Callback.State) (o k : Option Nat) (run : List Nat)
    (hr : (Callback.getQ s o).filter (Callback.accepts isa s k) = run) (hne : run ≠ []) :
    (iterate isa s o k [.last, .next]).cb = none ∧
    (iterate isa s o k [.last, .next, .prev]).cb =
      if (Callback.getQ s o).getLast?.any (Callback.accepts isa s k) then run.dropLast.getLast? else run.getLast? := by
  have hpos : position ((Callback.getQ s o).filter (Callback.accepts isa s k)) [.last] = some (run.length - 1) := by
    simp [position, moved, hr, hne]
  have hst := iterate_stands isa s o k [.last] _ hpos
  generalize hp : Callback.accepts isa s k = p at *
  generalize hq : Callback.getQ s o = q at *
  have e1 : iterate isa s o k [.last, .next] = iterStep isa s o k (iterate isa s o k [.last]) .next := rfl
  have e2 : iterate isa s o k [.last, .next, .prev] = iterStep isa s o k (iterate isa s o k [.last, .next]) .prev := rfl
  generalize hit : iterate isa s o k [.last] = it at *
  rw [← hr] at hst
  have hrest := last_rest p q it hst
  have hnx : iterate isa s o k [.last, .next] =
      ⟨if q.drop (it.mi + 1) = [] then it.mi else it.mi + 1 + (q.drop (it.mi + 1)).length - 1, none⟩ := by
    rw [e1]
    simp only [iterStep, Callback.getNext, hp, hq]
    rw [scanUp_off p _ _ _ hrest]
  refine ⟨by rw [hnx], ?_⟩
  have hmi := stands_mi hst
  obtain ⟨c, hc1, hc2, hc3, hc4⟩ := hst
  have hrun : run = (q.take it.mi).filter p ++ [c] := by
    rw [← hr]
    conv => lhs; rw [← List.take_append_drop it.mi q]
    rw [List.filter_append, hc3, List.filter_cons, if_pos hc2]
    congr 2
    exact List.filter_eq_nil_iff.2 fun d hd => by simp [hrest d hd]
  rw [e2, hnx]
  simp only [iterStep, (Callback.C41_next_prev isa s o k _).2, hp, hq]
  by_cases hd : q.drop (it.mi + 1) = []
  · have hql : q = q.take it.mi ++ [c] := by
      conv => lhs; rw [← List.take_append_drop it.mi q]
      rw [hc3, hd]
    have hany : q.getLast?.any p = true := by
      rw [hql, List.getLast?_append]; simp [hc2]
    rw [if_pos hd, if_pos hany, hrun, List.dropLast_concat]
  · have hlen : it.mi + 1 + (q.drop (it.mi + 1)).length - 1 = q.length - 1 := by
      rw [List.length_drop]
      have : it.mi + 1 < q.length := by
        apply Nat.lt_of_not_le
        intro h; exact hd (List.drop_eq_nil_of_le h)
      omega
    have hany : q.getLast?.any p = false := by
      have h1 : q.getLast? = (q.drop (it.mi + 1)).getLast? := by
        conv => lhs; rw [← List.take_append_drop (it.mi + 1) q]
        rw [List.getLast?_append]
        cases hg : (q.drop (it.mi + 1)).getLast? with
        | none => exact absurd (List.getLast?_eq_none_iff.1 hg) hd
        | some x => rfl
      rw [h1]
      cases hg : (q.drop (it.mi + 1)).getLast? with
      | none => rfl
      | some x => exact hrest x (List.mem_of_getLast? hg)
    rw [if_neg hd, hlen, hany]
    simp only [Bool.false_eq_true, if_false]
    rw [← hr]
    congr 1
    have hqne : q ≠ [] := by rintro rfl; exact hd (by simp)
    conv => rhs; rw [← List.dropLast_concat_getLast hqne]
    rw [List.filter_append, List.dropLast_eq_take]
    have : p (q.getLast hqne) = false := by
      rw [List.getLast?_eq_some_getLast hqne] at hany
      simpa using hany
    simp [this]

/-- C309 fails if the last callback of the queue is one that is run: past the end, `prev` returns the callback before the
last one of the run (or nothing) instead of the last one. -/
theorem C309_back_fails (isa : Nat → Nat → Bool) (b : Bool) (cbs : List Callback.Op) (o k : Nat)
    (run : List Nat) (hr : run = (Callback.kept cbs o).filter fun c => isa c k && Callback.isEnabled cbs c)
    (hl : ∃ c, (Callback.kept cbs o).getLast? = some c ∧ c ∈ run) :
    (iterate isa (runS Callback.step (Callback.init b) cbs) (some o) (some k) [.last, .next]).cb = none ∧
    (iterate isa (runS Callback.step (Callback.init b) cbs) (some o) (some k) [.last, .next, .prev]).cb =
      run.dropLast.getLast? := by
  obtain ⟨c, hc, hm⟩ := hl
  have hp : Callback.accepts isa (runS Callback.step (Callback.init b) cbs) (some k) =
      fun c => isa c k && Callback.isEnabled cbs c := by
    funext d; simp [Callback.accepts, Callback.enabled_eq]
  have h := back_core isa (runS Callback.step (Callback.init b) cbs) (some o) (some k) run
    (by rw [Callback.getQ_eq, hp, hr]) (List.ne_nil_of_mem hm)
  rw [Callback.getQ_eq, hc, hp] at h
  have : (Option.any (fun c => isa c k && Callback.isEnabled cbs c) (some c)) = true := by
    rw [hr] at hm; exact (List.mem_filter.1 hm).2
  rwa [if_pos this] at h

/-- C309, what holds: if the queue ends with a callback that is not run, `prev` returns the last one of the run. -/
theorem C309_back_partial (isa : Nat → Nat → Bool) (b : Bool) (cbs : List Callback.Op) (o k : Nat)
    (run : List Nat) (hr : run = (Callback.kept cbs o).filter fun c => isa c k && Callback.isEnabled cbs c) (hne : run ≠ [])
    (hl : ∃ c, (Callback.kept cbs o).getLast? = some c ∧ c ∉ run) :
    (iterate isa (runS Callback.step (Callback.init b) cbs) (some o) (some k) [.last, .next]).cb = none ∧
    (iterate isa (runS Callback.step (Callback.init b) cbs) (some o) (some k) [.last, .next, .prev]).cb = run.getLast? := by
  obtain ⟨c, hc, hm⟩ := hl
  have hp : Callback.accepts isa (runS Callback.step (Callback.init b) cbs) (some k) =
      fun c => isa c k && Callback.isEnabled cbs c := by
    funext d; simp [Callback.accepts, Callback.enabled_eq]
  have h := back_core isa (runS Callback.step (Callback.init b) cbs) (some o) (some k) run
    (by rw [Callback.getQ_eq, hp, hr]) hne
  rw [Callback.getQ_eq, hc, hp] at h
  have : ¬ (Option.any (fun c => isa c k && Callback.isEnabled cbs c) (some c)) = true := by
    intro h2
    exact hm (hr ▸ List.mem_filter.2 ⟨List.mem_of_getLast? hc, h2⟩)
  rwa [if_neg this] at h

example : (iterate (fun _ _ => true) (runS Callback.step (Callback.init false) [.addInst 7 1 true, .addInst 7 2 true])
      (some 7) (some 0) [.last, .next, .prev]).cb = some 1 ∧
    (iterate (fun _ _ => true) (runS Callback.step (Callback.init false) [.addInst 7 1 true, .addInst 7 2 true,
      .addInst 7 3 true, .mode 3 0]) (some 7) (some 0) [.last, .next, .prev]).cb = some 2 := by decide

end Verif.CatcherDbg
