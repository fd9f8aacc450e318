import Verif.Model.Container
import Verif.Lemmas.Pool
/-!
# C290-C292: copies of queues and pools, printed pools
-/
namespace Verif.Container
open Verif

/-! ## C290: copies of queues -/

/-- Every queue made refers to a list made. -/
def Wf {α} (h : Heap α) : Prop := ∀ q, q < h.nQueues → h.ref q < h.nCells

/-- The queues named by an operation exist. -/
def Valid {α} (h : Heap α) : Op α → Prop
  | .new => True
  | .call q _ => q < h.nQueues
  | .copy d s => d < h.nQueues ∧ s < h.nQueues
  | .clone s => s < h.nQueues

def AllValid {α} (h : Heap α) : List (Op α) → Prop
  | [] => True
  | o :: l => Valid h o ∧ AllValid (step h o) l

theorem wf_new {α} {h : Heap α} (hw : Wf h) : Wf (new h) := by
  intro q hq
  simp only [new, upd] at hq ⊢
  by_cases hc : q = h.nQueues
  · rw [if_pos hc]; omega
  · rw [if_neg hc]; have := hw q (by omega); omega

theorem wf_copy {α} {h : Heap α} (hw : Wf h) {d s : Nat} (hs : s < h.nQueues) : Wf (copy h d s) := by
  intro q hq
  simp only [copy, upd] at hq ⊢
  by_cases hc : q = d
  · rw [if_pos hc]; exact hw s hs
  · rw [if_neg hc]; exact hw q hq

theorem call_cases {α} (h : Heap α) (q : Nat) (o : Queue.Op α) :
    ((call h q o).1 = { h with cell := upd h.cell h.nCells [], ref := upd h.ref q h.nCells, nCells := h.nCells + 1 } ∧
      (Queue.step (content h q) o).1 = [] ∧ o = .delete (-1)) ∨
    ((∀ k, (call h q o).1.cell k = if k = h.ref q then (Queue.step (content h q) o).1 else h.cell k) ∧ (call h q o).1.ref = h.ref ∧
      (call h q o).1.nCells = h.nCells ∧ (call h q o).1.nQueues = h.nQueues) := by
  cases o with
  | delete i =>
    by_cases h1 : i ≥ (content h q).length ∨ i < -1
    · right
      have e : (Queue.step (content h q) (.delete i)).1 = content h q := by simp [Queue.step, Queue.delete, h1]
      have e' : (call h q (.delete i)).1 = h := by simp [call, h1]
      rw [e, e']
      refine ⟨fun k => ?_, rfl, rfl, rfl⟩
      split
      · rename_i hk; rw [hk]; rfl
      · rfl
    · by_cases h2 : i = -1
      · left
        subst h2
        refine ⟨by simp only [call]; rw [if_neg h1]; rfl, ?_, rfl⟩
        show (Queue.delete _ _).1 = _
        unfold Queue.delete
        rw [if_neg h1]
        rfl
      · right
        have e : (call h q (.delete i)).1 = { h with cell := upd h.cell (h.ref q) (Queue.step (content h q) (.delete i)).1 } := by
          simp only [call]; rw [if_neg h1, if_neg h2]
        rw [e]
        exact ⟨fun _ => rfl, rfl, rfl, rfl⟩
  | _ => exact .inr ⟨fun _ => rfl, rfl, rfl, rfl⟩

theorem wf_step {α} {h : Heap α} (hw : Wf h) (o : Op α) (hv : Valid h o) : Wf (step h o) := by
  cases o with
  | new => exact wf_new hw
  | call q o =>
    rcases call_cases h q o with ⟨e, _, _⟩ | ⟨_, e2, e3, e4⟩
    · show Wf (call h q o).1
      rw [e]
      intro r hr
      simp only [upd] at hr ⊢
      by_cases hc : r = q
      · rw [if_pos hc]; omega
      · rw [if_neg hc]; have := hw r hr; omega
    · intro r hr
      show (call h q o).1.ref r < (call h q o).1.nCells
      rw [e2, e3]
      exact hw r (e4 ▸ hr)
  | copy d s => exact wf_copy hw hv.2
  | clone s => exact wf_copy (wf_new hw) (by simp only [new]; have : s < h.nQueues := hv; omega)

/-- A method called on one queue acts on what is in it as on a list. -/
theorem call_self {α} (h : Heap α) (q : Nat) (o : Queue.Op α) :
    content (call h q o).1 q = (Queue.step (content h q) o).1 ∧ (call h q o).2 = (Queue.step (content h q) o).2 := by
  constructor
  · rcases call_cases h q o with ⟨e, e', _⟩ | ⟨e1, e2, _⟩
    · rw [e, e']; simp [content, upd]
    · unfold content; rw [e2, e1]; simp [content]
  · cases o with
    | delete i =>
      simp only [call]
      split
      · rfl
      · split <;> rfl
    | _ => rfl

theorem call_other {α} {h : Heap α} (hw : Wf h) (q r : Nat) (hr : r < h.nQueues) (hne : h.ref r ≠ h.ref q) (o : Queue.Op α) :
    content (call h q o).1 r = content h r := by
  have hqr : r ≠ q := fun e => hne (e ▸ rfl)
  rcases call_cases h q o with ⟨e, _, _⟩ | ⟨e1, e2, _⟩
  · rw [e]
    have := hw r hr
    simp only [content, upd, if_neg hqr]
    rw [if_neg (by omega)]
  · unfold content; rw [e2, e1, if_neg hne]

/-- The calls a history makes on the queue `q`. -/
def callsOn {α} (q : Nat) : List (Op α) → List (Queue.Op α)
  | [] => []
  | .call p o :: l => if p = q then o :: callsOn q l else callsOn q l
  | _ :: l => callsOn q l

def NoCopies {α} (l : List (Op α)) : Prop := ∀ o ∈ l, (o = .new ∨ ∃ q c, o = .call q c)

/-- Queues that are not copied do not interfere: whatever is done to others, a queue holds what the calls on it say. -/
theorem C290_separate_partial {α} (l : List (Op α)) (hv : AllValid (init : Heap α) l) (hn : NoCopies l) (q : Nat)
    (hq : q < (run init l).nQueues) : content (run (init : Heap α) l) q = runS Queue.step [] (callsOn q l) := by
  have key : ∀ (l : List (Op α)) (h : Heap α), Wf h → (∀ a b, a < h.nQueues → b < h.nQueues → h.ref a = h.ref b → a = b) →
      AllValid h l → NoCopies l → ∀ q, q < (run h l).nQueues →
      content (run h l) q = runS Queue.step (if q < h.nQueues then content h q else []) (callsOn q l) := by
    intro l
    induction l with
    | nil =>
      intro h _ _ _ _ q hq
      have : q < h.nQueues := hq
      simp [run, callsOn, this]
    | cons o l ih =>
      intro h hw hi hv hn q hq
      have hn' : NoCopies l := fun x hx => hn x (.tail _ hx)
      have hw' := wf_step hw o hv.1
      rcases hn o (.head _) with rfl | ⟨p, c, rfl⟩
      · have hi' : ∀ a b, a < (new h).nQueues → b < (new h).nQueues → (new h).ref a = (new h).ref b → a = b := by
          intro a b ha hb e
          simp only [new, upd] at ha hb e
          by_cases h1 : a = h.nQueues <;> by_cases h2 : b = h.nQueues
          · rw [h1, h2]
          · rw [if_pos h1, if_neg h2] at e; have := hw b (by omega); omega
          · rw [if_neg h1, if_pos h2] at e; have := hw a (by omega); omega
          · rw [if_neg h1, if_neg h2] at e; exact hi a b (by omega) (by omega) e
        have := ih (new h) hw' hi' hv.2 hn' q hq
        show content (run (new h) l) q = _
        rw [this]
        show runS _ _ (callsOn q l) = runS _ _ (callsOn q l)
        congr 1
        by_cases h1 : q < h.nQueues
        · rw [if_pos h1, if_pos (show q < (new h).nQueues by simp only [new]; omega)]
          have := hw q h1
          simp only [content, new, upd]
          rw [if_neg (show ¬ q = h.nQueues by omega), if_neg (by omega)]
        · rw [if_neg h1]
          by_cases h2 : q < (new h).nQueues
          · rw [if_pos h2]
            have : q = h.nQueues := by simp only [new] at h2; omega
            simp [content, new, upd, this]
          · rw [if_neg h2]
      · have hp : p < h.nQueues := hv.1
        have hnq : (call h p c).1.nQueues = h.nQueues := by
          rcases call_cases h p c with ⟨e, _, _⟩ | ⟨_, _, _, e⟩
          · rw [e]
          · exact e
        have hi' : ∀ a b, a < (call h p c).1.nQueues → b < (call h p c).1.nQueues → (call h p c).1.ref a = (call h p c).1.ref b → a = b := by
          intro a b ha hb e
          rw [hnq] at ha hb
          rcases call_cases h p c with ⟨ee, _, _⟩ | ⟨_, ee, _, _⟩
          · rw [ee] at e
            simp only [upd] at e
            by_cases h1 : a = p <;> by_cases h2 : b = p
            · rw [h1, h2]
            · rw [if_pos h1, if_neg h2] at e; have := hw b hb; omega
            · rw [if_neg h1, if_pos h2] at e; have := hw a ha; omega
            · rw [if_neg h1, if_neg h2] at e; exact hi a b ha hb e
          · rw [ee] at e; exact hi a b ha hb e
        have := ih (call h p c).1 hw' hi' hv.2 hn' q hq
        show content (run (call h p c).1 l) q = _
        rw [this, hnq]
        by_cases h1 : p = q
        · subst h1
          rw [if_pos hp, if_pos hp, (call_self h p c).1]
          simp [callsOn]
        · have e : callsOn q (.call p c :: l) = callsOn q l := by simp [callsOn, h1]
          rw [e]
          congr 1
          by_cases h2 : q < h.nQueues
          · rw [if_pos h2, if_pos h2]
            exact call_other hw p q h2 (fun e => h1 (hi q p h2 hp e).symm) c
          · rw [if_neg h2, if_neg h2]
  have := key l init (fun q hq => absurd hq (Nat.not_lt_zero q)) (fun a b ha => absurd ha (Nat.not_lt_zero a)) hv hn q hq
  rw [this, if_neg (show ¬ q < (init : Heap α).nQueues from Nat.not_lt_zero q)]

example : content (run (init : Heap Nat) [.new, .new, .call 0 (.pushBack 1), .call 1 (.pushBack 2), .call 0 (.pushBack 3)]) 0 = [1, 3] := by decide

/-- A copy or clone holds the elements of the original when it is made, but it is the same list: what is done to either of the two
shows in both, until one of them is emptied with `delete()`. -/
theorem C290_copy_fails {α} (h : Heap α) (d s : Nat) :
    content (copy h d s) d = content h s ∧
    ∀ l : List (Bool × Queue.Op α), (∀ x ∈ l, x.2 ≠ .delete (-1)) →
      let h' := l.foldl (fun h x => (call h (if x.1 then d else s) x.2).1) (copy h d s)
      content h' d = content h' s ∧ content h' d = runS Queue.step (content h s) (l.map (·.2)) := by
  refine ⟨by simp [content, copy, upd], ?_⟩
  have key : ∀ (l : List (Bool × Queue.Op α)) (h : Heap α), h.ref d = h.ref s → (∀ x ∈ l, x.2 ≠ .delete (-1)) →
      let h' := l.foldl (fun h x => (call h (if x.1 then d else s) x.2).1) h
      content h' d = content h' s ∧ content h' d = runS Queue.step (content h s) (l.map (·.2)) := by
    intro l
    induction l with
    | nil => intro h e _; simp [content, e]
    | cons x l ih =>
      intro h e hl
      obtain ⟨b, o⟩ := x
      have hne := hl _ (.head _)
      have hcs : content h d = content h s := by unfold content; rw [e]
      have hstep : (call h (if b then d else s) o).1.ref d = (call h (if b then d else s) o).1.ref s ∧
          content (call h (if b then d else s) o).1 s = (Queue.step (content h s) o).1 := by
        rcases call_cases h (if b then d else s) o with ⟨_, _, e3⟩ | ⟨e1, e2, _⟩
        · exact absurd e3 hne
        · refine ⟨by rw [e2]; exact e, ?_⟩
          have hq : h.ref (if b then d else s) = h.ref s := by cases b <;> simp [e]
          have hq' : content h (if b then d else s) = content h s := by unfold content; rw [hq]
          unfold content
          rw [e2, e1, hq, if_pos rfl]
          show (Queue.step (content h (if b then d else s)) o).1 = _
          rw [hq']
          rfl
      have := ih _ hstep.1 (fun x hx => hl x (.tail _ hx))
      simp only [List.foldl_cons, List.map_cons, runS_cons]
      rw [hstep.2] at this
      exact this
  intro l hl
  have := key l (copy h d s) (by simp [copy, upd]) hl
  have e : content (copy h d s) s = content h s := by simp [content, copy, upd]
  rw [e] at this
  exact this

/-- Emptying one of the two separates them. -/
theorem C290_emptied_partial {α} (h : Heap α) (hw : Wf h) (d s : Nat) (hd : d < h.nQueues) (hs : s < h.nQueues) (hne : d ≠ s)
    (ops : List (Queue.Op α)) :
    let h' := ops.foldl (fun h o => (call h d o).1) (call (copy h d s) d (.delete (-1))).1
    content h' s = content h s ∧ content h' d = runS Queue.step [] ops := by
  have h0 : Wf (copy h d s) := wf_copy hw hs
  have hlen : ¬ ((-1 : Int) ≥ (content (copy h d s) d).length ∨ (-1 : Int) < -1) := by omega
  have h1 : (call (copy h d s) d (.delete (-1))).1 = { copy h d s with cell := upd (copy h d s).cell h.nCells [], ref := upd (copy h d s).ref d h.nCells, nCells := h.nCells + 1 } := by
    rcases call_cases (copy h d s) d (.delete (-1)) with ⟨e, _, _⟩ | _
    · exact e
    · simp only [call]; rw [if_neg hlen]; rfl
  have hw1 : Wf (call (copy h d s) d (.delete (-1))).1 := wf_step h0 (.call d (.delete (-1))) hd
  have key : ∀ (ops : List (Queue.Op α)) (g : Heap α), Wf g → g.nQueues = h.nQueues → g.ref s ≠ g.ref d →
      let h' := ops.foldl (fun h o => (call h d o).1) g
      content h' s = content g s ∧ content h' d = runS Queue.step (content g d) ops := by
    intro ops
    induction ops with
    | nil => intro g _ _ _; exact ⟨rfl, rfl⟩
    | cons o ops ih =>
      intro g hg hn hr
      have hr' : (call g d o).1.ref s ≠ (call g d o).1.ref d ∧ (call g d o).1.nQueues = h.nQueues := by
        rcases call_cases g d o with ⟨e, _, _⟩ | ⟨_, e, _, e4⟩
        · rw [e]
          refine ⟨?_, hn⟩
          simp only [upd, if_true]
          rw [if_neg (Ne.symm hne)]
          have := hg s (by omega)
          omega
        · exact ⟨by rw [e]; exact hr, by rw [e4]; exact hn⟩
      have := ih (call g d o).1 (wf_step hg (.call d o) (show d < g.nQueues by omega)) hr'.2 hr'.1
      simp only [List.foldl_cons, runS_cons]
      rw [call_other hg d s (by omega) hr o, (call_self g d o).1] at this
      exact this
  have hsr := hw s hs
  have := key ops (call (copy h d s) d (.delete (-1))).1 hw1 (by rw [h1]; rfl) (by
    rw [h1]; simp only [upd, copy, if_true]; rw [if_neg (Ne.symm hne), if_neg (Ne.symm hne)]; omega)
  simp only at this ⊢
  refine ⟨this.1.trans ?_, this.2.trans ?_⟩
  · rw [h1]
    show upd h.cell h.nCells [] (upd (upd h.ref d (h.ref s)) d h.nCells s) = h.cell (h.ref s)
    have e : upd (upd h.ref d (h.ref s)) d h.nCells s = h.ref s := by
      simp only [upd]; rw [if_neg (Ne.symm hne), if_neg (Ne.symm hne)]
    rw [e]
    simp only [upd]
    rw [if_neg (by omega)]
  · rw [(call_self _ _ _).1]
    show runS Queue.step (Queue.delete _ _).1 ops = _
    unfold Queue.delete
    rw [if_neg hlen]
    rfl

/-- A clone is a new queue with the elements of the original; it is made like a copy. -/
theorem C290_clone_partial {α} (h : Heap α) (hw : Wf h) (s : Nat) (hs : s < h.nQueues) :
    (clone h s).nQueues = h.nQueues + 1 ∧ content (clone h s) h.nQueues = content h s ∧
    (∀ q, q < h.nQueues → content (clone h s) q = content h q) ∧ clone h s = copy (new h) h.nQueues s := by
  have e : ∀ q, q < h.nQueues → (new h).ref q = h.ref q ∧ (new h).cell (h.ref q) = h.cell (h.ref q) := by
    intro q hq
    have := hw q hq
    simp only [new, upd]
    rw [if_neg (by omega), if_neg (by omega)]
    exact ⟨rfl, rfl⟩
  refine ⟨rfl, ?_, fun q hq => ?_, rfl⟩
  · simp only [content, clone, copy]
    rw [show upd (new h).ref h.nQueues ((new h).ref s) h.nQueues = (new h).ref s by simp [upd], (e s hs).1, (e s hs).2]
  · simp only [content, clone, copy]
    rw [show upd (new h).ref h.nQueues ((new h).ref s) q = (new h).ref q by simp only [upd]; rw [if_neg (by omega)], (e q hq).1, (e q hq).2]

example : let h := run (init : Heap Nat) [.new, .call 0 (.pushBack 1), .clone 0, .call 1 (.pushBack 2)]
    content h 0 = [1, 2] ∧ content (run h [.call 1 (.delete (-1)), .call 1 (.pushBack 7)]) 0 = [1, 2] := by decide
example : Wf (run (init : Heap Nat) [.new, .call 0 (.pushBack 1), .clone 0, .new]) := by
  have : ∀ q, q < 3 → (run (init : Heap Nat) [.new, .call 0 (.pushBack 1), .clone 0, .new]).ref q < 3 := by decide
  exact this

/-! ## C291: copies of pools -/

variable {K V : Type} [DecidableEq K]

/-- The clone of a pool is empty, and copying a pool into another changes nothing. -/
theorem C291_copy_fails (mk : Option V) (s t : Pool.State K V) (k : K) :
    (Pool.step mk (cloneP s) .num).2 = .nat 0 ∧ (Pool.step mk (cloneP s) (.exists_ k)).2 = .bool false ∧ copyP t s = t :=
  ⟨rfl, rfl, rfl⟩

example : (Pool.step (none : Option Nat) (runS (Pool.step none) Pool.init [.add 1 2]) (.exists_ 1)).2 = .bool true := by decide

/-! ## C292: printed pools -/

omit [DecidableEq K] in
theorem printLoop_eq (n : Nat) (s : Pool.State K V) (hp : -1 ≤ s.ptr) (hn : s.items.length ≤ n + (s.ptr + 1).toNat) :
    (printLoop n s).2 = ((Pool.keys s.items).drop (s.ptr + 1).toNat).map .key ∧
    (printLoop n s).1 = { s with ptr := max s.ptr ((s.items.length : Int) - 1) } := by
  induction n generalizing s with
  | zero =>
    have h0 : s.items.length ≤ (s.ptr + 1).toNat := by omega
    refine ⟨?_, ?_⟩
    · show [] = _
      rw [List.drop_eq_nil_of_le (by rw [Pool.keys_length]; exact h0)]
      rfl
    · show s = _
      have : max s.ptr ((s.items.length : Int) - 1) = s.ptr := by omega
      rw [this]
  | succ n ih =>
    unfold printLoop
    by_cases hc : s.ptr < (s.items.length : Int) - 1
    · rw [if_pos hc]
      have hnx : Pool.next s = ({ s with ptr := s.ptr + 1 }, Pool.keyAt { s with ptr := s.ptr + 1 } (s.ptr + 1)) := by
        unfold Pool.next; rw [if_pos hc]
      have hlt : (s.ptr + 1).toNat < (Pool.keys s.items).length := by rw [Pool.keys_length]; omega
      have hk : Pool.keyAt ({ s with ptr := s.ptr + 1 } : Pool.State K V) (s.ptr + 1) = .key ((Pool.keys s.items)[(s.ptr + 1).toNat]) := by
        unfold Pool.keyAt
        simp only [show (0 : Int) ≤ s.ptr + 1 by omega, if_true]
        rw [List.getElem?_eq_getElem hlt]
      have hi := ih { s with ptr := s.ptr + 1 } (by simp only; omega) (by simp only; omega)
      simp only [hnx, hk]
      refine ⟨?_, ?_⟩
      · rw [hi.1]
        have e : (s.ptr + 1 + 1).toNat = (s.ptr + 1).toNat + 1 := by omega
        show _ :: List.map _ (List.drop (s.ptr + 1 + 1).toNat _) = _
        rw [e, List.drop_eq_getElem_cons hlt, List.map_cons]
      · rw [hi.2]
        have : max (s.ptr + 1) ((s.items.length : Int) - 1) = max s.ptr ((s.items.length : Int) - 1) := by omega
        simp only [this]
    · rw [if_neg hc]
      refine ⟨?_, ?_⟩
      · rw [List.drop_eq_nil_of_le (by rw [Pool.keys_length]; omega)]
        rfl
      · have : max s.ptr ((s.items.length : Int) - 1) = s.ptr := by omega
        rw [this]

theorem ptr_run (mk : Option V) (ops : List (Pool.Op K V)) (s : Pool.State K V) (h : -1 ≤ s.ptr) : -1 ≤ (runS (Pool.step mk) s ops).ptr := by
  induction ops generalizing s with
  | nil => exact h
  | cons o ops ih =>
    rw [runS_cons]
    apply ih
    cases o with
    | get k =>
      simp only [Pool.step, Pool.get]
      split
      · exact h
      · split <;> exact h
    | delete k => simp only [Pool.step, Pool.delete]; split <;> exact h
    | first => simp only [Pool.step, Pool.first]; split <;> simp_all
    | last => simp only [Pool.step, Pool.last]; split <;> simp_all; omega
    | next => simp only [Pool.step, Pool.next]; split <;> simp_all; omega
    | prev => simp only [Pool.step, Pool.prev]; split <;> simp_all; omega
    | _ => exact h

omit [DecidableEq K] in
theorem printPool_eq (s : Pool.State K V) (hp : -1 ≤ s.ptr) :
    (printPool s).2 = ((Pool.keys s.items).drop (s.ptr + 1).toNat).map .key ∧
    (printPool s).1 = { s with ptr := max s.ptr ((s.items.length : Int) - 1) } :=
  printLoop_eq _ s hp (by omega)

/-- Whatever was done to a pool before: after printing it, printing it again shows nothing, and a walk with `next()` that was under way
is at its end. -/
theorem C292_twice_fails (mk : Option V) (ops : List (Pool.Op K V)) :
    let s := runS (Pool.step mk) Pool.init ops
    (printPool (printPool s).1).2 = [] ∧ (Pool.next (printPool s).1).2 = .nothing := by
  have hp : -1 ≤ (runS (Pool.step mk) (Pool.init : Pool.State K V) ops).ptr := ptr_run mk ops _ (by simp [Pool.init])
  generalize runS (Pool.step mk) (Pool.init : Pool.State K V) ops = s at hp
  have h1 := (printPool_eq s hp).2
  simp only [h1]
  refine ⟨?_, ?_⟩
  · rw [(printPool_eq _ (by simp only; omega)).1, List.drop_eq_nil_of_le (by rw [Pool.keys_length]; simp only; omega)]
    rfl
  · unfold Pool.next
    rw [if_neg (by simp only; omega)]

/-- A pool that has not been walked through or printed is printed with every key once, in the order of insertion; printing does not change
what is in it. -/
theorem C292_first_partial (mk : Option V) (ops : List (Pool.Op K V))
    (hw : ∀ o ∈ ops, o ≠ .first ∧ o ≠ .last ∧ o ≠ .next ∧ o ≠ .prev) :
    let s := runS (Pool.step mk) Pool.init ops
    (printPool s).2 = (Pool.orderOf mk ops.reverse).map .key ∧ (printPool s).1.items = s.items := by
  have hp : (runS (Pool.step mk) (Pool.init : Pool.State K V) ops).ptr = -1 := by
    have : ∀ (ops : List (Pool.Op K V)) (s : Pool.State K V), s.ptr = -1 → (∀ o ∈ ops, o ≠ .first ∧ o ≠ .last ∧ o ≠ .next ∧ o ≠ .prev) →
        (runS (Pool.step mk) s ops).ptr = -1 := by
      intro ops
      induction ops with
      | nil => intro s h _; exact h
      | cons o ops ih =>
        intro s h hw
        rw [runS_cons]
        refine ih _ ?_ (fun x hx => hw x (.tail _ hx))
        have ho := hw o (.head _)
        cases o with
        | get k =>
      simp only [Pool.step, Pool.get]
      split
      · exact h
      · split <;> exact h
        | delete k => simp only [Pool.step, Pool.delete]; split <;> exact h
        | first => exact absurd rfl ho.1
        | last => exact absurd rfl ho.2.1
        | next => exact absurd rfl ho.2.2.1
        | prev => exact absurd rfl ho.2.2.2
        | _ => exact h
    exact this ops _ rfl hw
  have ha := Pool.agrees_run (Pool.agrees_init (K := K) mk) ops
  simp only [List.append_nil] at ha
  have h1 := printPool_eq (runS (Pool.step mk) (Pool.init : Pool.State K V) ops) (by omega)
  refine ⟨?_, ?_⟩
  · show (printPool _).2 = _
    rw [h1.1, hp, ← ha.order]
    rfl
  · show (printPool _).1.items = _
    rw [h1.2]

/-- A pool of named objects is always printed with every key once, in the order of insertion. -/
theorem C292_string_pool_partial (mk : Option V) (ops : List (Pool.Op K V)) :
    let s := runS (Pool.step mk) Pool.init ops
    (printStrPool s).2 = (Pool.orderOf mk ops.reverse).map .key ∧ (printStrPool s).1.items = s.items := by
  have ha := Pool.agrees_run (Pool.agrees_init (K := K) mk) ops
  simp only [List.append_nil] at ha
  show (printStrPool (runS (Pool.step mk) Pool.init ops)).2 = _ ∧ _
  rw [← ha.order]
  generalize runS (Pool.step mk) (Pool.init : Pool.State K V) ops = s
  obtain ⟨items, ptr⟩ := s
  cases items with
  | nil => exact ⟨rfl, rfl⟩
  | cons x items =>
    have h1 := printLoop_eq ((x :: items).length + ptr.natAbs + 1) (⟨x :: items, 0⟩ : Pool.State K V) (by simp) (by simp only; omega)
    have e : Pool.first (⟨x :: items, ptr⟩ : Pool.State K V) = (⟨x :: items, 0⟩, .key x.1) := rfl
    unfold printStrPool
    rw [if_pos (by simp)]
    simp only [e]
    rw [h1.1, h1.2]
    exact ⟨rfl, rfl⟩

example : let s := runS (Pool.step (none : Option Nat)) Pool.init [.add 1 0, .add 2 0, .add 3 0]
    (printPool s).2 = [.key 1, .key 2, .key 3] ∧ (printPool (printPool s).1).2 = [] ∧ (printStrPool (printPool s).1).2 = [.key 1, .key 2, .key 3] := by decide

end Verif.Container
