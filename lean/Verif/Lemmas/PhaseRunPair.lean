import Verif.Lemmas.PhaseRun
/-! # Two parallel task phases: the protocol by which they wait for each other, on its own -/
namespace Verif.PhaseRun.Pair

/-- Position of a task with one sibling.  `pre e`: before its own objections were found dropped (`e`: the user may still raise them). -/
inductive Cl where
  | pre (e : Bool) | startW (b : Bool) | sib (b w : Bool) | sibDrop (b w : Bool) | rte | post | bad
deriving DecidableEq

structure View where
  cp : Cl
  cq : Cl
  sp : St
  sq : St
  ep : Bool
  eq : Bool
  op : Nat
  oq : Nat
  nw : Option Bool      -- whether `p` changed its state after `q`

def View.swap (v : View) : View := ⟨v.cq, v.cp, v.sq, v.sp, v.eq, v.ep, v.oq, v.op, v.nw.map not⟩

def wake : Cl → Cl
  | .sib b _ => .sib b true
  | c => c

def wakeD : Cl → Cl
  | .sibDrop b _ => .sibDrop b true
  | c => c

def clst : Cl → St → Bool
  | .pre _, x => x.code ≤ 16
  | .startW b, x => x == (if b then .readyToEnd else .executing)
  | .sib b _, x => x == .executing || (b && x == .readyToEnd)
  | .sibDrop _ _, x => x == .executing
  | .rte, x => x == .executing
  | .post, x => 64 ≤ x.code
  | .bad, _ => false

def late : Cl → Bool
  | .rte => true
  | .startW b => b
  | .sib b _ => b
  | .sibDrop _ _ => true
  | .post => true
  | .pre _ => false
  | .bad => false

/-- `q` is ready to end, or beyond. -/
def ready (v : View) : Prop := v.cq = .post ∨ (v.sq = .readyToEnd ∧ (v.cq = .startW true ∨ ∃ w, v.cq = .sib true w))

structure PI (v : View) : Prop where
  a : clst v.cp v.sp = true
  b : v.cp = .pre true ∨ v.op = 0
  c : ∀ e, v.cp = .pre e → v.sq = .dormant ∨ v.eq = true
  d : (∃ b, v.cp = .startW b) ∨ (∃ b w, v.cp = .sibDrop b w) → v.eq = true ∨ v.sq.code < 16 ∨ v.nw = some true
  e : ∀ b, v.cp = .sib b false → v.sq.code < 16 ∨ v.nw = some true
  f : late v.cp = true → 16 ≤ v.sq.code
  g : v.cp = .rte ∨ v.cp = .startW true → v.eq = true → ready v
  g' : v.cp = .sib true true → v.sp = .readyToEnd → ready v
  h : v.cp = .post → v.cq = .post ∨ (v.sq = .readyToEnd ∧ ((v.cq = .startW true ∧ v.ep = true) ∨ v.cq = .sib true true))

def VI (v : View) : Prop := PI v ∧ PI v.swap

theorem VI.symm {v : View} (h : VI v) : VI v.swap := by
  refine ⟨h.2, ?_⟩
  have : v.swap.swap = v := by
    cases v with | mk cp cq sp sq ep eq op oq nw => simp [View.swap]; cases nw <;> simp
  rw [this]; exact h.1

/-- What `p` does when it changes its own state. -/
def set (v : View) (x : St) (c : Cl) : View := { v with cp := c, sp := x, ep := true, cq := wake v.cq, nw := some true }

inductive Mv : View → View → Prop
  | id (v) : Mv v v
  | preSet (v x) : v.cp = .pre true → x.code ≤ 16 → v.sp.code < x.code → Mv v (set v x (.pre true))
  | enter (v e) : v.cp = .pre e → v.sp = .executing → v.op = 0 → Mv v { v with cp := .startW false }
  | start (v b) : v.cp = .startW b → Mv v { v with cp := .sib b v.eq }
  | consumeNo (v b) : v.cp = .sib b true → v.sq.code < 16 → Mv v { v with cp := .sib b false, eq := false }
  | consumeDrop (v b) : v.cp = .sib b true → 16 ≤ v.sq.code → v.oq ≠ 0 → Mv v { set v .executing (.sibDrop b false) with eq := false }
  | exitFirst (v) : v.cp = .sib false true → 16 ≤ v.sq.code → v.oq = 0 → Mv v { v with cp := .rte, eq := false }
  | exitAgain (v) : v.cp = .sib true true → 16 ≤ v.sq.code → v.oq = 0 → v.sp = .executing → Mv v { v with cp := .rte, eq := false }
  | exitEnd (v) : v.cp = .sib true true → 16 ≤ v.sq.code → v.oq = 0 → v.sp ≠ .executing → Mv v { set v .ended .post with eq := false }
  | again (v b) : v.cp = .sibDrop b true → Mv v { v with cp := .sib b v.eq }
  | toRte (v) : v.cp = .rte → Mv v (set v .readyToEnd (.startW true))
  | postSet (v x) : v.cp = .post → 64 ≤ x.code → Mv v (set v x .post)
  | raise (v) : v.cp = .pre true → Mv v { v with op := v.op + 1 }
  | drop (v n) : v.cp = .pre true → Mv v { v with op := n }
  | dropped (v c) : (v.cp = .pre true → ∃ e, c = .pre e) → (v.cp ≠ .pre true → c = v.cp) → Mv v { v with cp := c, op := 0 }
  | wakeD (v) : Mv v { v with cq := wakeD v.cq }

theorem wake_eq (c : Cl) : wake c = c ∨ ∃ b w, c = .sib b w ∧ wake c = .sib b true := by cases c <;> simp [wake]
theorem wakeD_eq (c : Cl) : wakeD c = c ∨ ∃ b w, c = .sibDrop b w ∧ wakeD c = .sibDrop b true := by cases c <;> simp [wakeD]

set_option maxHeartbeats 2000000 in
theorem vi_preSet (cp cq : Cl) (sp sq : St) (ep eq : Bool) (op oq : Nat) (nw : Option Bool) (x : St) (hc : cp = .pre true) (hx : x.code ≤ 16) (hd : sp.code < x.code)
    (h : VI ⟨cp, cq, sp, sq, ep, eq, op, oq, nw⟩) :
    VI (set ⟨cp, cq, sp, sq, ep, eq, op, oq, nw⟩ x (.pre true)) := by
  obtain ⟨⟨a1, b1, c1, d1, e1, f1, g1, g1', h1⟩, ⟨a2, b2, c2, d2, e2, f2, g2, g2', h2⟩⟩ := h
  simp only [View.swap] at *
  subst hc; skip
  cases cq <;>
  refine ⟨⟨?_, ?_, ?_, ?_, ?_, ?_, ?_, ?_, ?_⟩, ⟨?_, ?_, ?_, ?_, ?_, ?_, ?_, ?_, ?_⟩⟩ <;>
    simp only [set, View.swap, ready, wake, wakeD] at * <;> grind (splits := 20) [clst, late, St.code]

set_option maxHeartbeats 2000000 in
theorem vi_enter (cp cq : Cl) (sp sq : St) (ep eq : Bool) (op oq : Nat) (nw : Option Bool) (e : Bool) (hc : cp = .pre e) (hs : sp = .executing) (ho : op = 0)
    (h : VI ⟨cp, cq, sp, sq, ep, eq, op, oq, nw⟩) :
    VI ⟨.startW false, cq, sp, sq, ep, eq, op, oq, nw⟩ := by
  obtain ⟨⟨a1, b1, c1, d1, e1, f1, g1, g1', h1⟩, ⟨a2, b2, c2, d2, e2, f2, g2, g2', h2⟩⟩ := h
  simp only [View.swap] at *
  subst hc; subst hs; subst ho
  cases cq <;>
  refine ⟨⟨?_, ?_, ?_, ?_, ?_, ?_, ?_, ?_, ?_⟩, ⟨?_, ?_, ?_, ?_, ?_, ?_, ?_, ?_, ?_⟩⟩ <;>
    simp only [set, View.swap, ready, wake, wakeD] at * <;> grind (splits := 20) [clst, late, St.code]

set_option maxHeartbeats 2000000 in
theorem vi_start (cp cq : Cl) (sp sq : St) (ep eq : Bool) (op oq : Nat) (nw : Option Bool) (b : Bool) (hc : cp = .startW b)
    (h : VI ⟨cp, cq, sp, sq, ep, eq, op, oq, nw⟩) :
    VI ⟨.sib b eq, cq, sp, sq, ep, eq, op, oq, nw⟩ := by
  obtain ⟨⟨a1, b1, c1, d1, e1, f1, g1, g1', h1⟩, ⟨a2, b2, c2, d2, e2, f2, g2, g2', h2⟩⟩ := h
  simp only [View.swap] at *
  subst hc; cases eq <;> cases b <;>
  cases cq <;>
  refine ⟨⟨?_, ?_, ?_, ?_, ?_, ?_, ?_, ?_, ?_⟩, ⟨?_, ?_, ?_, ?_, ?_, ?_, ?_, ?_, ?_⟩⟩ <;>
    simp only [set, View.swap, ready, wake, wakeD] at * <;> grind (splits := 20) [clst, late, St.code]

set_option maxHeartbeats 2000000 in
theorem vi_consumeNo (cp cq : Cl) (sp sq : St) (ep eq : Bool) (op oq : Nat) (nw : Option Bool) (b : Bool) (hc : cp = .sib b true) (hs : sq.code < 16)
    (h : VI ⟨cp, cq, sp, sq, ep, eq, op, oq, nw⟩) :
    VI ⟨.sib b false, cq, sp, sq, ep, false, op, oq, nw⟩ := by
  obtain ⟨⟨a1, b1, c1, d1, e1, f1, g1, g1', h1⟩, ⟨a2, b2, c2, d2, e2, f2, g2, g2', h2⟩⟩ := h
  simp only [View.swap] at *
  subst hc
  cases cq <;>
  refine ⟨⟨?_, ?_, ?_, ?_, ?_, ?_, ?_, ?_, ?_⟩, ⟨?_, ?_, ?_, ?_, ?_, ?_, ?_, ?_, ?_⟩⟩ <;>
    simp only [set, View.swap, ready, wake, wakeD] at * <;> grind (splits := 20) [clst, late, St.code]

set_option maxHeartbeats 2000000 in
theorem vi_consumeDrop (cp cq : Cl) (sp sq : St) (ep eq : Bool) (op oq : Nat) (nw : Option Bool) (b : Bool) (hc : cp = .sib b true) (hs : 16 ≤ sq.code) (ho : oq ≠ 0)
    (h : VI ⟨cp, cq, sp, sq, ep, eq, op, oq, nw⟩) :
    VI { set ⟨cp, cq, sp, sq, ep, eq, op, oq, nw⟩ .executing (.sibDrop b false) with eq := false } := by
  obtain ⟨⟨a1, b1, c1, d1, e1, f1, g1, g1', h1⟩, ⟨a2, b2, c2, d2, e2, f2, g2, g2', h2⟩⟩ := h
  simp only [View.swap] at *
  subst hc
  cases cq <;>
  refine ⟨⟨?_, ?_, ?_, ?_, ?_, ?_, ?_, ?_, ?_⟩, ⟨?_, ?_, ?_, ?_, ?_, ?_, ?_, ?_, ?_⟩⟩ <;>
    simp only [set, View.swap, ready, wake, wakeD] at * <;> grind (splits := 20) [clst, late, St.code]

set_option maxHeartbeats 2000000 in
theorem vi_exitFirst (cp cq : Cl) (sp sq : St) (ep eq : Bool) (op oq : Nat) (nw : Option Bool) (hc : cp = .sib false true) (hs : 16 ≤ sq.code) (ho : oq = 0)
    (h : VI ⟨cp, cq, sp, sq, ep, eq, op, oq, nw⟩) :
    VI ⟨.rte, cq, sp, sq, ep, false, op, oq, nw⟩ := by
  obtain ⟨⟨a1, b1, c1, d1, e1, f1, g1, g1', h1⟩, ⟨a2, b2, c2, d2, e2, f2, g2, g2', h2⟩⟩ := h
  simp only [View.swap] at *
  subst hc; subst ho
  cases cq <;>
  refine ⟨⟨?_, ?_, ?_, ?_, ?_, ?_, ?_, ?_, ?_⟩, ⟨?_, ?_, ?_, ?_, ?_, ?_, ?_, ?_, ?_⟩⟩ <;>
    simp only [set, View.swap, ready, wake, wakeD] at * <;> grind (splits := 20) [clst, late, St.code]

set_option maxHeartbeats 2000000 in
theorem vi_exitAgain (cp cq : Cl) (sp sq : St) (ep eq : Bool) (op oq : Nat) (nw : Option Bool) (hc : cp = .sib true true) (hs : 16 ≤ sq.code) (ho : oq = 0) (hx : sp = .executing)
    (h : VI ⟨cp, cq, sp, sq, ep, eq, op, oq, nw⟩) :
    VI ⟨.rte, cq, sp, sq, ep, false, op, oq, nw⟩ := by
  obtain ⟨⟨a1, b1, c1, d1, e1, f1, g1, g1', h1⟩, ⟨a2, b2, c2, d2, e2, f2, g2, g2', h2⟩⟩ := h
  simp only [View.swap] at *
  subst hc; subst ho; subst hx
  cases cq <;>
  refine ⟨⟨?_, ?_, ?_, ?_, ?_, ?_, ?_, ?_, ?_⟩, ⟨?_, ?_, ?_, ?_, ?_, ?_, ?_, ?_, ?_⟩⟩ <;>
    simp only [set, View.swap, ready, wake, wakeD] at * <;> grind (splits := 20) [clst, late, St.code]

set_option maxHeartbeats 2000000 in
theorem vi_exitEnd (cp cq : Cl) (sp sq : St) (ep eq : Bool) (op oq : Nat) (nw : Option Bool) (hc : cp = .sib true true) (hs : 16 ≤ sq.code) (ho : oq = 0) (hx : sp ≠ .executing)
    (h : VI ⟨cp, cq, sp, sq, ep, eq, op, oq, nw⟩) :
    VI { set ⟨cp, cq, sp, sq, ep, eq, op, oq, nw⟩ .ended .post with eq := false } := by
  obtain ⟨⟨a1, b1, c1, d1, e1, f1, g1, g1', h1⟩, ⟨a2, b2, c2, d2, e2, f2, g2, g2', h2⟩⟩ := h
  simp only [View.swap] at *
  subst hc; subst ho
  cases cq <;>
  refine ⟨⟨?_, ?_, ?_, ?_, ?_, ?_, ?_, ?_, ?_⟩, ⟨?_, ?_, ?_, ?_, ?_, ?_, ?_, ?_, ?_⟩⟩ <;>
    simp only [set, View.swap, ready, wake, wakeD] at * <;> grind (splits := 20) [clst, late, St.code]

set_option maxHeartbeats 2000000 in
theorem vi_again (cp cq : Cl) (sp sq : St) (ep eq : Bool) (op oq : Nat) (nw : Option Bool) (b : Bool) (hc : cp = .sibDrop b true)
    (h : VI ⟨cp, cq, sp, sq, ep, eq, op, oq, nw⟩) :
    VI ⟨.sib b eq, cq, sp, sq, ep, eq, op, oq, nw⟩ := by
  obtain ⟨⟨a1, b1, c1, d1, e1, f1, g1, g1', h1⟩, ⟨a2, b2, c2, d2, e2, f2, g2, g2', h2⟩⟩ := h
  simp only [View.swap] at *
  subst hc; cases eq <;>
  cases cq <;>
  refine ⟨⟨?_, ?_, ?_, ?_, ?_, ?_, ?_, ?_, ?_⟩, ⟨?_, ?_, ?_, ?_, ?_, ?_, ?_, ?_, ?_⟩⟩ <;>
    simp only [set, View.swap, ready, wake, wakeD] at * <;> grind (splits := 20) [clst, late, St.code]

set_option maxHeartbeats 2000000 in
theorem vi_toRte (cp cq : Cl) (sp sq : St) (ep eq : Bool) (op oq : Nat) (nw : Option Bool) (hc : cp = .rte)
    (h : VI ⟨cp, cq, sp, sq, ep, eq, op, oq, nw⟩) :
    VI (set ⟨cp, cq, sp, sq, ep, eq, op, oq, nw⟩ .readyToEnd (.startW true)) := by
  obtain ⟨⟨a1, b1, c1, d1, e1, f1, g1, g1', h1⟩, ⟨a2, b2, c2, d2, e2, f2, g2, g2', h2⟩⟩ := h
  simp only [View.swap] at *
  subst hc; skip
  cases cq <;>
  refine ⟨⟨?_, ?_, ?_, ?_, ?_, ?_, ?_, ?_, ?_⟩, ⟨?_, ?_, ?_, ?_, ?_, ?_, ?_, ?_, ?_⟩⟩ <;>
    simp only [set, View.swap, ready, wake, wakeD] at * <;> grind (splits := 20) [clst, late, St.code]

set_option maxHeartbeats 2000000 in
theorem vi_postSet (cp cq : Cl) (sp sq : St) (ep eq : Bool) (op oq : Nat) (nw : Option Bool) (x : St) (hc : cp = .post) (hx : 64 ≤ x.code)
    (h : VI ⟨cp, cq, sp, sq, ep, eq, op, oq, nw⟩) :
    VI (set ⟨cp, cq, sp, sq, ep, eq, op, oq, nw⟩ x .post) := by
  obtain ⟨⟨a1, b1, c1, d1, e1, f1, g1, g1', h1⟩, ⟨a2, b2, c2, d2, e2, f2, g2, g2', h2⟩⟩ := h
  simp only [View.swap] at *
  subst hc
  cases cq <;>
  refine ⟨⟨?_, ?_, ?_, ?_, ?_, ?_, ?_, ?_, ?_⟩, ⟨?_, ?_, ?_, ?_, ?_, ?_, ?_, ?_, ?_⟩⟩ <;>
    simp only [set, View.swap, ready, wake, wakeD] at * <;> grind (splits := 20) [clst, late, St.code]

set_option maxHeartbeats 2000000 in
theorem vi_objs (cp cq : Cl) (sp sq : St) (ep eq : Bool) (op oq : Nat) (nw : Option Bool) (n : Nat) (hc : cp = .pre true)
    (h : VI ⟨cp, cq, sp, sq, ep, eq, op, oq, nw⟩) :
    VI ⟨cp, cq, sp, sq, ep, eq, n, oq, nw⟩ := by
  obtain ⟨⟨a1, b1, c1, d1, e1, f1, g1, g1', h1⟩, ⟨a2, b2, c2, d2, e2, f2, g2, g2', h2⟩⟩ := h
  simp only [View.swap] at *
  subst hc
  cases cq <;>
  refine ⟨⟨?_, ?_, ?_, ?_, ?_, ?_, ?_, ?_, ?_⟩, ⟨?_, ?_, ?_, ?_, ?_, ?_, ?_, ?_, ?_⟩⟩ <;>
    simp only [set, View.swap, ready, wake, wakeD] at * <;> grind (splits := 20) [clst, late, St.code]

set_option maxHeartbeats 2000000 in
theorem vi_dropped (cp cq : Cl) (sp sq : St) (ep eq : Bool) (op oq : Nat) (nw : Option Bool) (e : Bool) (hc : cp = .pre true)
    (h : VI ⟨cp, cq, sp, sq, ep, eq, op, oq, nw⟩) :
    VI ⟨.pre e, cq, sp, sq, ep, eq, 0, oq, nw⟩ := by
  obtain ⟨⟨a1, b1, c1, d1, e1, f1, g1, g1', h1⟩, ⟨a2, b2, c2, d2, e2, f2, g2, g2', h2⟩⟩ := h
  simp only [View.swap] at *
  subst hc
  cases cq <;>
  refine ⟨⟨?_, ?_, ?_, ?_, ?_, ?_, ?_, ?_, ?_⟩, ⟨?_, ?_, ?_, ?_, ?_, ?_, ?_, ?_, ?_⟩⟩ <;>
    simp only [set, View.swap, ready, wake, wakeD] at * <;> grind (splits := 20) [clst, late, St.code]

set_option maxHeartbeats 2000000 in
theorem vi_droppedSame (cp cq : Cl) (sp sq : St) (ep eq : Bool) (op oq : Nat) (nw : Option Bool) 
    (h : VI ⟨cp, cq, sp, sq, ep, eq, op, oq, nw⟩) :
    VI ⟨cp, cq, sp, sq, ep, eq, 0, oq, nw⟩ := by
  obtain ⟨⟨a1, b1, c1, d1, e1, f1, g1, g1', h1⟩, ⟨a2, b2, c2, d2, e2, f2, g2, g2', h2⟩⟩ := h
  simp only [View.swap] at *
  skip
  cases cq <;>
  refine ⟨⟨?_, ?_, ?_, ?_, ?_, ?_, ?_, ?_, ?_⟩, ⟨?_, ?_, ?_, ?_, ?_, ?_, ?_, ?_, ?_⟩⟩ <;>
    simp only [set, View.swap, ready, wake, wakeD] at * <;> grind (splits := 20) [clst, late, St.code]

set_option maxHeartbeats 2000000 in
theorem vi_wakeD (cp cq : Cl) (sp sq : St) (ep eq : Bool) (op oq : Nat) (nw : Option Bool) 
    (h : VI ⟨cp, cq, sp, sq, ep, eq, op, oq, nw⟩) :
    VI ⟨cp, wakeD cq, sp, sq, ep, eq, op, oq, nw⟩ := by
  obtain ⟨⟨a1, b1, c1, d1, e1, f1, g1, g1', h1⟩, ⟨a2, b2, c2, d2, e2, f2, g2, g2', h2⟩⟩ := h
  simp only [View.swap] at *
  skip
  cases cq <;>
  refine ⟨⟨?_, ?_, ?_, ?_, ?_, ?_, ?_, ?_, ?_⟩, ⟨?_, ?_, ?_, ?_, ?_, ?_, ?_, ?_, ?_⟩⟩ <;>
    simp only [set, View.swap, ready, wake, wakeD] at * <;> grind (splits := 20) [clst, late, St.code]

end Verif.PhaseRun.Pair
