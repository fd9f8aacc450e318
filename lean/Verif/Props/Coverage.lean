import Verif.Lemmas.Coverage
import Verif.Props.RegBlock
/-!
# C229 – C232: functional coverage control
-/
namespace Verif.Coverage
open Verif.RegBlock (State Below Legal Tree Good)

/-- C229.  Build a register model, add coverage models and turn measurement on and off, at any node, in any order.  Then
`has_coverage` of any node answers true exactly if all models named are present there, and `get_coverage` exactly if all
models named are on there: those that the last `set_coverage` of it or of a block around it named and that were present. -/
theorem C229_coverage (nm : Nat → String) (h : Node → Int) (ops : List Op) (hl : LegalOps (RegBlock.init nm) ops) :
    ∃ N s c, (∀ n, N ≤ n → run n (RegBlock.init nm, init h) ops = some (s, c)) ∧
      ∀ y m, (has c y m = true ↔ AllNamed m ((want (RegBlock.init nm) (wantInit h) ops).has y)) ∧
        (get c y m = true ↔ AllNamed m ((want (RegBlock.init nm) (wantInit h) ops).on y)) := by
  obtain ⟨N, s, c, hr, ha, hs⟩ := run_agree ops (RegBlock.init nm) (init h) (wantInit h) (RegBlock.good_init nm) hl
    ⟨fun _ _ => Iff.rfl, fun y k => by simp [init, wantInit, names_zero]⟩ (fun y k hk => absurd hk (names_zero k))
  refine ⟨N, s, c, hr, fun y m => ?_⟩
  have h1 : has c y m = true ↔ AllNamed m ((want (RegBlock.init nm) (wantInit h) ops).has y) := by
    unfold has
    rw [land_eq_iff]
    exact forall_congr' fun k => imp_congr_right fun _ => ha.has y k
  refine ⟨h1, ?_⟩
  have h2 : (Int.land (c.on y) m == m) = true ↔ AllNamed m ((want (RegBlock.init nm) (wantInit h) ops).on y) := by
    rw [land_eq_iff]
    exact forall_congr' fun k => imp_congr_right fun _ => ha.on y k
  unfold get
  by_cases hb : has c y m = true
  · rw [if_pos hb]; exact h2
  · rw [if_neg hb]
    constructor
    · intro hf; cases hf
    · intro hon
      refine absurd ?_ hb
      unfold has
      rw [land_eq_iff]
      intro k hk
      exact hs y k ((ha.on y k).mpr (hon k hk))

/-- A register 7 in a sub-block 1 of block 0.  The register has models 1 and 4, the blocks all. -/
def demoOps : List Op := [.tree (.new "top"), .tree (.new "sub"), .tree (.configure 1 (some 0)), .tree (.reg 7 1), .set (.blk 0) 3, .add (.reg 7) 2]

/-- What each was given at construction. -/
def demoHas : Node → Int
  | .blk _ => -1
  | _ => 5

theorem demo_legal : LegalOps (RegBlock.init toString) demoOps := by
  refine ⟨trivial, trivial, ⟨by decide, ?_, ?_⟩, ⟨by decide, ?_⟩, trivial⟩
  · intro b; simp [RegBlock.init, RegBlock.step, RegBlock.new, RegBlock.upd]; repeat' split
    all_goals simp
  · intro q hq
    cases hq
    refine ⟨by decide, fun hb => ?_⟩
    have := RegBlock.below_leaf (by rfl) hb
    exact absurd this (by decide)
  · intro b
    simp [RegBlock.init, RegBlock.step, RegBlock.new, RegBlock.configure, RegBlock.addBlock, RegBlock.upd]
    repeat' split
    all_goals simp

example : (run 5 (RegBlock.init toString, init demoHas) demoOps).map (fun t => (get t.2 (.reg 7) 1, get t.2 (.reg 7) 2, get t.2 (.reg 7) 4,
    has t.2 (.reg 7) 7, get t.2 (.blk 1) 3, get t.2 (.blk 1) (-1))) = some (true, false, false, true, true, false) := by decide +kernel

/-- C230.  `set_coverage` is documented to return the models whose measurement was on before.  It does not: turning
coverage off when a model was on returns nothing. -/
theorem C230_returns_previous_fails : ∃ (c : Cov) (x : Node) (m : Int) (c' : Cov) (v : Int),
    set (RegBlock.init toString) 1 c x m = some (c', v) ∧ v ≠ c.on x ∧ (∃ k, Names (c.on x) k) := by
  refine ⟨⟨fun _ => 1, fun _ => 1⟩, .reg 0, 0, _, 0, rfl, by decide, 0, by unfold Names; decide⟩

/-- C230, what holds: it returns the models that are on now. -/
theorem C230_returns_now_partial (s : State) (n : Nat) (c : Cov) (x : Node) (m : Int) (c' : Cov) (v : Int)
    (h : set s n c x m = some (c', v)) : v = c'.on x := by
  cases x with
  | blk b =>
    simp only [set, Option.map_eq_some_iff] at h
    obtain ⟨a, _, h⟩ := h
    cases h; rfl
  | reg r =>
    simp only [set, setItem] at h
    split at h <;> cases h <;> simp [upd]
  | mem r =>
    simp only [set, setItem] at h
    split at h <;> cases h <;> simp [upd]

example : (set (RegBlock.init toString) 1 ⟨fun _ => 5, fun _ => 1⟩ (.blk 0) 6).map (fun r => (r.1.on (.blk 0), r.2)) = some (4, 4) := by decide +kernel

/-- C231.  `sample_values` of a block calls `sample_values` of every register and every block within it, each once, and of
nothing else. -/
theorem C231_sample_values (nm : Nat → String) (ops : List RegBlock.Op) (h : RegBlock.History nm ops) (b : Nat) :
    ∃ N rs bs, (∀ n, N ≤ n → sampleRegs (RegBlock.run (RegBlock.init nm) ops) n b = some rs ∧
        sampleBlks (RegBlock.run (RegBlock.init nm) ops) n b = some bs) ∧
      rs.Nodup ∧ bs.Nodup ∧
      (∀ r, r ∈ rs ↔ ∃ d, Below (RegBlock.run (RegBlock.init nm) ops) b d ∧ r ∈ ((RegBlock.run (RegBlock.init nm) ops).blk d).regs) ∧
      (∀ d, d ∈ bs ↔ Below (RegBlock.run (RegBlock.init nm) ops) b d) := by
  have g := RegBlock.good_run ops (RegBlock.good_init nm) h
  generalize RegBlock.run (RegBlock.init nm) ops = s at *
  obtain ⟨L, rank, hr, hw, hL⟩ := RegBlock.walk_total g.tree (fun b => (s.blk b).regs)
  obtain ⟨L', rank', hr', hw', hL'⟩ := RegBlock.walk_total g.tree (fun b => [b])
  refine ⟨max (rank b + 1) (rank' b + 1), L b, L' b, fun n hn => ⟨?_, ?_⟩, ?_, ?_, ?_, ?_⟩
  · rw [sampleRegs_walk]; exact hw b n (by omega)
  · rw [sampleBlks_walk]; exact hw' b n (by omega)
  · exact RegBlock.walk_nodup g.tree hr hL g.tree.regsN g.tree.regs b
  · exact RegBlock.walk_nodup g.tree hr' hL' (fun _ => by simp) (fun b b' a h1 h2 => by simp at h1 h2; rw [← h1, ← h2]) b
  · exact fun r => RegBlock.walk_mem hr hL r b
  · intro d
    rw [RegBlock.walk_mem hr' hL' d b]
    simp

example : sampleRegs (RegBlock.run (RegBlock.init toString) RegBlock.demo) 5 0 = some [10, 11, 12] ∧
    sampleBlks (RegBlock.run (RegBlock.init toString) RegBlock.demo) 5 0 = some [0, 1, 2] := by decide

/-- C232.  A block's `sample` is documented to be called whenever an address within one of its maps is successfully
accessed.  A register in a sub-block lies in the maps of the outer blocks too, but no access of it ever samples them. -/
theorem C232_outer_sampled_fails (nm : Nat → String) (ops : List RegBlock.Op) (_h : RegBlock.History nm ops) (top b : Nat) (auto ok : Bool)
    (hb : Below (RegBlock.run (RegBlock.init nm) ops) top b) (hne : top ≠ b) :
    top ∉ accessSamples (RegBlock.run (RegBlock.init nm) ops) auto ok b := by
  generalize RegBlock.run (RegBlock.init nm) ops = s at *
  unfold accessSamples xsample
  cases auto <;> cases ok <;> simp
  split <;> simpa using hne

example : Below (RegBlock.run (RegBlock.init toString) RegBlock.demo) 0 1 := .sub .refl (by decide)

/-- C232, what holds: with automatic prediction, a successful access samples the register's own block, once; a failed
access samples nothing. -/
theorem C232_own_block_partial (s : State) (b : Nat) : accessSamples s true true b = [b] ∧ accessSamples s true false b = [] := by
  unfold accessSamples xsample
  constructor
  · simp; split <;> rfl
  · rfl

/-- C233.  `build_coverage` tells which of the models must be built.  When no `include_coverage` covers the object (no
resource is found) none must; but then it raises. -/
theorem C233_nothing_included_fails : ∀ models, build none models ≠ some 0 := fun _ h => nomatch h

/-- C233, what holds: with something included, it returns exactly the models both included and asked about. -/
theorem C233_included_partial (incl models : Int) : ∃ v, build (some incl) models = some v ∧ ∀ k, Names v k ↔ Names incl k ∧ Names models k :=
  ⟨_, rfl, fun k => by simp [Names, Int.testBit_land]⟩

example : build (some (-1)) 5 = some 5 := by decide +kernel

end Verif.Coverage
