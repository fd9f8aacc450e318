import Verif.Lemmas.RegSystem
/-!
# C323, C324: the registers of a block on a bus

C323: whatever is done with the registers of a map whose words have distinct addresses in a memory-like device, everything the user
sees is what they would see if each register were one variable: bus width, splitting, endianness and order of the accesses do not show,
and registers do not disturb one another.
C324: what a read returns is what was last written, every status is OK, and the mirrors follow the device.
-/
namespace Verif.RegSystem
open Verif.Reg Verif.RegField Verif.RegAccess Verif.RegMap

/-! ## C323 -/

/-- C323. For every number of registers, policies, hooks, map settings and histories: running on the bus and running on one variable per register
raise together, show the callers the same and leave the same register models; each variable is what the words of its register hold, and no other
address is touched. -/
theorem C323_as_variables {n : Nat} (order : Order) (ho : Reorders order) (w : Nat) (hw : 1 ≤ w) (ports : Fin n → Port) (hA : Apart ports)
    (regs : Fin n → Reg) (s : Nat → Nat) (hs : WordMem w s) (ops : List (Fin n × RegAccess.Op)) :
    let bits := fun i => 8 * w * (ports i).addrs.length
    let m : Fin n → Nat := fun i => contents w s (ports i).addrs
    (run ports (onBus memBus order w ports) ⟨regs, s⟩ ops = none ↔ run ports (variables bits) ⟨regs, m⟩ ops = none) ∧
    ∀ st outs, run ports (onBus memBus order w ports) ⟨regs, s⟩ ops = some (st, outs) →
      ∃ m', run ports (variables bits) ⟨regs, m⟩ ops = some (⟨st.regs, m'⟩, outs) ∧
        (∀ i, m' i = contents w st.dev (ports i).addrs) ∧
        ∀ a, (∀ i, a ∉ (ports i).addrs) → st.dev a = s a := by
  intro bits m
  have h := run_alike (fun i r => onBus_alike ho hw hA s i r) ports ops regs s m ⟨hs, fun _ => rfl, fun _ _ => rfl⟩
  refine ⟨?_, ?_⟩
  · generalize run ports (onBus memBus order w ports) ⟨regs, s⟩ ops = x at h
    generalize hy : run ports (variables bits) ⟨regs, m⟩ ops = y
    rw [hy] at h
    cases h <;> simp
  · intro st outs hrun
    rw [hrun] at h
    generalize hy : run ports (variables bits) ⟨regs, m⟩ ops = y
    rw [hy] at h
    cases h with
    | @some _ b q =>
      obtain ⟨⟨r', m'⟩, o'⟩ := b
      obtain ⟨q1, q2, q3⟩ := q
      simp only at q1 q2 q3
      subst q1 q2
      exact ⟨m', rfl, fun i => (q3.vars i).symm, q3.rest⟩

/-- C323. The transaction order policy does not show: with any two of them the same history gives the same, down to the contents of every address. -/
theorem C323_order_irrelevant {n : Nat} (o1 o2 : Order) (h1 : Reorders o1) (h2 : Reorders o2) (w : Nat) (hw : 1 ≤ w) (ports : Fin n → Port)
    (hA : Apart ports) (regs : Fin n → Reg) (s : Nat → Nat) (hs : WordMem w s) (ops : List (Fin n × RegAccess.Op)) :
    run ports (onBus memBus o1 w ports) ⟨regs, s⟩ ops = run ports (onBus memBus o2 w ports) ⟨regs, s⟩ ops := by
  have a := run_alike (fun i r => onBus_alike h1 hw hA s i r) ports ops regs s (fun i => contents w s (ports i).addrs) ⟨hs, fun _ => rfl, fun _ _ => rfl⟩
  have b := run_alike (fun i r => onBus_alike h2 hw hA s i r) ports ops regs s (fun i => contents w s (ports i).addrs) ⟨hs, fun _ => rfl, fun _ _ => rfl⟩
  generalize run ports (onBus memBus o1 w ports) ⟨regs, s⟩ ops = x at a
  generalize run ports (onBus memBus o2 w ports) ⟨regs, s⟩ ops = y at b
  generalize run ports (variables _) _ ops = z at a b
  cases a with
  | none => cases b; rfl
  | @some x u q =>
    cases b with
    | @some y _ q' =>
      obtain ⟨⟨xr, xd⟩, xo⟩ := x
      obtain ⟨⟨yr, yd⟩, yo⟩ := y
      obtain ⟨e1, e2, e3⟩ := q
      obtain ⟨f1, f2, f3⟩ := q'
      simp only at e1 e2 e3 f1 f2 f3
      have hd : xd = yd := by
        funext c
        by_cases hc : ∃ i, c ∈ (ports i).addrs
        · obtain ⟨i, hi⟩ := hc
          obtain ⟨j, hj, rfl⟩ := List.getElem_of_mem hi
          rw [contents_word e3.mem _ j hj, contents_word f3.mem _ j hj, e3.vars i, f3.vars i]
        · have hc' : ∀ i, c ∉ (ports i).addrs := fun i hi => hc ⟨i, hi⟩
          rw [e3.rest c hc', f3.rest c hc']
      subst hd
      rw [e1, e2, f1, f2]

/-- What was seen by the callers of the operations on register `i`. -/
def seenOf {n : Nat} (i : Fin n) : List (Fin n × RegAccess.Op) → List Out → List Out
  | op :: ops, o :: outs => if op.1 = i then o :: seenOf i ops outs else seenOf i ops outs
  | _, _ => []

/-- Devices where register `i` sees only its own part. -/
theorem variables_local {n : Nat} (bits : Fin n → Nat) (i : Fin n) (r : Reg) :
    Alike (fun m m' : Fin n → Nat => m i = m' i) (variables bits i r) (variables bits i r) := by
  constructor
  · intro s t v _; simp [variables]
  · intro s t h; exact ⟨by simp [variables, h], h⟩

theorem variables_other {n : Nat} (bits : Fin n → Nat) {i j : Fin n} (hij : j ≠ i) (p : Port) (r : Reg) (m : Fin n → Nat) (op : RegAccess.Op)
    {q : Reg × (Fin n → Nat) × Out} (h : access p (variables bits j r) r m op = some q) : q.2.1 i = m i := by
  have ha : Alike (fun m1 m2 : Fin n → Nat => m1 = m2 ∧ m1 i = m i) (variables bits j r) (variables bits j r) := by
    constructor
    · intro s t v hst
      have : ¬ i = j := fun h => hij h.symm
      simp only [variables, this, if_false, hst.1]
      exact ⟨trivial, trivial, hst.1 ▸ hst.2⟩
    · intro s t hst
      simp only [variables, hst.1]
      exact ⟨trivial, trivial, hst.1 ▸ hst.2⟩
  have := access_alike ha p r m m ⟨rfl, rfl⟩ op
  rw [h] at this
  cases this with
  | some q => exact q.2.2.2

theorem filter_run {n : Nat} (bits : Fin n → Nat) (ports : Fin n → Port) (i : Fin n) (ops : List (Fin n × RegAccess.Op))
    (regs regs' : Fin n → Reg) (m m' : Fin n → Nat) (hr : regs i = regs' i) (hm : m i = m' i) (st : State n (Fin n → Nat)) (outs : List Out)
    (h : run ports (variables bits) ⟨regs, m⟩ ops = some (st, outs)) :
    ∃ st', run ports (variables bits) ⟨regs', m'⟩ (ops.filter fun op => decide (op.1 = i)) = some (st', seenOf i ops outs) ∧
      st'.regs i = st.regs i ∧ st'.dev i = st.dev i := by
  induction ops generalizing regs regs' m m' outs with
  | nil =>
    simp only [run, Option.some.injEq, Prod.mk.injEq] at h
    obtain ⟨rfl, rfl⟩ := h
    exact ⟨_, rfl, hr.symm, hm.symm⟩
  | cons op ops ih =>
    simp only [run, step] at h
    cases hq : access (ports op.1) (variables bits op.1 (regs op.1)) (regs op.1) m op.2 with
    | none => simp [hq] at h
    | some q =>
      simp only [hq, Option.map_some] at h
      obtain ⟨⟨st2, outs2⟩, h2, h3⟩ := Option.map_eq_some_iff.1 h
      simp only [Prod.mk.injEq] at h3
      obtain ⟨rfl, rfl⟩ := h3
      by_cases hi : op.1 = i
      · have ha := access_alike (variables_local bits i (regs i)) (ports i) (regs i) m m' hm op.2
        rw [← hi, hq] at ha
        generalize hy : access (ports op.1) (variables bits op.1 (regs op.1)) (regs op.1) m' op.2 = y at ha
        cases ha with
        | @some _ b z =>
          obtain ⟨z1, z2, z3⟩ := z
          obtain ⟨st', e1, e2, e3⟩ := ih _ (fun j => if j = op.1 then b.1 else regs' j) q.2.1 b.2.1 (by simp [hi, z1]) (hi ▸ z3) outs2 h2
          refine ⟨st', ?_, e2, e3⟩
          rw [List.filter_cons_of_pos (by simp [hi])]
          simp only [run, step]
          rw [← hi] at hr
          rw [← hr, hy]
          simp only [Option.map_some]
          rw [e1]
          simp [seenOf, hi, z2]
      · obtain ⟨st', e1, e2, e3⟩ := ih _ regs' q.2.1 m' (by simp [show ¬ i = op.1 from fun h => hi h.symm, hr])
          (by rw [variables_other bits hi _ _ _ _ hq, hm]) outs2 h2
        refine ⟨st', ?_, e2, e3⟩
        rw [List.filter_cons_of_neg (by simp [hi])]
        simpa [seenOf, hi] using e1

/-- C323. Registers do not disturb one another: leave out of a history all operations on other registers, and the callers of the operations on
register `i` see exactly the same, its model ends the same and its words hold the same. -/
theorem C323_no_interference {n : Nat} (order : Order) (ho : Reorders order) (w : Nat) (hw : 1 ≤ w) (ports : Fin n → Port) (hA : Apart ports)
    (regs : Fin n → Reg) (s : Nat → Nat) (hs : WordMem w s) (ops : List (Fin n × RegAccess.Op)) (st : State n (Nat → Nat)) (outs : List Out)
    (h : run ports (onBus memBus order w ports) ⟨regs, s⟩ ops = some (st, outs)) (i : Fin n) :
    ∃ st', run ports (onBus memBus order w ports) ⟨regs, s⟩ (ops.filter fun op => decide (op.1 = i)) = some (st', seenOf i ops outs) ∧
      st'.regs i = st.regs i ∧ ∀ a ∈ (ports i).addrs, st'.dev a = st.dev a := by
  obtain ⟨m', e1, e2, _⟩ := (C323_as_variables order ho w hw ports hA regs s hs ops).2 st outs h
  obtain ⟨st1, f1, f2, f3⟩ := filter_run _ ports i ops regs regs _ _ rfl rfl _ _ e1
  have a := run_alike (fun i r => onBus_alike ho hw hA s i r) ports (ops.filter fun op => decide (op.1 = i)) regs s
    (fun i => contents w s (ports i).addrs) ⟨hs, fun _ => rfl, fun _ _ => rfl⟩
  have b := run_alike (fun i r => onBus_alike ho hw hA s i r) ports ops regs s
    (fun i => contents w s (ports i).addrs) ⟨hs, fun _ => rfl, fun _ _ => rfl⟩
  rw [h, e1] at b
  rw [f1] at a
  cases b with
  | some b =>
    generalize hx : run ports (onBus memBus order w ports) ⟨regs, s⟩ (ops.filter fun op => decide (op.1 = i)) = x at a
    cases a with
    | @some x _ a =>
      obtain ⟨st', o'⟩ := x
      obtain ⟨a1, a2, a3⟩ := a
      simp only at a1 a2 a3
      refine ⟨st', by rw [a2], by rw [a1]; exact f2, ?_⟩
      intro c hc
      obtain ⟨j, hj, rfl⟩ := List.getElem_of_mem hc
      rw [contents_word a3.mem _ j hj, contents_word b.2.2.mem _ j hj, a3.vars i, b.2.2.vars i, f3]

/-! ## C324 -/

/-- A register accessed through the front door of its map, with hooks and callbacks that leave the accesses alone. -/
structure Ordinary (p : Port) : Prop where
  front : ∃ rt, p.cfg.route = .front rt
  bare : ∀ k, p.cfg.bare k = false
  preW : Quiet p.preW
  postW : Quiet p.postW
  preR : Quiet p.preR
  postR : Quiet p.postR

/-- Every status the caller got is OK. -/
def AllOk : Out → Prop
  | .done => True
  | .wrote ok => ok = true
  | .got _ ok _ => ok = true
  | .updated st => ∀ b ∈ st, b = true
  | .mirrored st _ => st = [true]

theorem setField_bits (r : Reg) (i : Nat) (v : Int) : (Reg.step r (.fieldOp i (.set v))).nBits = r.nBits := rfl

/-- One operation on ordinary registers, on variables. -/
theorem access_ordinary {n : Nat} (bits : Fin n → Nat) (i : Fin n) {p : Port} (hp : Ordinary p) (r : Reg) (m : Fin n → Nat) (op : RegAccess.Op) :
    ∃ r' m' o, access p (variables bits i r) r m op = some (r', m', o) ∧ r'.nBits = r.nBits ∧ AllOk o ∧
      (∀ j, j ≠ i → m' j = m j) ∧
      (match op with
        | .write v => m' i = v % 2 ^ r.nBits % 2 ^ bits i
        | .update => True
        | .read => m' = m ∧ ∃ e, o = .got (m i) true e
        | _ => m' = m) := by
  obtain ⟨rt, hr⟩ := hp.front
  cases op with
  | set v => exact ⟨_, _, _, rfl, rfl, trivial, fun _ _ => rfl, rfl⟩
  | setField k v => exact ⟨_, _, _, rfl, rfl, trivial, fun _ _ => rfl, rfl⟩
  | write v =>
    obtain ⟨o, h1, h2, h3, h4⟩ := write_quiet hr hp.bare p.dflt (variables bits i r) hp.preW hp.postW r m v
    refine ⟨o.reg, o.dev, .wrote o.ok, by simp only [access, h1]; rfl, ?_, ?_, ?_, ?_⟩
    · rw [h4]; split <;> rfl
    · exact h3
    · intro j hj; rw [h2]; simp [variables, hj]
    · simp only [h2, variables, if_true]
  | read =>
    obtain ⟨o, h1, h2, h3, h4, _, h6⟩ := read_quiet hr hp.bare (variables bits i r) hp.preR hp.postR r m
    refine ⟨o.reg, o.dev, .got o.value o.ok o.err, by simp only [access, RegAccess.read, h1]; rfl, ?_, h3, fun j _ => by rw [h2]; rfl, by rw [h2]; rfl, ?_⟩
    · rw [h6]; split <;> rfl
    · exact ⟨o.err, by rw [h3, h4]; rfl⟩
  | update =>
    cases hn : Reg.needsUpdate r with
    | false => exact ⟨r, m, .updated [], by simp [access, update, hn], rfl, by simp [AllOk], fun _ _ => rfl, trivial⟩
    | true =>
      obtain ⟨o, h1, h2, h3, h4⟩ := write_quiet hr hp.bare p.dflt (variables bits i r) hp.preW hp.postW r m (updateValue r)
      refine ⟨o.reg, o.dev, .updated [o.ok], by simp [access, update, hn, h1], ?_, ?_, ?_, trivial⟩
      · rw [h4]; split <;> rfl
      · simp only [AllOk, List.mem_singleton, forall_eq]; exact h3
      · intro j hj; rw [h2]; simp [variables, hj]
  | mirror b =>
    obtain ⟨o, h1, h2, h3, h4, _, h6⟩ := read_quiet hr hp.bare (variables bits i r) hp.preR hp.postR r m
    refine ⟨o.reg, o.dev, .mirrored [o.ok] (b && !(doCheck o.reg p.rt (getMirrored r) o.value)), by simp only [access, mirror, hr, h1]; rfl,
      ?_, ?_, fun j _ => by rw [h2]; rfl, by rw [h2]; rfl⟩
    · rw [h6]; split <;> rfl
    · simp only [AllOk, List.cons.injEq, and_true]; exact h3

theorem run_ordinary {n : Nat} (bits : Fin n → Nat) (ports : Fin n → Port) (hp : ∀ i, Ordinary (ports i)) (ops : List (Fin n × RegAccess.Op))
    (regs : Fin n → Reg) (m : Fin n → Nat) :
    ∃ st outs, run ports (variables bits) ⟨regs, m⟩ ops = some (st, outs) ∧ (∀ j, (st.regs j).nBits = (regs j).nBits) ∧ (∀ o ∈ outs, AllOk o) ∧
      outs.length = ops.length ∧ ∀ i, (∀ op ∈ ops, ¬ Writes i op) → st.dev i = m i := by
  induction ops generalizing regs m with
  | nil => exact ⟨_, _, rfl, fun _ => rfl, by simp, rfl, fun _ _ => rfl⟩
  | cons op ops ih =>
    obtain ⟨r', m', o, h1, h2, h3, h4, h5⟩ := access_ordinary bits op.1 (hp op.1) (regs op.1) m op.2
    obtain ⟨st, outs, e1, e2, e3, e4, e5⟩ := ih (fun j => if j = op.1 then r' else regs j) m'
    refine ⟨st, o :: outs, by simp only [run, step, h1, Option.map_some, e1], fun j => ?_, ?_, by simp [e4], fun i hi => ?_⟩
    · rw [e2 j]
      by_cases hj : j = op.1
      · simp [hj, h2]
      · simp [hj]
    · intro x hx
      rcases List.mem_cons.1 hx with rfl | hx
      · exact h3
      · exact e3 x hx
    · rw [e5 i fun q hq => hi q (by simp [hq])]
      have hw := hi op (by simp)
      by_cases hj : i = op.1
      · obtain ⟨j, op⟩ := op
        subst hj
        cases op <;> simp_all [Writes]
      · exact h4 i hj

theorem run_append {n : Nat} {σ} (ports : Fin n → Port) (devs : Fin n → Reg → Dev σ) (ops ops' : List (Fin n × RegAccess.Op)) (st st' : State n σ)
    (outs : List Out) (h : run ports devs st ops = some (st', outs)) :
    run ports devs st (ops ++ ops') = (run ports devs st' ops').map fun q => (q.1, outs ++ q.2) := by
  induction ops generalizing st outs with
  | nil => simp only [run, Option.some.injEq, Prod.mk.injEq] at h; obtain ⟨rfl, rfl⟩ := h; simp
  | cons op ops ih =>
    simp only [run, List.cons_append] at h ⊢
    split at h
    · simp at h
    · rename_i st1 o hs
      obtain ⟨⟨st2, outs2⟩, h2, h3⟩ := Option.map_eq_some_iff.1 h
      simp only [Prod.mk.injEq] at h3
      obtain ⟨rfl, rfl⟩ := h3
      simp only [hs, ih _ _ h2, Option.map_map]
      rfl

/-- From the variables to the bus. -/
theorem to_bus {n : Nat} {order : Order} (ho : Reorders order) {w : Nat} (hw : 1 ≤ w) {ports : Fin n → Port} (hA : Apart ports)
    {regs : Fin n → Reg} {s : Nat → Nat} (hs : WordMem w s) {ops : List (Fin n × RegAccess.Op)} {st : State n (Fin n → Nat)} {outs : List Out}
    (h : run ports (variables fun i => 8 * w * (ports i).addrs.length) ⟨regs, fun i => contents w s (ports i).addrs⟩ ops = some (st, outs)) :
    ∃ s', run ports (onBus memBus order w ports) ⟨regs, s⟩ ops = some (⟨st.regs, s'⟩, outs) ∧ (∀ i, contents w s' (ports i).addrs = st.dev i) := by
  have a := run_alike (fun i r => onBus_alike ho hw hA s i r) ports ops regs s (fun i => contents w s (ports i).addrs) ⟨hs, fun _ => rfl, fun _ _ => rfl⟩
  rw [h] at a
  generalize hx : run ports (onBus memBus order w ports) ⟨regs, s⟩ ops = x at a
  cases a with
  | @some x _ a =>
    obtain ⟨⟨xr, xd⟩, xo⟩ := x
    obtain ⟨a1, a2, a3⟩ := a
    simp only at a1 a2 a3
    subst a1 a2
    exact ⟨xd, rfl, a3.vars⟩

/-- C324. No exception, and every status is OK. -/
theorem C324_all_ok {n : Nat} (order : Order) (ho : Reorders order) (w : Nat) (hw : 1 ≤ w) (ports : Fin n → Port) (hA : Apart ports)
    (hp : ∀ i, Ordinary (ports i)) (regs : Fin n → Reg) (s : Nat → Nat) (hs : WordMem w s) (ops : List (Fin n × RegAccess.Op)) :
    ∃ st outs, run ports (onBus memBus order w ports) ⟨regs, s⟩ ops = some (st, outs) ∧ outs.length = ops.length ∧ ∀ o ∈ outs, AllOk o := by
  obtain ⟨st, outs, e1, _, e3, e4, _⟩ := run_ordinary (fun i => 8 * w * (ports i).addrs.length) ports hp ops regs fun i => contents w s (ports i).addrs
  obtain ⟨s', h1, _⟩ := to_bus ho hw hA hs e1
  exact ⟨_, outs, h1, e4, e3⟩

/-- C324. Whatever was done before, and whatever is done between with any register as long as `i` itself is not written or updated:
a read of `i` returns the value last written, cut to the width of the register. -/
theorem C324_last_written {n : Nat} (order : Order) (ho : Reorders order) (w : Nat) (hw : 1 ≤ w) (ports : Fin n → Port) (hA : Apart ports)
    (hp : ∀ i, Ordinary (ports i)) (regs : Fin n → Reg) (hfit : ∀ i, (regs i).nBits ≤ 8 * w * (ports i).addrs.length) (s : Nat → Nat)
    (hs : WordMem w s) (ops ops' : List (Fin n × RegAccess.Op)) (i : Fin n) (v : Nat) (hno : ∀ op ∈ ops', ¬ Writes i op) :
    ∃ st outs err, run ports (onBus memBus order w ports) ⟨regs, s⟩ (ops ++ (i, .write v) :: (ops' ++ [(i, .read)])) =
      some (st, outs ++ [.got (v % 2 ^ (regs i).nBits) true err]) := by
  obtain ⟨st1, o1, a1, a2, _⟩ := run_ordinary (fun i => 8 * w * (ports i).addrs.length) ports hp ops regs fun i => contents w s (ports i).addrs
  obtain ⟨r2, m2, o2, b1, b2, _, _, b5⟩ := access_ordinary (fun i => 8 * w * (ports i).addrs.length) i (hp i) (st1.regs i) st1.dev (.write v)
  simp only at b5
  obtain ⟨st3, o3, c1, c2, _, _, c5⟩ := run_ordinary (fun i => 8 * w * (ports i).addrs.length) ports hp ops' (fun j => if j = i then r2 else st1.regs j) m2
  obtain ⟨r4, m4, o4, d1, _, _, _, d5, err, d6⟩ := access_ordinary (fun i => 8 * w * (ports i).addrs.length) i (hp i) (st3.regs i) st3.dev .read
  have hv : st3.dev i = v % 2 ^ (regs i).nBits := by
    rw [c5 i hno, b5, a2 i]
    apply Nat.mod_eq_of_lt
    exact Nat.lt_of_lt_of_le (Nat.mod_lt _ (Nat.two_pow_pos _)) (Nat.pow_le_pow_right (by omega) (hfit i))
  have hrun : run ports (variables fun i => 8 * w * (ports i).addrs.length) ⟨regs, fun i => contents w s (ports i).addrs⟩
      (ops ++ (i, .write v) :: (ops' ++ [(i, .read)])) =
      some (⟨fun j => if j = i then r4 else st3.regs j, m4⟩, o1 ++ o2 :: (o3 ++ [.got (v % 2 ^ (regs i).nBits) true err])) := by
    rw [run_append _ _ _ _ _ _ _ a1]
    simp only [run, step, b1, Option.map_some]
    rw [run_append _ _ _ _ _ _ _ c1]
    simp only [run, step, d1, Option.map_some, d6, hv]
  obtain ⟨s', h1, _⟩ := to_bus ho hw hA hs hrun
  rw [show o1 ++ o2 :: (o3 ++ [Out.got (v % 2 ^ (regs i).nBits) true err]) = (o1 ++ o2 :: o3) ++ [Out.got (v % 2 ^ (regs i).nBits) true err] by simp] at h1
  exact ⟨_, _, err, h1⟩

/-- C324. A register that was never written or updated reads as what its words held at the start. -/
theorem C324_never_written {n : Nat} (order : Order) (ho : Reorders order) (w : Nat) (hw : 1 ≤ w) (ports : Fin n → Port) (hA : Apart ports)
    (hp : ∀ i, Ordinary (ports i)) (regs : Fin n → Reg) (s : Nat → Nat)
    (hs : WordMem w s) (ops : List (Fin n × RegAccess.Op)) (i : Fin n) (hno : ∀ op ∈ ops, ¬ Writes i op) :
    ∃ st outs err, run ports (onBus memBus order w ports) ⟨regs, s⟩ (ops ++ [(i, .read)]) =
      some (st, outs ++ [.got (contents w s (ports i).addrs) true err]) := by
  obtain ⟨st3, o3, c1, c2, _, _, c5⟩ := run_ordinary (fun i => 8 * w * (ports i).addrs.length) ports hp ops regs fun i => contents w s (ports i).addrs
  obtain ⟨r4, m4, o4, d1, _, _, _, d5, err, d6⟩ := access_ordinary (fun i => 8 * w * (ports i).addrs.length) i (hp i) (st3.regs i) st3.dev .read
  have hrun : run ports (variables fun i => 8 * w * (ports i).addrs.length) ⟨regs, fun i => contents w s (ports i).addrs⟩
      (ops ++ [(i, .read)]) =
      some (⟨fun j => if j = i then r4 else st3.regs j, m4⟩, o3 ++ [.got (contents w s (ports i).addrs) true err]) := by
    rw [run_append _ _ _ _ _ _ _ c1]
    simp only [run, step, d1, Option.map_some, d6, c5 i hno]
  obtain ⟨s', h1, _⟩ := to_bus ho hw hA hs hrun
  exact ⟨_, o3, err, h1⟩

/-- A read/write register of a map with automatic prediction. -/
structure Auto (p : Port) : Prop extends Ordinary p where
  rw : p.cfg.route = .front .RW
  auto : p.cfg.auto = true

theorem predF_rw {k : PKind} (hk : k = .write ∨ k = .read) (v : Nat) (busy : Bool) {x : RF} (ha : x.f.access = .RW) (hF : Fits x.f) :
    (predF v k .RW busy x).f.access = .RW ∧ (predF v k .RW busy x).lsb = x.lsb ∧ (predF v k .RW busy x).f.size = x.f.size ∧
    ∀ j, j < x.f.size → (predF v k .RW busy x).f.mirrored.testBit j = v.testBit (x.lsb + j) := by
  rcases hk with rfl | rfl
  · refine ⟨ha, rfl, rfl, fun j hj => ?_⟩
    have hx := (xpredict_result x.f x.f.mirrored (maskInt x.f.size (slice v x.lsb x.f.size)) .RW hF.mirrored (maskInt_lt _ _))
    show (xpredict x.f x.f.mirrored (maskInt x.f.size (slice v x.lsb x.f.size)) .RW &&& mask x.f).testBit j = _
    rw [and_mask_of_lt hx.1, hx.2 j hj]
    simp [getAccess, ha, doc, WEffect.bit, maskInt_slice _ _ _ _ hj, Nat.testBit_shiftRight]
  · refine ⟨?_, ?_, ?_, fun j hj => ?_⟩
    · simp [predF, RegField.doPredict, getAccess, ha]
    · simp [predF, RegField.doPredict, getAccess, ha]
    · simp [predF, RegField.doPredict, getAccess, ha]
    · rw [predF_read_bit _ _ _ hF _ hj]; simp [getAccess, ha, readBit, doc]

/-- What is kept. -/
structure Kept (r : Reg) (n c : Nat) : Prop where
  good : Good r
  plain : Plain r
  bits : r.nBits = n
  tracks : Tracks r c

theorem kept_pred {r : Reg} {n c v : Nat} (h : Kept r n c) {k : PKind} (hk : k = .write ∨ k = .read) {cfg : RegAccess.Cfg} (hb : ∀ i, cfg.bare i = false) :
    Kept { r with fields := r.fields.map (predF v k .RW r.busy) } n v := by
  refine ⟨good_predF hb h.good v k (by rcases hk with rfl | rfl <;> decide) .RW, ?_, h.bits, ?_⟩
  · intro y hy
    obtain ⟨x, hx, rfl⟩ := List.mem_map.1 hy
    obtain ⟨a1, a2, a3, _⟩ := predF_rw hk v r.busy (h.plain x hx).1 (h.good.fits x hx)
    exact ⟨a1, by rw [a2, a3]; exact (h.plain x hx).2⟩
  · intro y hy j hj
    obtain ⟨x, hx, rfl⟩ := List.mem_map.1 hy
    obtain ⟨_, a2, a3, a4⟩ := predF_rw hk v r.busy (h.plain x hx).1 (h.good.fits x hx)
    rw [a3] at hj
    rw [a4 j hj, a2]

theorem kept_set {r : Reg} {n c : Nat} (h : Kept r n c) (v : Int) : Kept (Reg.set r v) n c := by
  refine ⟨good_set h.good v, ?_, h.bits, ?_⟩
  · intro y hy
    obtain ⟨x, hx, rfl⟩ := List.mem_map.1 hy
    exact h.plain x hx
  · intro y hy
    obtain ⟨x, hx, rfl⟩ := List.mem_map.1 hy
    exact h.tracks x hx

theorem kept_setField {r : Reg} {n c : Nat} (h : Kept r n c) (i : Nat) (v : Int) : Kept (Reg.step r (.fieldOp i (.set v))) n c := by
  have key : ∀ y ∈ (Reg.step r (.fieldOp i (.set v))).fields, ∃ x ∈ r.fields, y = x ∨ y = { x with f := RegField.step x.f (.set v) } := by
    intro y hy
    simp only [Reg.step] at hy
    obtain ⟨k, hk⟩ := List.mem_iff_getElem?.1 hy
    rw [List.getElem?_modify] at hk
    obtain ⟨x, hx, rfl⟩ := Option.map_eq_some_iff.1 hk
    refine ⟨x, List.mem_of_getElem? hx, ?_⟩
    split
    · exact .inr rfl
    · exact .inl rfl
  refine ⟨(good_step h.good _).1, ?_, h.bits, ?_⟩
  · intro y hy
    obtain ⟨x, hx, e⟩ := key y hy
    rcases e with e | e <;> rw [e] <;> exact h.plain x hx
  · intro y hy
    obtain ⟨x, hx, e⟩ := key y hy
    rcases e with e | e <;> rw [e] <;> exact h.tracks x hx

theorem full_pred {r : Reg} {n c v : Nat} (h : Kept r n c) {k : PKind} (hk : k = .write ∨ k = .read) (hf : Full r) (busy : Bool) :
    Full { r with fields := r.fields.map (predF v k .RW busy) } := by
  intro i hi
  obtain ⟨x, hx, hc⟩ := hf i hi
  obtain ⟨_, a2, a3, _⟩ := predF_rw hk v busy (h.plain x hx).1 (h.good.fits x hx)
  exact ⟨_, List.mem_map.2 ⟨x, hx, rfl⟩, by rw [a2]; exact hc.1, by rw [a2, a3]; exact hc.2⟩

theorem full_set {r : Reg} (hf : Full r) (v : Int) : Full (Reg.set r v) := by
  intro i hi
  obtain ⟨x, hx, hc⟩ := hf i hi
  exact ⟨_, List.mem_map.2 ⟨x, hx, rfl⟩, hc.1, hc.2⟩

theorem full_setField {r : Reg} (hf : Full r) (j : Nat) (v : Int) : Full (Reg.step r (.fieldOp j (.set v))) := by
  intro i hi
  obtain ⟨x, hx, hc⟩ := hf i hi
  obtain ⟨k, hk⟩ := List.mem_iff_getElem?.1 hx
  refine ⟨if j = k then { x with f := RegField.step x.f (.set v) } else x, ?_, ?_⟩
  · simp only [Reg.step]
    apply List.mem_iff_getElem?.2
    exact ⟨k, by rw [List.getElem?_modify, hk]; simp⟩
  · split
    · exact ⟨hc.1, hc.2⟩
    · exact hc

theorem mirrored_of_full {r : Reg} {n c : Nat} (h : Kept r n c) (hf : Full r) (hc : c < 2 ^ n) : getMirrored r = c := by
  apply Nat.eq_of_testBit_eq
  intro i
  rw [show (getMirrored r).testBit i = _ from assemble_testBit _ h.good.disj _ (fun x hx => (h.good.fits x hx).mirrored) i]
  by_cases hi : i < r.nBits
  · obtain ⟨x, hx, hcov⟩ := hf i hi
    rw [assembled_mem h.good.disj hx hcov, h.tracks x hx _ (by have := hcov.1; have := hcov.2; omega)]
    congr 1
    have := hcov.1; omega
  · have : r.fields.find? (fun x => decide (Covers x i)) = none := by
      rw [List.find?_eq_none]
      intro x hx hcov
      have hcov : Covers x i := by simpa using hcov
      have := (h.plain x hx).2
      have := hcov.2
      omega
    simp only [assembled, this]
    rw [Nat.testBit_lt_two_pow]
    exact Nat.lt_of_lt_of_le hc (Nat.pow_le_pow_right (by omega) (by rw [← h.bits]; omega))

theorem access_kept {n : Nat} (bits : Fin n → Nat) (i : Fin n) {p : Port} (hp : Auto p) {r : Reg} {m : Fin n → Nat} {nb : Nat} (hb : nb ≤ bits i)
    (h : Kept r nb (m i)) (op : RegAccess.Op) :
    ∃ r' m' o, access p (variables bits i r) r m op = some (r', m', o) ∧ Kept r' nb (m' i) ∧ (∀ j, j ≠ i → m' j = m j) ∧
      (Full r → m i < 2 ^ nb → Full r' ∧ m' i < 2 ^ nb ∧ ∀ st, o ≠ .mirrored st true) := by
  have hwr : ∀ v : Nat, v % 2 ^ r.nBits % 2 ^ bits i = v % 2 ^ nb := by
    intro v
    rw [h.bits]
    exact Nat.mod_eq_of_lt (Nat.lt_of_lt_of_le (Nat.mod_lt _ (Nat.two_pow_pos _)) (Nat.pow_le_pow_right (by omega) hb))
  have hwrite : ∀ v : Nat, ∃ o, write p.cfg p.dflt (variables bits i r) p.preW p.postW r m v = some o ∧ Kept o.reg nb (o.dev i) ∧
      (∀ j, j ≠ i → o.dev j = m j) ∧ (Full r → Full o.reg) ∧ o.dev i < 2 ^ nb := by
    intro v
    obtain ⟨o, h1, h2, h3, h4⟩ := write_quiet hp.rw hp.bare p.dflt (variables bits i r) hp.preW hp.postW r m v
    have hd : o.dev i = v % 2 ^ r.nBits := by
      rw [h2]; simp only [variables, if_true]; rw [hwr, h.bits]
    refine ⟨o, h1, ?_, fun j hj => by rw [h2]; simp [variables, hj], ?_, ?_⟩
    · rw [hd, h4, hp.auto, if_pos rfl]
      exact kept_pred (kept_set h v) (.inl rfl) hp.bare
    · intro hf
      rw [h4, hp.auto, if_pos rfl]
      exact full_pred (kept_set h v) (.inl rfl) (full_set hf v) _
    · rw [hd, h.bits]; exact Nat.mod_lt _ (Nat.two_pow_pos _)
  have hread : ∃ o, doRead p.cfg (variables bits i r) p.preR p.postR r m = some o ∧ Kept o.reg nb (m i) ∧ o.dev = m ∧ o.value = m i ∧
      (Full r → Full o.reg) := by
    obtain ⟨o, h1, h2, h3, h4, _, h6⟩ := read_quiet hp.rw hp.bare (variables bits i r) hp.preR hp.postR r m
    refine ⟨o, h1, ?_, h2, h4, ?_⟩
    · rw [h6, hp.auto, if_pos rfl]
      exact kept_pred h (.inr rfl) hp.bare
    · intro hf
      rw [h6, hp.auto, if_pos rfl]
      exact full_pred h (.inr rfl) hf _
  cases op with
  | set v => exact ⟨_, _, _, rfl, kept_set h v, fun _ _ => rfl, fun hf hm => ⟨full_set hf v, hm, nofun⟩⟩
  | setField k v => exact ⟨_, _, _, rfl, kept_setField h k v, fun _ _ => rfl, fun hf hm => ⟨full_setField hf k v, hm, nofun⟩⟩
  | write v =>
    obtain ⟨o, h1, h2, h3, h4, h5⟩ := hwrite v
    exact ⟨o.reg, o.dev, .wrote o.ok, by simp only [access, h1]; rfl, h2, h3, fun hf _ => ⟨h4 hf, h5, nofun⟩⟩
  | update =>
    cases hn : Reg.needsUpdate r with
    | false => exact ⟨r, m, .updated [], by simp [access, update, hn], h, fun _ _ => rfl, fun hf hm => ⟨hf, hm, nofun⟩⟩
    | true =>
      obtain ⟨o, h1, h2, h3, h4, h5⟩ := hwrite (updateValue r)
      exact ⟨o.reg, o.dev, .updated [o.ok], by simp [access, update, hn, h1], h2, h3, fun hf _ => ⟨h4 hf, h5, nofun⟩⟩
  | read =>
    obtain ⟨o, h1, h2, h3, h4, h5⟩ := hread
    refine ⟨o.reg, o.dev, .got o.value o.ok o.err, by simp only [access, RegAccess.read, h1]; rfl, by rw [h3]; exact h2, fun _ _ => by rw [h3],
      fun hf hm => ⟨h5 hf, by rw [h3]; exact hm, nofun⟩⟩
  | mirror b =>
    obtain ⟨o, h1, h2, h3, h4, h5⟩ := hread
    refine ⟨o.reg, o.dev, .mirrored [o.ok] (b && !(doCheck o.reg p.rt (getMirrored r) o.value)), by simp only [access, mirror, hp.rw, h1]; rfl,
      by rw [h3]; exact h2, fun _ _ => by rw [h3], fun hf hm => ⟨h5 hf, by rw [h3]; exact hm, fun st hst => ?_⟩⟩
    rw [mirrored_of_full h hf hm, h4] at hst
    simp [doCheck] at hst

theorem run_kept {n : Nat} (bits : Fin n → Nat) (ports : Fin n → Port) (hp : ∀ i, Auto (ports i)) (ops : List (Fin n × RegAccess.Op))
    (nb : Fin n → Nat) (hb : ∀ i, nb i ≤ bits i) (regs : Fin n → Reg) (m : Fin n → Nat) (h : ∀ i, Kept (regs i) (nb i) (m i)) :
    ∃ st outs, run ports (variables bits) ⟨regs, m⟩ ops = some (st, outs) ∧ (∀ i, Kept (st.regs i) (nb i) (st.dev i)) ∧
      ((∀ i, Full (regs i) ∧ m i < 2 ^ nb i) → (∀ i, Full (st.regs i) ∧ st.dev i < 2 ^ nb i) ∧ ∀ st, Out.mirrored st true ∉ outs) := by
  induction ops generalizing regs m with
  | nil => exact ⟨_, _, rfl, h, fun hf => ⟨hf, by simp⟩⟩
  | cons op ops ih =>
    obtain ⟨r', m', o, h1, h2, h3, h4⟩ := access_kept bits op.1 (hp op.1) (hb op.1) (h op.1) op.2
    obtain ⟨st, outs, e1, e2, e3⟩ := ih (fun j => if j = op.1 then r' else regs j) m' (by
      intro j
      by_cases hj : j = op.1
      · subst hj; simpa using h2
      · simpa [hj, h3 j hj] using h j)
    refine ⟨st, o :: outs, by simp only [run, step, h1, Option.map_some, e1], e2, fun hf => ?_⟩
    obtain ⟨g1, g2, g3⟩ := h4 (hf op.1).1 (hf op.1).2
    obtain ⟨k1, k2⟩ := e3 (by
      intro j
      by_cases hj : j = op.1
      · subst hj; simpa using ⟨g1, g2⟩
      · simpa [hj, h3 j hj] using hf j)
    refine ⟨k1, fun s hs => ?_⟩
    rcases List.mem_cons.1 hs with hs | hs
    · exact g3 s hs.symm
    · exact k2 s hs

/-- C324. Read/write fields, automatic prediction: if at the start every mirror is what the words of its register hold, it is so after
every history. -/
theorem C324_mirrors_follow {n : Nat} (order : Order) (ho : Reorders order) (w : Nat) (hw : 1 ≤ w) (ports : Fin n → Port) (hA : Apart ports)
    (hp : ∀ i, Auto (ports i)) (regs : Fin n → Reg) (hreach : ∀ i, Reachable (regs i)) (hplain : ∀ i, Plain (regs i))
    (hfit : ∀ i, (regs i).nBits ≤ 8 * w * (ports i).addrs.length) (s : Nat → Nat) (hs : WordMem w s)
    (ht : ∀ i, Tracks (regs i) (contents w s (ports i).addrs)) (ops : List (Fin n × RegAccess.Op)) :
    ∃ st outs, run ports (onBus memBus order w ports) ⟨regs, s⟩ ops = some (st, outs) ∧
      ∀ i, Tracks (st.regs i) (contents w st.dev (ports i).addrs) := by
  obtain ⟨st, outs, e1, e2, _⟩ := run_kept (fun i => 8 * w * (ports i).addrs.length) ports hp ops (fun i => (regs i).nBits) hfit regs
    (fun i => contents w s (ports i).addrs) fun i => ⟨reachable_good (hreach i), hplain i, rfl, ht i⟩
  obtain ⟨s', h1, h2⟩ := to_bus ho hw hA hs e1
  exact ⟨_, outs, h1, fun i => by rw [h2 i]; exact (e2 i).tracks⟩

/-- C324. If moreover the fields fill their registers, the value of every mirror is the number the words hold, and no mirror with check ever reports
a mismatch. -/
theorem C324_no_mismatch {n : Nat} (order : Order) (ho : Reorders order) (w : Nat) (hw : 1 ≤ w) (ports : Fin n → Port) (hA : Apart ports)
    (hp : ∀ i, Auto (ports i)) (regs : Fin n → Reg) (hreach : ∀ i, Reachable (regs i)) (hplain : ∀ i, Plain (regs i)) (hfull : ∀ i, Full (regs i))
    (hfit : ∀ i, (regs i).nBits ≤ 8 * w * (ports i).addrs.length) (s : Nat → Nat) (hs : WordMem w s)
    (ht : ∀ i, getMirrored (regs i) = contents w s (ports i).addrs) (ops : List (Fin n × RegAccess.Op)) :
    ∃ st outs, run ports (onBus memBus order w ports) ⟨regs, s⟩ ops = some (st, outs) ∧
      (∀ i, getMirrored (st.regs i) = contents w st.dev (ports i).addrs) ∧ ∀ status, Out.mirrored status true ∉ outs := by
  have hG : ∀ i, Good (regs i) := fun i => reachable_good (hreach i)
  have hT : ∀ i, Tracks (regs i) (contents w s (ports i).addrs) := by
    intro i x hx j hj
    rw [← ht i, show (getMirrored (regs i)).testBit (x.lsb + j) = _ from
      assemble_testBit _ (hG i).disj _ (fun x hx => ((hG i).fits x hx).mirrored) _]
    rw [assembled_mem (hG i).disj hx ⟨by omega, by omega⟩]
    congr 1; omega
  have hlt : ∀ i, contents w s (ports i).addrs < 2 ^ (regs i).nBits := by
    intro i
    rw [← ht i]
    apply Nat.lt_pow_two_of_testBit
    intro k hk
    rw [show (getMirrored (regs i)).testBit k = _ from assemble_testBit _ (hG i).disj _ (fun x hx => ((hG i).fits x hx).mirrored) _]
    have : (regs i).fields.find? (fun x => decide (Covers x k)) = none := by
      rw [List.find?_eq_none]
      intro x hx hcov
      have hcov : Covers x k := by simpa using hcov
      have := (hplain i x hx).2
      have := hcov.2
      omega
    simp only [assembled, this]
  obtain ⟨st, outs, e1, e2, e3⟩ := run_kept (fun i => 8 * w * (ports i).addrs.length) ports hp ops (fun i => (regs i).nBits) hfit regs
    (fun i => contents w s (ports i).addrs) fun i => ⟨hG i, hplain i, rfl, hT i⟩
  obtain ⟨k1, k2⟩ := e3 fun i => ⟨hfull i, hlt i⟩
  obtain ⟨s', h1, h2⟩ := to_bus ho hw hA hs e1
  exact ⟨_, outs, h1, fun i => by rw [h2 i]; exact mirrored_of_full (e2 i) (k1 i).1 (k1 i).2, k2⟩

/-! ### Registers of a root map -/

theorem root_addrs (c : RegMap.Cfg) (b off n : Nat) (hn : 1 ≤ n) (hw : 1 ≤ c.nBytes) (he : c.endian = .little ∨ c.endian = .big) :
    (physAddrs (.root c b) off 0 n []).1 ≠ [] ∧ (physAddrs (.root c b) off 0 n []).1.Nodup ∧
    ∀ a ∈ (physAddrs (.root c b) off 0 n []).1, ∃ k, k < (physAddrs (.root c b) off 0 n []).1.length ∧
      a = b + off + k * (if c.byteAddr then c.nBytes else 1) := by
  have hcnt := (C18_number_of_addresses c b off 0 n hn hw).1.1
  have hget := fun i hi => C18_root_addresses c b off n hn (by rcases he with h | h <;> rw [h] <;> decide) _ rfl i hi
  generalize (physAddrs (.root c b) off 0 n []).1 = as at hcnt hget
  have hm : 1 ≤ (if c.byteAddr then c.nBytes else 1) := by split <;> omega
  generalize (if c.byteAddr then c.nBytes else 1) = m at hget hm
  have hval : ∀ i (hi : i < as.length), ∃ k, k < as.length ∧ as[i] = b + off + k * m ∧ (c.endian = .little → k = i) ∧ (c.endian = .big → k = as.length - 1 - i) := by
    intro i hi
    have := hget i hi
    rw [List.getElem?_eq_getElem hi, Option.some.injEq] at this
    rcases he with h | h <;> rw [h] at this <;> simp only [wordAddr] at this
    · exact ⟨i, hi, this, fun _ => rfl, fun h' => (by rw [h] at h'; cases h')⟩
    · exact ⟨as.length - 1 - i, by omega, this, fun h' => (by rw [h] at h'; cases h'), fun _ => rfl⟩
  refine ⟨by rintro rfl; simp at hcnt; omega, ?_, ?_⟩
  · rw [List.nodup_iff_pairwise_ne, List.pairwise_iff_getElem]
    intro i j hi hj hij hc
    obtain ⟨k, hk, e1, l1, g1⟩ := hval i hi
    obtain ⟨k', hk', e2, l2, g2⟩ := hval j hj
    rw [e1, e2] at hc
    have := Nat.eq_of_mul_eq_mul_right hm (Nat.add_left_cancel hc)
    rcases he with h | h
    · have := l1 h; have := l2 h; omega
    · have := g1 h; have := g2 h; omega
  · intro a ha
    obtain ⟨i, hi, rfl⟩ := List.getElem_of_mem ha
    obtain ⟨k, hk, e, _⟩ := hval i hi
    exact ⟨k, hk, e⟩

/-- C323. The condition on the addresses is met by the registers of a little- or big-endian map placed at offsets that leave room for their words. -/
theorem C323_apart_in_map {n : Nat} (c : RegMap.Cfg) (b : Nat) (hw : 1 ≤ c.nBytes) (he : c.endian = .little ∨ c.endian = .big)
    (off bytes : Fin n → Nat) (hn : ∀ i, 1 ≤ bytes i) (ports : Fin n → Port)
    (hports : ∀ i, (ports i).addrs = (physAddrs (.root c b) (off i) 0 (bytes i) []).1)
    (hsep : ∀ i j, i ≠ j → off i + (ports i).addrs.length * (if c.byteAddr then c.nBytes else 1) ≤ off j ∨
      off j + (ports j).addrs.length * (if c.byteAddr then c.nBytes else 1) ≤ off i) : Apart ports := by
  refine ⟨fun i => ?_, fun i => ?_, fun i j hij a ha hb => ?_⟩
  · rw [hports i]; exact (root_addrs c b (off i) (bytes i) (hn i) hw he).1
  · rw [hports i]; exact (root_addrs c b (off i) (bytes i) (hn i) hw he).2.1
  · have hs := hsep i j hij
    rw [hports i] at ha hs
    rw [hports j] at hb hs
    obtain ⟨k, hk, e1⟩ := (root_addrs c b (off i) (bytes i) (hn i) hw he).2.2 a ha
    obtain ⟨l, hl, e2⟩ := (root_addrs c b (off j) (bytes j) (hn j) hw he).2.2 a hb
    have hm : 1 ≤ (if c.byteAddr then c.nBytes else 1) := by split <;> omega
    generalize (if c.byteAddr then c.nBytes else 1) = m at *
    generalize (physAddrs (.root c b) (off i) 0 (bytes i) []).1.length = x at *
    generalize (physAddrs (.root c b) (off j) 0 (bytes j) []).1.length = y at *
    have h1 : (k + 1) * m ≤ x * m := Nat.mul_le_mul_right _ hk
    have h2 : (l + 1) * m ≤ y * m := Nat.mul_le_mul_right _ hl
    rw [Nat.add_mul, Nat.one_mul] at h1 h2
    omega

/-! ### A case: two registers of 24 and 32 bits in a big-endian map with a 16-bit bus -/

def exReg (n a b : Nat) : Reg := (build n [⟨0, configure [] a .RW false 0 true⟩, ⟨a, configure [] b .RW false 0 true⟩]).1

def exPorts : Fin 2 → Port := fun i =>
  { cfg := { route := .front .RW, auto := true, check := false }
    addrs := if i = 0 then (physAddrs (.root ⟨2, true, .big⟩ 0x100) 0 0 3 []).1 else (physAddrs (.root ⟨2, true, .big⟩ 0x100) 4 0 4 []).1 }

def exRegs : Fin 2 → Reg := fun i => if i = 0 then exReg 24 8 16 else exReg 32 20 12

theorem exApart : Apart exPorts :=
  C323_apart_in_map ⟨2, true, .big⟩ 0x100 (by decide) (.inr rfl) (fun i => if i = 0 then 0 else 4) (fun i => if i = 0 then 3 else 4) (by decide)
    exPorts (by decide) (by decide)

theorem exAuto : ∀ i, Auto (exPorts i) := fun _ =>
  { front := ⟨.RW, rfl⟩, bare := fun _ => rfl, preW := quiet_default, postW := quiet_default, preR := quiet_default, postR := quiet_default,
    rw := rfl, auto := rfl }

example : (exPorts 0).addrs = [0x102, 0x100] ∧ (exPorts 1).addrs = [0x106, 0x104] := by decide

example : ∀ i, Reachable (exRegs i) ∧ (exRegs i).nBits ≤ 8 * 2 * (exPorts i).addrs.length ∧ getMirrored (exRegs i) = contents 2 (fun _ => 0) (exPorts i).addrs := by
  intro i
  match i with
  | ⟨0, _⟩ =>
    refine ⟨⟨24, _, [], ?_, by decide, rfl⟩, by decide +revert, by decide +revert⟩
    intro x hx
    simp only [List.mem_cons, List.not_mem_nil, or_false] at hx
    rcases hx with rfl | rfl <;> exact ⟨[], _, .RW, false, 0, true, [], rfl⟩
  | ⟨1, _⟩ =>
    refine ⟨⟨32, _, [], ?_, by decide, rfl⟩, by decide +revert, by decide +revert⟩
    intro x hx
    simp only [List.mem_cons, List.not_mem_nil, or_false] at hx
    rcases hx with rfl | rfl <;> exact ⟨[], _, .RW, false, 0, true, [], rfl⟩

example : ∀ i, Plain (exRegs i) := by
  intro i
  match i with
  | ⟨0, _⟩ => exact (by decide : ∀ x ∈ (exRegs 0).fields, x.f.access = .RW ∧ x.lsb + x.f.size ≤ (exRegs 0).nBits)
  | ⟨1, _⟩ => exact (by decide : ∀ x ∈ (exRegs 1).fields, x.f.access = .RW ∧ x.lsb + x.f.size ≤ (exRegs 1).nBits)

example : ∀ i, Full (exRegs i) := by
  intro i
  match i with
  | ⟨0, _⟩ => exact (by decide : ∀ k, k < 24 → ∃ x ∈ (exRegs 0).fields, Covers x k)
  | ⟨1, _⟩ => exact (by decide : ∀ k, k < 32 → ∃ x ∈ (exRegs 1).fields, Covers x k)

example : WordMem 2 (fun _ => 0) := fun _ => Nat.two_pow_pos _

example : (run exPorts (onBus memBus List.reverse 2 exPorts) ⟨exRegs, fun _ => 0⟩
    [(0, .write 0xABCDEF), (1, .setField 1 0x123), (1, .update), (0, .read), (1, .mirror true), (1, .read)]).map (·.2) =
    some [.wrote true, .done, .updated [true], .got 0xABCDEF true false, .mirrored [true] false, .got 0x12300000 true false] := by decide +kernel

end Verif.RegSystem
