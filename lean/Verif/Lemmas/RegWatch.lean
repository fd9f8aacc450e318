import Verif.Spec.RegWatch
import Verif.Props.RegChip
import Verif.Props.RegPredictor
namespace Verif.RegWatch
open Verif.Reg Verif.RegField Verif.RegAccess Verif.RegMap Verif.RegSystem Verif.RegConc Verif.RegChip
open Verif.RegPredictor (Conf Beat Pend St Transfer Assembles local2 view val about Targets)

/-- Bus operations one after the other on a watched bus. -/
def traffic {σ} (bus : Bus σ) (x : σ × List Beat) (ops : List BusOp) : σ × List Beat := ops.foldl (fun x op => (watched bus x op).1) x

theorem traffic_append {σ} (bus : Bus σ) (x : σ × List Beat) (a b : List BusOp) : traffic bus x (a ++ b) = traffic bus (traffic bus x a) b := by
  simp [traffic, List.foldl_append]

theorem traffic_log {σ} (bus : Bus σ) (s : σ) (l : List Beat) (ops : List BusOp) :
    traffic bus (s, l) ops = ((traffic bus (s, []) ops).1, l ++ (traffic bus (s, []) ops).2) := by
  induction ops generalizing s l with
  | nil => simp [traffic]
  | cons op ops ih =>
    have e : ∀ l, traffic bus (s, l) (op :: ops) = traffic bus ((watched bus (s, l) op).1) ops := fun _ => rfl
    rw [e, e]
    simp only [watched]
    rw [ih, ih _ ([] ++ _)]
    simp

/-- The accesses of a register on a watched bus that refuses nothing. -/
theorem runWrites_watched {σ} {bus : Bus σ} (hok : ∀ s op, (bus s op).2.2 = true) (ops : List BusOp) (x : σ × List Beat) (b : Bool) :
    (runWrites (watched bus) ops (x, b)).1 = traffic bus x ops ∧ (runWrites bus ops (x.1, b)).1 = (traffic bus x ops).1 ∧
      (runWrites (watched bus) ops (x, b)).2 = (runWrites bus ops (x.1, b)).2 := by
  induction ops generalizing x b with
  | nil => exact ⟨rfl, rfl, rfl⟩
  | cons op ops ih =>
    have h1 : (watched bus x op).2.2 = true := hok x.1 op
    have e1 : runWrites (watched bus) (op :: ops) (x, b) = runWrites (watched bus) ops ((watched bus x op).1, true) := by
      simp [runWrites, h1]
    have e2 : runWrites bus (op :: ops) (x.1, b) = runWrites bus ops ((watched bus x op).1.1, true) := by
      simp [runWrites, hok, watched]
    rw [e1, e2]
    exact ih _ _

theorem runReads_watched {σ} {bus : Bus σ} (hok : ∀ s op, (bus s op).2.2 = true) (w : Nat) (ops : List BusOp) (x : σ × List Beat) (v : Nat) (b : Bool) :
    (runReads (watched bus) w ops (x, v, b)).1 = traffic bus x (ops.map fun op => { op with data := 0 }) ∧
      (runReads bus w ops (x.1, v, b)).1 = (traffic bus x (ops.map fun op => { op with data := 0 })).1 ∧
      (runReads (watched bus) w ops (x, v, b)).2 = (runReads bus w ops (x.1, v, b)).2 := by
  induction ops generalizing x v b with
  | nil => exact ⟨rfl, rfl, rfl⟩
  | cons op ops ih =>
    have h1 : (watched bus x { op with data := 0 }).2.2 = true := hok x.1 _
    have e1 : runReads (watched bus) w (op :: ops) (x, v, b) = runReads (watched bus) w ops ((watched bus x { op with data := 0 }).1,
        v ||| (((bus x.1 { op with data := 0 }).2.1 &&& (2 ^ (w * 8) - 1)) <<< (op.data * 8)), true) := by
      simp only [runReads, h1, Bool.true_eq_false, if_false]; rfl
    have e2 : runReads bus w (op :: ops) (x.1, v, b) = runReads bus w ops ((watched bus x { op with data := 0 }).1.1,
        v ||| (((bus x.1 { op with data := 0 }).2.1 &&& (2 ^ (w * 8) - 1)) <<< (op.data * 8)), true) := by
      simp only [runReads, hok, Bool.true_eq_false, if_false]; rfl
    rw [e1, e2]
    exact ih _ _ _

/-- Operations at other addresses. -/
theorem traffic_frame {γ} {cell : Nat → γ → BusOp → γ × Nat × Bool} (ops : List BusOp) (x : (Nat → γ) × List Beat) (a : Nat) (ha : a ∉ ops.map (·.addr)) :
    (traffic (cellBus cell) x ops).1 a = x.1 a := by
  induction ops generalizing x with
  | nil => rfl
  | cons op ops ih =>
    rw [List.map_cons, List.mem_cons, not_or] at ha
    have e : traffic (cellBus cell) x (op :: ops) = traffic (cellBus cell) ((watched (cellBus cell) x op).1) ops := rfl
    rw [e, ih _ ha.2]
    simp [watched, cellBus, ha.1]

/-- Operations at different addresses of a device of independent cells. -/
theorem traffic_cell {γ} {cell : Nat → γ → BusOp → γ × Nat × Bool} (ops : List BusOp) (hd : (ops.map (·.addr)).Nodup) (s : Nat → γ) :
    (∀ op ∈ ops, (traffic (cellBus cell) (s, []) ops).1 op.addr = (cell op.addr (s op.addr) op).1) ∧
    (traffic (cellBus cell) (s, []) ops).2 = ops.map fun op => ⟨decide (op.kind = .read), op.addr,
      if op.kind = .read then (cell op.addr (s op.addr) op).2.1 else op.data, -1⟩ := by
  induction ops generalizing s with
  | nil => exact ⟨by simp, rfl⟩
  | cons op ops ih =>
    rw [List.map_cons, List.nodup_cons] at hd
    have hne : ∀ o ∈ ops, o.addr ≠ op.addr := fun o ho e => hd.1 (List.mem_map.2 ⟨o, ho, e⟩)
    have e : traffic (cellBus cell) (s, []) (op :: ops) = traffic (cellBus cell) ((watched (cellBus cell) (s, []) op).1) ops := rfl
    have hs : ∀ o ∈ ops, (watched (cellBus cell) (s, []) op).1.1 o.addr = s o.addr := fun o ho => by simp [watched, cellBus, hne o ho]
    obtain ⟨h1, h2⟩ := ih hd.2 (watched (cellBus cell) (s, []) op).1.1
    rw [e]
    constructor
    · intro o ho
      rcases List.mem_cons.1 ho with rfl | ho
      · rw [traffic_frame _ _ _ hd.1]
        simp [watched, cellBus]
      · rw [show (watched (cellBus cell) (s, []) op).1 = ((watched (cellBus cell) (s, []) op).1.1, (watched (cellBus cell) (s, []) op).1.2) from rfl, traffic_log,
          h1 o ho, hs o ho]
    · rw [show (watched (cellBus cell) (s, []) op).1 = ((watched (cellBus cell) (s, []) op).1.1, (watched (cellBus cell) (s, []) op).1.2) from rfl, traffic_log, h2,
        List.map_cons]
      simp only [watched, List.nil_append, List.singleton_append, List.cons.injEq]
      refine ⟨rfl, List.map_congr_left fun o ho => ?_⟩
      have := hs o ho
      simp only [watched] at this
      rw [this]

theorem traffic_addrs {σ} (bus : Bus σ) (ops : List BusOp) (x : σ × List Beat) (l : List Nat) (h : ∀ op ∈ ops, op.addr ∈ l) (hx : ∀ b ∈ x.2, b.addr ∈ l ∧ b.be = -1) :
    ∀ b ∈ (traffic bus x ops).2, b.addr ∈ l ∧ b.be = -1 := by
  induction ops generalizing x with
  | nil => exact hx
  | cons op ops ih =>
    refine ih _ (fun o ho => h o (by simp [ho])) fun b hb => ?_
    simp only [watched, List.mem_append, List.mem_singleton] at hb
    rcases hb with hb | rfl
    · exact hx b hb
    · exact ⟨h op (by simp), rfl⟩


theorem local1_some {c : Conf} {r : Nat} (g : Reg) (po : Option Pend) {b : Beat} (hb : b.be = -1) : ∃ q, RegPredictor.local1 c r g po b = some q := by
  cases hl : RegPredictor.local1 c r g po b with
  | some q => exact ⟨q, rfl⟩
  | none =>
    exfalso
    unfold RegPredictor.local1 at hl
    rw [hb] at hl
    generalize po.getD ⟨b.read, 0, []⟩ = p at hl
    simp only at hl
    generalize p.addrs.contains b.addr = co at hl
    cases hi : (c.addrs r).idxOf? b.addr with
    | none => rw [hi] at hl; simp at hl
    | some i =>
      rw [hi] at hl
      simp only at hl
      generalize (if co = true then p.addrs else p.addrs ++ [b.addr]).length = n at hl
      by_cases hn : n = (c.addrs r).length
      · rw [if_pos hn, doPredict_front _ _ _ (by split <;> simp)] at hl; simp at hl
      · rw [if_neg hn] at hl; simp at hl

theorem local2_all {c : Conf} {r : Nat} (bs : List Beat) (hb : ∀ b ∈ bs, b.be = -1) (q : Reg × Option Pend × List RegPredictor.Ev) :
    ∃ q', bs.foldlM (local2 c r) q = some q' := by
  induction bs generalizing q with
  | nil => exact ⟨q, rfl⟩
  | cons b bs ih =>
    obtain ⟨p, e⟩ := local1_some (c := c) (r := r) q.1 q.2.1 (hb b (by simp))
    obtain ⟨q', e'⟩ := ih (fun x hx => hb x (by simp [hx])) (p.1, p.2.1, q.2.2 ++ p.2.2)
    refine ⟨q', ?_⟩
    rw [List.foldlM_cons, show local2 c r q b = some (p.1, p.2.1, q.2.2 ++ p.2.2) from by simp [local2, e]]
    exact e'

section
variable {c : Conf} {pol : Nat → Nat → Option Acc} {r : Nat}

/-- The beats of a whole transfer of a register in a chip. -/
theorem beats_transfer (hw : 1 ≤ c.w) {ops : List BusOp} (hn : (c.addrs r).Nodup) (ht : IsTransfer c.w (c.addrs r) ops) (hne : c.addrs r ≠ []) (s : Nat → Cell) :
    ∃ read : Bool, (∀ op ∈ ops, op.kind = if read then .read else .write) ∧ Transfer c r read (traffic (chip c.w pol) (s, []) ops).2 := by
  have hd := ht.once.nodup_iff.2 hn
  obtain ⟨h1, h2⟩ := traffic_cell (cell := chipCell c.w pol) ops hd s
  have hops : ops ≠ [] := by
    rintro rfl
    exact hne (by simpa using ht.once.symm)
  obtain ⟨o, ho⟩ := List.exists_mem_of_ne_nil ops hops
  have hk : ∀ op ∈ ops, op.kind = if decide (o.kind = .read) then .read else .write := by
    intro op hop
    rw [ht.same op hop o ho]
    cases o.kind <;> simp
  refine ⟨decide (o.kind = .read), hk, ?_, ?_, ?_⟩
  · rw [chip, h2, List.map_map]; exact ht.once
  · intro b hb
    rw [chip, h2] at hb
    obtain ⟨op, hop, rfl⟩ := List.mem_map.1 hb
    simp [ht.same op hop o ho]
  · intro b hb
    rw [chip, h2] at hb
    obtain ⟨op, hop, rfl⟩ := List.mem_map.1 hb
    by_cases hr : op.kind = .read
    · simp only [hr, if_true, chipCell]
      exact ofBits_lt _ _
    · simp only [hr, if_false]
      exact ht.width op hop

/-- Bit `k` of the value of a transfer is that of the word it is in. -/
theorem val_bit (hw : 1 ≤ c.w) (hn : (c.addrs r).Nodup) {read : Bool} {bs : List Beat} (ht : Transfer c r read bs) {k : Nat} (hk : k < 8 * c.w * (c.addrs r).length)
    {b : Beat} (hb : b ∈ bs) (hba : b.addr = wordOf c.w (c.addrs r) k) : (val c r bs).testBit k = b.data.testBit (k % (8 * c.w)) := by
  have := (RegPredictor.val_assembles hn ht).2 (k / (8 * c.w)) b.addr (by
    rw [hba, wordOf_get hk, List.getElem?_eq_getElem (word_lt hk)]) b hb rfl
  rw [← this, Nat.testBit_mod_two_pow, Nat.testBit_div_two_pow]
  have := Nat.mod_lt k (show 0 < 8 * c.w by omega)
  simp only [this, decide_true, Bool.true_and]
  congr 1
  have := Nat.div_add_mod k (8 * c.w)
  omega

theorem val_high (hn : (c.addrs r).Nodup) {read : Bool} {bs : List Beat} (ht : Transfer c r read bs) {k : Nat} (hk : ¬ k < 8 * c.w * (c.addrs r).length) :
    (val c r bs).testBit k = false := by
  apply Nat.testBit_lt_two_pow
  exact Nat.lt_of_lt_of_le (RegPredictor.val_assembles hn ht).1 (Nat.pow_le_pow_right (by omega) (by omega))

/-- Whatever a whole transfer does to the register in the chip, its beats do to the mirror. -/
theorem sound_transfer (hw : 1 ≤ c.w) (hn : (c.addrs r).Nodup) (hne : c.addrs r ≠ []) (hrt : c.rights r = .RW) {s : Nat → Cell} {g : Reg}
    (h : Sound c.w pol (c.addrs r) s g) (ops : List BusOp) (ht : IsTransfer c.w (c.addrs r) ops) (ev : List RegPredictor.Ev) :
    ∃ g' ev', (traffic (chip c.w pol) (s, []) ops).2.foldlM (local2 c r) (g, none, ev) = some (g', none, ev') ∧
      Sound c.w pol (c.addrs r) (traffic (chip c.w pol) (s, []) ops).1 g' ∧ g'.fields.map lay = g.fields.map lay ∧ g'.nBits = g.nBits ∧
      (AllReadable g → ∀ e ∈ ev', e ∈ ev ∨ ∃ rd v, e = .predicted r rd v) := by
  have hd := ht.once.nodup_iff.2 hn
  obtain ⟨read, hk, hT⟩ := beats_transfer (pol := pol) hw hn ht hne s
  obtain ⟨h1, h2⟩ := traffic_cell (cell := chipCell c.w pol) ops hd s
  have hbe : ∀ b ∈ (traffic (chip c.w pol) (s, []) ops).2, b.be = -1 := by
    intro b hb
    rw [chip, h2] at hb
    obtain ⟨op, _, rfl⟩ := List.mem_map.1 hb
    rfl
  obtain ⟨q, hq⟩ := local2_all (c := c) (r := r) _ hbe (g, none, ev)
  obtain ⟨g', ok, be, ⟨b, hb, e1⟩, e2, e3⟩ := RegPredictor.local_transfer g ev _ hn hne hT hq
  rw [← e1, hbe b hb, doPredict_front _ _ _ (by cases read <;> simp), Option.some.injEq, Prod.mk.injEq, hrt] at e2
  obtain ⟨rfl, _⟩ := e2
  have hop : ∀ k, k < 8 * c.w * (c.addrs r).length → ∃ op ∈ ops, op.addr = wordOf c.w (c.addrs r) k := by
    intro k hk
    have : wordOf c.w (c.addrs r) k ∈ ops.map (·.addr) := ht.once.mem_iff.2 (by rw [wordOf_get hk]; exact List.getElem_mem _)
    obtain ⟨op, h, e⟩ := List.mem_map.1 this
    exact ⟨op, h, e⟩
  have hall : ∀ a ∈ c.addrs r, ∃ op ∈ ops, op.addr = a := by
    intro a ha
    obtain ⟨op, h, e⟩ := List.mem_map.1 (ht.once.mem_iff.2 ha)
    exact ⟨op, h, e⟩
  cases read with
  | false =>
    have hkind : ∀ op ∈ ops, op.kind = .write := fun op ho => by simpa using hk op ho
    have := sound_wrote (s' := (traffic (chip c.w pol) (s, []) ops).1) (v := val c r (traffic (chip c.w pol) (s, []) ops).2) h
      (c := ({ route := .front .RW, auto := false, check := false } : RegAccess.Cfg)) (fun _ => rfl) ?_ ?_
    · refine ⟨_, _, hq.trans (congrArg some e3), this.1, this.2, rfl, fun _ e he => ?_⟩
      simp at he
      rcases he with he | he
      · exact .inl he
      · exact .inr ⟨_, _, he⟩
    · intro a ha
      obtain ⟨op, ho, rfl⟩ := hall a ha
      rw [chip, h1 op ho]
      simp [chipCell, hkind op ho]
    · intro k hk
      obtain ⟨op, ho, e⟩ := hop k hk
      have hbm : (⟨decide (op.kind = .read), op.addr, if op.kind = .read then (chipCell c.w pol op.addr (s op.addr) op).2.1 else op.data, -1⟩ : Beat) ∈
          (traffic (chip c.w pol) (s, []) ops).2 := by
        rw [chip, h2]; exact List.mem_map.2 ⟨op, ho, rfl⟩
      rw [val_bit hw hn hT hk hbm e]
      simp only [bitOf, ← e, chip, h1 op ho]
      simp only [chipCell, hkind op ho, reduceCtorEq, if_false]
      cases pol op.addr (k % (8 * c.w)) <;> rfl
  | true =>
    have hkind : ∀ op ∈ ops, op.kind = .read := fun op ho => by simpa using hk op ho
    have := sound_readout (s' := (traffic (chip c.w pol) (s, []) ops).1) (v := val c r (traffic (chip c.w pol) (s, []) ops).2) h
      (c := ({ route := .front .RW, auto := false, check := false } : RegAccess.Cfg)) (fun _ => rfl) ?_ ?_ ?_
    · refine ⟨_, _, hq.trans (congrArg some e3), this.1, this.2.1, rfl, fun hR e he => ?_⟩
      have hv := this.2.2 hR
      rw [hv] at he
      simp [doCheck] at he
      rcases he with he | he
      · exact .inl he
      · exact .inr ⟨_, _, he⟩
    · intro a ha
      obtain ⟨op, ho, rfl⟩ := hall a ha
      rw [chip, h1 op ho]
      simp [chipCell, hkind op ho]
    · intro k hk
      obtain ⟨op, ho, e⟩ := hop k hk
      simp only [bitOf, ← e, chip, h1 op ho]
      simp only [chipCell, hkind op ho]
      rfl
    · intro k
      by_cases hk : k < 8 * c.w * (c.addrs r).length
      · obtain ⟨op, ho, e⟩ := hop k hk
        have hbm : (⟨decide (op.kind = .read), op.addr, if op.kind = .read then (chipCell c.w pol op.addr (s op.addr) op).2.1 else op.data, -1⟩ : Beat) ∈
            (traffic (chip c.w pol) (s, []) ops).2 := by
          rw [chip, h2]; exact List.mem_map.2 ⟨op, ho, rfl⟩
        have hm := Nat.mod_lt k (show 0 < 8 * c.w by omega)
        rw [val_bit hw hn hT hk hbm e]
        simp only [bitOf, ← e, hkind op ho, if_true, chipCell, ofBits_aux, hm, hk, decide_true, Bool.true_and]
      · rw [val_high hn hT hk]; simp [hk]
end

/-! ### The accesses of the model on the watched bus -/

theorem chipBus_ok (w : Nat) (pol : Nat → Nat → Option Acc) (s : Nat → Cell) (op : BusOp) : (chip w pol s op).2.2 = true := chip_ok w pol _ _ _

theorem isTransfer_write {order : Order} (ho : Reorders order) (w v : Nat) (nb : Int) (be : Nat) (addrs : List Nat) :
    IsTransfer w addrs (order (mkAccesses .write w v nb be 0 addrs)) := by
  have hperm := ho (mkAccesses .write w v nb be 0 addrs)
  have hop : ∀ op ∈ order (mkAccesses .write w v nb be 0 addrs), op.kind = .write ∧ op.data < 2 ^ (8 * w) := by
    intro op hop
    obtain ⟨j, hj, rfl⟩ := (mkAccesses_mem _ _ _ _ _ _ _).1 (hperm.mem_iff.1 hop)
    refine ⟨rfl, ?_⟩
    simp only [mkOp, Nat.and_two_pow_sub_one_eq_mod]
    rw [Nat.mul_comm 8 w]
    exact Nat.mod_lt _ (Nat.two_pow_pos _)
  refine ⟨?_, fun a ha b hb => by rw [(hop a ha).1, (hop b hb).1], fun a ha => (hop a ha).2⟩
  have := hperm.map (·.addr)
  rwa [mkAccesses_addrs] at this

theorem isTransfer_read {order : Order} (ho : Reorders order) (w v : Nat) (nb : Int) (be : Nat) (addrs : List Nat) :
    IsTransfer w addrs ((order (mkAccesses .read w v nb be 0 addrs)).map fun op => { op with data := 0 }) := by
  have hperm := ho (mkAccesses .read w v nb be 0 addrs)
  have hop : ∀ op ∈ (order (mkAccesses .read w v nb be 0 addrs)).map fun op => { op with data := 0 }, op.kind = .read ∧ op.data = 0 := by
    intro op hop
    obtain ⟨op', h, rfl⟩ := List.mem_map.1 hop
    obtain ⟨j, hj, rfl⟩ := (mkAccesses_mem _ _ _ _ _ _ _).1 (hperm.mem_iff.1 h)
    exact ⟨rfl, rfl⟩
  refine ⟨?_, fun a ha b hb => by rw [(hop a ha).1, (hop b hb).1], fun a ha => by rw [(hop a ha).2]; exact Nat.two_pow_pos _⟩
  have := hperm.map (·.addr)
  rw [mkAccesses_addrs] at this
  rw [List.map_map]
  exact this

theorem wr_watched {order : Order} (ho : Reorders order) (w : Nat) (pol : Nat → Nat → Option Acc) (nb : Nat) (addrs : List Nat) (s : Nat → Cell) (v : Nat) :
    ∃ ops, IsTransfer w addrs ops ∧ (regDev (watched (chip w pol)) order w nb addrs).wr (s, []) v =
      (traffic (chip w pol) (s, []) ops, ((regDev (chip w pol) order w nb addrs).wr s v).2) := by
  refine ⟨_, isTransfer_write ho w v nb (2 ^ w - 1) addrs, ?_⟩
  obtain ⟨h1, _, h3⟩ := runWrites_watched (chipBus_ok w pol) (order (mkAccesses .write w v nb (2 ^ w - 1) 0 addrs)) (s, []) true
  simp only [regDev, busWrite]
  rw [Prod.ext_iff]
  exact ⟨h1, h3⟩

theorem rd_watched {order : Order} (ho : Reorders order) (w : Nat) (pol : Nat → Nat → Option Acc) (nb : Nat) (addrs : List Nat) (s : Nat → Cell) :
    ∃ ops, IsTransfer w addrs ops ∧ (regDev (watched (chip w pol)) order w nb addrs).rd (s, []) =
      (traffic (chip w pol) (s, []) ops, ((regDev (chip w pol) order w nb addrs).rd s).2) := by
  refine ⟨_, isTransfer_read ho w 0 nb (2 ^ w - 1) addrs, ?_⟩
  obtain ⟨h1, _, h3⟩ := runReads_watched (chipBus_ok w pol) w (order (mkAccesses .read w 0 nb (2 ^ w - 1) 0 addrs)) (s, []) 0 true
  simp only [regDev, busRead, List.headD_cons]
  rw [Prod.ext_iff]
  refine ⟨h1, ?_⟩
  rw [Prod.ext_iff]
  exact ⟨congrArg (·.1) h3, congrArg (·.2) h3⟩

/-- Only desired values changed. -/
inductive Edited (g : Reg) : Reg → Prop
  | same : Edited g g
  | set (v : Int) : Edited g (Reg.set g v)
  | field (k : Nat) (v : Int) : Edited g (Reg.step g (.fieldOp k (.set v)))

theorem sound_edited {w : Nat} {pol : Nat → Nat → Option Acc} {addrs : List Nat} {s : Nat → Cell} {g g' : Reg} (he : Edited g g') (h : Sound w pol addrs s g) :
    Sound w pol addrs s g' ∧ g'.fields.map lay = g.fields.map lay := by
  cases he with
  | same => exact ⟨h, rfl⟩
  | set v =>
    have hl : (Reg.set g v).fields.map lay = g.fields.map lay := by simp only [Reg.set, List.map_map]; rfl
    refine ⟨⟨good_set h.good v, wired_lay hl h.wired, fun x hx => ?_⟩, hl⟩
    obtain ⟨y, hy, rfl⟩ := List.mem_map.1 hx
    exact h.mirrors y hy
  | field k v =>
    have hl : (Reg.step g (.fieldOp k (.set v))).fields.map lay = g.fields.map lay := by
      apply List.ext_getElem?
      intro j
      simp only [Reg.step, List.getElem?_map, List.getElem?_modify]
      cases g.fields[j]? with
      | none => rfl
      | some x =>
        simp only [Option.map_some]
        split <;> rfl
    refine ⟨⟨(good_step h.good _).1, wired_lay hl h.wired, fun y hy => ?_⟩, hl⟩
    simp only [Reg.step] at hy
    obtain ⟨j, hj⟩ := List.mem_iff_getElem?.1 hy
    rw [List.getElem?_modify] at hj
    obtain ⟨x, hx, rfl⟩ := Option.map_eq_some_iff.1 hj
    have := h.mirrors x (List.mem_of_getElem? hx)
    split
    · exact this
    · exact this

/-- An operation of the model is at most one whole transfer; the register itself gets a new desired value at most. -/
theorem access_ops {order : Order} (ho : Reorders order) {p : Port} (hp : Explicit p) (w : Nat) (pol : Nat → Nat → Option Acc) (addrs : List Nat) (g : Reg)
    (s : Nat → Cell) (o : RegAccess.Op) :
    ∃ g1 ops out, access p (regDev (watched (chip w pol)) order w g.nBits addrs) g (s, []) o = some (g1, traffic (chip w pol) (s, []) ops, out) ∧
      Edited g g1 ∧ (ops = [] ∨ IsTransfer w addrs ops) ∧
      ((∀ t, ((regDev (chip w pol) order w g.nBits addrs).wr s t).2 = true) → ((regDev (chip w pol) order w g.nBits addrs).rd s).2.2 = true → AllOk out) ∧
      (((regDev (chip w pol) order w g.nBits addrs).rd s).2.1 = getMirrored g →
        (∀ st, out ≠ .mirrored st true) ∧ (o = .read → out = .got (getMirrored g) ((regDev (chip w pol) order w g.nBits addrs).rd s).2.2 false)) := by
  have hwrite : ∀ v : Nat, ∃ q ops, write p.cfg p.dflt (regDev (watched (chip w pol)) order w g.nBits addrs) p.preW p.postW g (s, []) v = some q ∧
      q.reg = Reg.set g v ∧ q.dev = traffic (chip w pol) (s, []) ops ∧ IsTransfer w addrs ops ∧
      q.ok = ((regDev (chip w pol) order w g.nBits addrs).wr s (v % 2 ^ g.nBits)).2 := by
    intro v
    obtain ⟨q, h1, h2, h3, h4⟩ := write_quiet hp.rw hp.bare p.dflt (regDev (watched (chip w pol)) order w g.nBits addrs) hp.preW hp.postW g (s, []) v
    obtain ⟨ops, e1, e2⟩ := wr_watched ho w pol g.nBits addrs s (v % 2 ^ g.nBits)
    rw [e2] at h2 h3
    rw [hp.auto] at h4
    exact ⟨q, ops, h1, by simpa using h4, h2, e1, h3⟩
  have hread : ∃ q ops, doRead p.cfg (regDev (watched (chip w pol)) order w g.nBits addrs) p.preR p.postR g (s, []) = some q ∧
      q.reg = g ∧ q.dev = traffic (chip w pol) (s, []) ops ∧ IsTransfer w addrs ops ∧ q.err = false ∧
      q.ok = ((regDev (chip w pol) order w g.nBits addrs).rd s).2.2 ∧ q.value = ((regDev (chip w pol) order w g.nBits addrs).rd s).2.1 := by
    obtain ⟨q, h1, h2, h3, h4, h5, h6⟩ := read_quiet hp.rw hp.bare (regDev (watched (chip w pol)) order w g.nBits addrs) hp.preR hp.postR g (s, [])
    obtain ⟨ops, e1, e2⟩ := rd_watched ho w pol g.nBits addrs s
    rw [e2] at h2 h3 h4
    rw [hp.auto] at h5 h6
    exact ⟨q, ops, h1, by simpa using h6, h2, e1, by simpa using h5, h3, h4⟩
  cases o with
  | set v => exact ⟨_, [], _, rfl, .set v, .inl rfl, fun _ _ => trivial, fun _ => ⟨nofun, nofun⟩⟩
  | setField k v => exact ⟨_, [], _, rfl, .field k v, .inl rfl, fun _ _ => trivial, fun _ => ⟨nofun, nofun⟩⟩
  | write v =>
    obtain ⟨q, ops, h1, h2, h3, h4, h5⟩ := hwrite v
    exact ⟨q.reg, ops, .wrote q.ok, by simp only [access, h1, ← h3]; rfl, h2 ▸ .set _, .inr h4, fun h _ => by rw [AllOk, h5]; exact h _, fun _ => ⟨nofun, nofun⟩⟩
  | update =>
    cases hn : Reg.needsUpdate g with
    | false => exact ⟨g, [], .updated [], by simp [access, update, hn, traffic], .same, .inl rfl, fun _ _ => by simp [AllOk], fun _ => ⟨nofun, nofun⟩⟩
    | true =>
      obtain ⟨q, ops, h1, h2, h3, h4, h5⟩ := hwrite (updateValue g)
      exact ⟨q.reg, ops, .updated [q.ok], by simp [access, update, hn, h1, ← h3], h2 ▸ .set _, .inr h4, fun h _ => by simp [AllOk, h5, h], fun _ => ⟨nofun, nofun⟩⟩
  | read =>
    obtain ⟨q, ops, h1, h2, h3, h4, h5, h6, h7⟩ := hread
    exact ⟨q.reg, ops, .got q.value q.ok q.err, by simp only [access, RegAccess.read, h1, ← h3]; rfl, h2 ▸ .same, .inr h4, fun _ h => by rw [AllOk, h6]; exact h,
      fun hv => ⟨nofun, fun _ => by rw [h7, h6, h5, hv]⟩⟩
  | mirror b =>
    obtain ⟨q, ops, h1, h2, h3, h4, h5, h6, h7⟩ := hread
    refine ⟨q.reg, ops, .mirrored [q.ok] (b && !(doCheck q.reg p.rt (getMirrored g) q.value)), by simp only [access, mirror, hp.rw, h1, ← h3]; rfl,
      h2 ▸ .same, .inr h4, fun _ h => by simp [AllOk, h6, h], fun hv => ⟨fun st hst => ?_, nofun⟩⟩
    rw [h7, hv] at hst
    simp [doCheck] at hst

end Verif.RegWatch
