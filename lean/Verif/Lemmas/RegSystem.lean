import Verif.Spec.RegSystem
import Verif.Props.RegAccess
import Verif.Props.RegMap
namespace Verif.RegSystem
open Verif.Reg Verif.RegField Verif.RegAccess Verif.RegMap

/-! ### Contents of words -/

theorem contents_lt {w : Nat} {s : Nat → Nat} (h : WordMem w s) (as : List Nat) : contents w s as < 2 ^ (as.length * (w * 8)) := by
  induction as with
  | nil => simp [contents]
  | cons a as ih =>
    have ha := h a
    rw [Nat.mul_comm 8 w] at ha
    simp only [contents, List.length_cons, Nat.mul_comm 8 w]
    rw [show (as.length + 1) * (w * 8) = w * 8 + as.length * (w * 8) by rw [Nat.add_mul, Nat.one_mul, Nat.add_comm], Nat.pow_add]
    generalize 2 ^ (w * 8) = p at *
    generalize 2 ^ (as.length * (w * 8)) = q at *
    have : p * (contents w s as + 1) ≤ p * q := Nat.mul_le_mul_left _ ih
    rw [Nat.mul_add, Nat.mul_one] at this
    omega

theorem contents_word {w : Nat} {s : Nat → Nat} (h : WordMem w s) (as : List Nat) (j : Nat) (hj : j < as.length) :
    s as[j] = (contents w s as >>> (j * w * 8)) &&& (2 ^ (w * 8) - 1) := by
  induction as generalizing j with
  | nil => simp at hj
  | cons a as ih =>
    have ha := h a
    rw [Nat.mul_comm 8 w] at ha
    rw [Nat.and_two_pow_sub_one_eq_mod]
    cases j with
    | zero =>
      simp only [contents, Nat.mul_comm 8 w, Nat.zero_mul, Nat.shiftRight_zero, List.getElem_cons_zero]
      rw [Nat.add_mul_mod_self_left, Nat.mod_eq_of_lt ha]
    | succ j =>
      have hj' : j < as.length := by simpa using hj
      have := ih j hj'
      rw [Nat.and_two_pow_sub_one_eq_mod] at this
      rw [List.getElem_cons_succ, this, show (j + 1) * w * 8 = w * 8 + j * w * 8 by rw [Nat.add_mul, Nat.add_mul, Nat.one_mul, Nat.add_comm],
        Nat.shiftRight_add]
      congr 2
      simp only [contents, Nat.mul_comm 8 w]
      rw [Nat.shiftRight_eq_div_pow, Nat.add_mul_div_left _ _ (Nat.two_pow_pos _), Nat.div_eq_of_lt ha, Nat.zero_add]

theorem contents_of_words {w : Nat} {s : Nat → Nat} (as : List Nat) (v : Nat)
    (h : ∀ j (hj : j < as.length), s as[j] = (v >>> (j * w * 8)) &&& (2 ^ (w * 8) - 1)) :
    contents w s as = v % 2 ^ (as.length * (w * 8)) := by
  induction as generalizing v with
  | nil => simp [contents, Nat.mod_one]
  | cons a as ih =>
    have h0 := h 0 (by simp)
    rw [Nat.and_two_pow_sub_one_eq_mod] at h0
    simp only [List.getElem_cons_zero, Nat.zero_mul, Nat.shiftRight_zero] at h0
    have ht := ih (v >>> (w * 8)) (by
      intro j hj
      have := h (j + 1) (by simpa using hj)
      rw [List.getElem_cons_succ] at this
      rw [this, show (j + 1) * w * 8 = w * 8 + j * w * 8 by rw [Nat.add_mul, Nat.add_mul, Nat.one_mul, Nat.add_comm], Nat.shiftRight_add])
    simp only [contents, Nat.mul_comm 8 w, h0, ht, List.length_cons]
    rw [show (as.length + 1) * (w * 8) = w * 8 + as.length * (w * 8) by rw [Nat.add_mul, Nat.one_mul, Nat.add_comm], Nat.pow_add,
      Nat.mod_mul, Nat.shiftRight_eq_div_pow]

theorem contents_congr {w : Nat} {s s' : Nat → Nat} (as : List Nat) (h : ∀ a ∈ as, s' a = s a) : contents w s' as = contents w s as := by
  induction as with
  | nil => rfl
  | cons a as ih => simp only [contents]; rw [h a (by simp), ih fun b hb => h b (by simp [hb])]

/-! ### Simulation between devices -/

/-- Two devices that look alike, in related states. -/
structure Alike {σ τ} (R : σ → τ → Prop) (d : Dev σ) (e : Dev τ) : Prop where
  wr : ∀ s t v, R s t → (d.wr s v).2 = (e.wr t v).2 ∧ R (d.wr s v).1 (e.wr t v).1
  rd : ∀ s t, R s t → (d.rd s).2 = (e.rd t).2 ∧ R (d.rd s).1 (e.rd t).1

/-- Related outcomes. -/
inductive ORel {α β} (Q : α → β → Prop) : Option α → Option β → Prop where
  | none : ORel Q none none
  | some {a b} : Q a b → ORel Q (some a) (some b)

theorem ORel.map {α β γ δ} {Q : α → β → Prop} {P : γ → δ → Prop} {f : α → γ} {g : β → δ} {a : Option α} {b : Option β}
    (h : ORel Q a b) (hf : ∀ x y, Q x y → P (f x) (g y)) : ORel P (a.map f) (b.map g) := by
  cases h with
  | none => exact .none
  | some h => exact .some (hf _ _ h)

def WRel {σ τ} (R : σ → τ → Prop) (a : WOut σ) (b : WOut τ) : Prop := a.reg = b.reg ∧ a.ok = b.ok ∧ R a.dev b.dev
def RRel {σ τ} (R : σ → τ → Prop) (a : ROut σ) (b : ROut τ) : Prop :=
  a.reg = b.reg ∧ a.ok = b.ok ∧ a.value = b.value ∧ a.err = b.err ∧ R a.dev b.dev

theorem doWrite_alike {σ τ} {R : σ → τ → Prop} {d : Dev σ} {e : Dev τ} (h : Alike R d e) (c : RegAccess.Cfg) (dflt : Rights) (pre post : Hooks)
    (r : Reg) (s : σ) (t : τ) (hst : R s t) (v : Nat) : ORel (WRel R) (doWrite c dflt d pre post r s v) (doWrite c dflt e pre post r t v) := by
  unfold doWrite
  split
  · exact .some ⟨rfl, rfl, hst⟩
  · rename_i rt _
    dsimp only
    split
    · exact .some ⟨rfl, rfl, hst⟩
    · obtain ⟨h1, h2⟩ := h.wr s t (preWrite pre r v).1.value hst
      split
      · generalize predict c r (preWrite pre r v).1.value .write .front rt = g
        cases g with
        | none => exact .none
        | some r1 => exact .some ⟨rfl, by simp only [h1], h2⟩
      · exact .some ⟨rfl, by simp only [h1], h2⟩
  · dsimp only
    split
    · exact .some ⟨rfl, rfl, hst⟩
    · generalize predict c r _ .write .other .backdoor = g
      cases g with
      | none => exact .none
      | some r1 => exact .some ⟨rfl, rfl, hst⟩

theorem doRead_alike {σ τ} {R : σ → τ → Prop} {d : Dev σ} {e : Dev τ} (h : Alike R d e) (c : RegAccess.Cfg) (pre post : Hooks)
    (r : Reg) (s : σ) (t : τ) (hst : R s t) : ORel (RRel R) (doRead c d pre post r s) (doRead c e pre post r t) := by
  unfold doRead
  split
  · exact .some ⟨rfl, rfl, rfl, rfl, hst⟩
  · rename_i rt _
    dsimp only
    split
    · exact .some ⟨rfl, rfl, rfl, rfl, hst⟩
    · obtain ⟨h1, h2⟩ := h.rd s t hst
      rw [h1]
      split
      · generalize predict c r (e.rd t).2.1 .read .front rt = g
        cases g with
        | none => exact .none
        | some r1 => exact .some ⟨rfl, rfl, rfl, rfl, h2⟩
      · exact .some ⟨rfl, rfl, rfl, rfl, h2⟩
  · dsimp only
    split
    · exact .some ⟨rfl, rfl, rfl, rfl, hst⟩
    · generalize predict c r _ .read .other .backdoor = g
      cases g with
      | none => exact .none
      | some r1 => exact .some ⟨rfl, rfl, rfl, rfl, hst⟩

def ARel {σ τ} (R : σ → τ → Prop) (a : Reg × σ × Out) (b : Reg × τ × Out) : Prop := a.1 = b.1 ∧ a.2.2 = b.2.2 ∧ R a.2.1 b.2.1

theorem access_alike {σ τ} {R : σ → τ → Prop} {d : Dev σ} {e : Dev τ} (h : Alike R d e) (p : Port) (r : Reg) (s : σ) (t : τ) (hst : R s t) (op : RegAccess.Op) :
    ORel (ARel R) (access p d r s op) (access p e r t op) := by
  cases op with
  | set v => exact .some ⟨rfl, rfl, hst⟩
  | setField i v => exact .some ⟨rfl, rfl, hst⟩
  | write v =>
    exact (doWrite_alike h p.cfg p.dflt p.preW p.postW (Reg.set r v) s t hst v).map fun x y q => ⟨q.1, by simp only [q.2.1], q.2.2⟩
  | read =>
    exact (doRead_alike h p.cfg p.preR p.postR r s t hst).map fun x y q => ⟨q.1, by simp only [q.2.1, q.2.2.1, q.2.2.2.1], q.2.2.2.2⟩
  | update =>
    simp only [access, update]
    split
    · exact .some ⟨rfl, rfl, hst⟩
    · rw [Option.map_map, Option.map_map]
      exact (doWrite_alike h p.cfg p.dflt p.preW p.postW (Reg.set r (updateValue r)) s t hst (updateValue r)).map fun x y q =>
        ⟨q.1, by simp only [Function.comp, q.2.1], q.2.2⟩
  | mirror b =>
    simp only [access, mirror]
    split
    · exact .some ⟨rfl, rfl, hst⟩
    · rw [Option.map_map, Option.map_map]
      exact (doRead_alike h p.cfg p.preR p.postR r s t hst).map fun x y q =>
        ⟨q.1, by simp only [Function.comp, q.1, q.2.1, q.2.2.1], q.2.2.2.2⟩

def SRel {n : Nat} {σ τ} (R : σ → τ → Prop) (a : State n σ × List Out) (b : State n τ × List Out) : Prop :=
  a.1.regs = b.1.regs ∧ a.2 = b.2 ∧ R a.1.dev b.1.dev

theorem run_alike {n : Nat} {σ τ} {R : σ → τ → Prop} {d : Fin n → Reg → Dev σ} {e : Fin n → Reg → Dev τ} (h : ∀ i r, Alike R (d i r) (e i r))
    (ports : Fin n → Port) (ops : List (Fin n × RegAccess.Op)) (regs : Fin n → Reg) (s : σ) (t : τ) (hst : R s t) :
    ORel (SRel R) (run ports d ⟨regs, s⟩ ops) (run ports e ⟨regs, t⟩ ops) := by
  induction ops generalizing regs s t with
  | nil => exact .some ⟨rfl, rfl, hst⟩
  | cons op ops ih =>
    have ha := access_alike (h op.1 (regs op.1)) (ports op.1) (regs op.1) s t hst op.2
    simp only [run, step]
    generalize access (ports op.1) (d op.1 (regs op.1)) (regs op.1) s op.2 = x at ha
    generalize access (ports op.1) (e op.1 (regs op.1)) (regs op.1) t op.2 = y at ha
    cases ha with
    | none => exact .none
    | @some a b q =>
      obtain ⟨a1, a2, a3⟩ := a
      obtain ⟨b1, b2, b3⟩ := b
      obtain ⟨q1, q2, q3⟩ := q
      simp only at q1 q2 q3
      subst q1 q2
      simp only [Option.map_some]
      exact (ih (fun j => if j = op.1 then a1 else regs j) a2 b2 q3).map fun x y z => ⟨z.1, by rw [z.2.1], z.2.2⟩

/-! ### The registers on a bus of words -/

/-- The relation kept by every access: each variable is what the words of the register hold, and the rest of the memory is as it was. -/
structure Holds {n : Nat} (w : Nat) (ports : Fin n → Port) (s0 s : Nat → Nat) (m : Fin n → Nat) : Prop where
  mem : WordMem w s
  vars : ∀ i, contents w s (ports i).addrs = m i
  rest : ∀ a, (∀ i, a ∉ (ports i).addrs) → s a = s0 a

theorem busWrite_mem {order : Order} (ho : Reorders order) (w v : Nat) (nb : Int) (be : Nat) {as : List Nat} (hne : as ≠ []) (hd : as.Nodup)
    (s : Nat → Nat) : ∃ s', busWrite memBus order w nb be 0 as [v] (s, true) = (s', true) ∧
      (∀ j (hj : j < as.length), s' as[j] = (v >>> (j * w * 8)) &&& (2 ^ (w * 8) - 1)) ∧ (∀ a, a ∉ as → s' a = s a) := by
  obtain ⟨s', k, e1, e2, e3, e4⟩ := write_word order ho w v nb be as hd s true
  have hk : k = true := by rcases e2 with h | ⟨h, _⟩; exact h; exact absurd h hne
  exact ⟨s', by simp only [busWrite, e1, hk], e3, e4⟩

theorem onBus_alike {n : Nat} {order : Order} (ho : Reorders order) {w : Nat} (hw : 1 ≤ w) {ports : Fin n → Port} (hA : Apart ports)
    (s0 : Nat → Nat) (i : Fin n) (r : Reg) :
    Alike (Holds w ports s0) (onBus memBus order w ports i r) (variables (fun i => 8 * w * (ports i).addrs.length) i r) := by
  constructor
  · intro s m v h
    obtain ⟨s', e1, e2, e3⟩ := busWrite_mem ho w v r.nBits (2 ^ w - 1) (hA.some i) (hA.once i) s
    simp only [onBus, regDev, variables, e1]
    refine ⟨trivial, ⟨fun a => ?_, fun k => ?_, fun a ha => ?_⟩⟩
    · by_cases ha : a ∈ (ports i).addrs
      · obtain ⟨j, hj, rfl⟩ := List.getElem_of_mem ha
        rw [e2 j hj, Nat.and_two_pow_sub_one_eq_mod, Nat.mul_comm 8 w]
        exact Nat.mod_lt _ (Nat.two_pow_pos _)
      · rw [e3 a ha]; exact h.mem a
    · by_cases hk : k = i
      · subst hk
        simp only [if_true]
        rw [contents_of_words _ v e2, Nat.mul_comm (ports k).addrs.length, Nat.mul_comm 8 w]
      · simp only [hk, if_false]
        rw [← h.vars k]
        exact contents_congr _ fun a ha => e3 a fun hc => hA.apart k i hk a ha hc
    · rw [e3 a (ha i)]; exact h.rest a ha
  · intro s m h
    obtain ⟨k, g1, g2⟩ := burst_read order ho w hw r.nBits (2 ^ w - 1) 0 [contents w s (ports i).addrs] (ports i).addrs (hA.some i) s true
      (by simpa using contents_lt h.mem _) (by
        intro j p hj hp
        simp only [List.length_cons, List.length_nil] at hp
        have : p = 0 := by omega
        subst this
        simpa using contents_word h.mem _ j hj)
    have hk : k = true := by rcases g2 with h | ⟨h, _⟩; exact h; simp at h
    simp only [List.length_cons, List.length_nil] at g1
    simp only [onBus, regDev, variables, g1, hk, List.headD_cons, h.vars i]
    exact ⟨trivial, h⟩

end Verif.RegSystem
