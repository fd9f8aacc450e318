import Verif.Spec.RegConc
import Verif.Props.RegMap
/-!
# C325: concurrent accesses to different registers

However the words of accesses to different registers are mixed on the bus, every access returns and leaves what it would have if the accesses to its
register had been made alone, one after the other.
-/
namespace Verif.RegConc
open Verif.RegMap

/-- The words still to be accessed are words of the register. -/
def Within (p : Place) (t : Task) : Prop := ∀ f, t.cur = some f → ∀ op ∈ f.todo, op.addr ∈ p.addrs

theorem start_within {p : Place} (hp : Reorders p.order) (q : Req) : ∀ op ∈ (start p q).todo, op.addr ∈ p.addrs := by
  have key : ∀ (d : Dir) (v : Nat), ∀ op ∈ p.order (mkAccesses d p.w v p.nBits (2 ^ p.w - 1) 0 p.addrs), op.addr ∈ p.addrs := by
    intro d v op hop
    have h1 := (hp _).mem_iff.1 hop
    have h2 : op.addr ∈ (mkAccesses d p.w v p.nBits (2 ^ p.w - 1) 0 p.addrs).map (·.addr) := List.mem_map.2 ⟨op, h1, rfl⟩
    rwa [mkAccesses_addrs] at h2
  cases q with
  | write v => exact key .write v
  | read => exact key .read 0

theorem beat_todo {σ} (bus : Bus σ) (w : Nat) (f : Flight) (op : BusOp) (ops : List BusOp) (s : σ) : ∀ x ∈ (beat bus w f op ops s).1.todo, x ∈ ops := by
  intro x
  unfold beat
  cases f.dir <;> dsimp only <;> split <;> simp

theorem step_within {σ} (bus : Bus σ) {p : Place} (hp : Reorders p.order) {t : Task} (h : Within p t) (s : σ) : Within p (t.step bus p s).1 := by
  unfold Task.step
  split
  · split
    · exact h
    · rename_i q qs hq
      intro f hf op hop
      simp only [Option.some.injEq] at hf
      subst hf
      exact start_within hp q op hop
  · rename_i f hc
    split
    · intro f' hf'; simp at hf'
    · rename_i op ops ht
      intro f' hf' x hx
      simp only [Option.some.injEq] at hf'
      subst hf'
      exact h f hc x (by rw [ht]; exact List.mem_cons_of_mem _ (beat_todo _ _ _ _ _ _ x hx))

/-- Two states of the device agree on the addresses of a register. -/
def Same {γ} (p : Place) (s s' : Nat → γ) : Prop := ∀ a ∈ p.addrs, s a = s' a

theorem cellBus_same {γ} (cell : Nat → γ → BusOp → γ × Nat × Bool) {p : Place} {s s' : Nat → γ} (h : Same p s s') (op : BusOp) (ha : op.addr ∈ p.addrs) :
    (cellBus cell s op).2 = (cellBus cell s' op).2 ∧ Same p (cellBus cell s op).1 (cellBus cell s' op).1 := by
  simp only [cellBus, h _ ha]
  refine ⟨trivial, fun a ha' => ?_⟩
  dsimp only
  split
  · rfl
  · exact h a ha'

theorem beat_same {γ} (cell : Nat → γ → BusOp → γ × Nat × Bool) {p : Place} {s s' : Nat → γ} (h : Same p s s') (w : Nat) (f : Flight) (op : BusOp)
    (ops : List BusOp) (ha : op.addr ∈ p.addrs) :
    (beat (cellBus cell) w f op ops s).1 = (beat (cellBus cell) w f op ops s').1 ∧
    Same p (beat (cellBus cell) w f op ops s).2 (beat (cellBus cell) w f op ops s').2 := by
  unfold beat
  cases f.dir with
  | write =>
    obtain ⟨h1, h2⟩ := cellBus_same cell h op ha
    simp only [h1]; exact ⟨trivial, h2⟩
  | read =>
    obtain ⟨h1, h2⟩ := cellBus_same cell h { op with data := 0 } ha
    simp only [h1]; exact ⟨trivial, h2⟩

theorem step_same {γ} (cell : Nat → γ → BusOp → γ × Nat × Bool) {p : Place} {s s' : Nat → γ} (h : Same p s s') {t : Task} (hw : Within p t) :
    (t.step (cellBus cell) p s).1 = (t.step (cellBus cell) p s').1 ∧ Same p (t.step (cellBus cell) p s).2 (t.step (cellBus cell) p s').2 := by
  unfold Task.step
  split
  · split
    · exact ⟨rfl, h⟩
    · exact ⟨rfl, h⟩
  · rename_i f hc
    split
    · exact ⟨rfl, h⟩
    · rename_i op ops ht
      obtain ⟨h1, h2⟩ := beat_same cell h p.w f op ops (hw f hc op (by rw [ht]; simp))
      simp only [h1]; exact ⟨trivial, h2⟩

theorem step_other {γ} (cell : Nat → γ → BusOp → γ × Nat × Bool) {p : Place} {s : Nat → γ} {t : Task} (hw : Within p t) (a : Nat) (ha : a ∉ p.addrs) :
    (t.step (cellBus cell) p s).2 a = s a := by
  unfold Task.step
  split
  · split <;> rfl
  · rename_i f hc
    split
    · rfl
    · rename_i op ops ht
      have hin := hw f hc op (by rw [ht]; simp)
      have hne : a ≠ op.addr := fun h => ha (h ▸ hin)
      unfold beat
      cases f.dir <;> simp [cellBus, hne]

/-- C325. Interleaving: after any schedule, what register `i` has running, waiting and returned, and what is behind its addresses, is what it would be if only
register `i` had gone on, as often as it did; an address of no register is as it was. -/
theorem C325_interleaving {n : Nat} {γ} (cell : Nat → γ → BusOp → γ × Nat × Bool) (places : Fin n → Place) (hS : Separate places)
    (queues : Fin n → List Req) (s : Nat → γ) (sched : List (Fin n)) (i : Fin n) :
    let st := run (cellBus cell) places ⟨fun j => { queue := queues j }, s⟩ sched
    let alone := run (cellBus cell) places ⟨fun j => { queue := queues j }, s⟩ (sched.filter fun j => decide (j = i))
    st.tasks i = alone.tasks i ∧ (∀ a ∈ (places i).addrs, st.dev a = alone.dev a) ∧ ∀ a, (∀ j, a ∉ (places j).addrs) → st.dev a = s a := by
  have key : ∀ (sched : List (Fin n)) (st st' : State n (Nat → γ)), (∀ j, Within (places j) (st.tasks j)) → st.tasks i = st'.tasks i →
      Same (places i) st.dev st'.dev →
      (run (cellBus cell) places st sched).tasks i = (run (cellBus cell) places st' (sched.filter fun j => decide (j = i))).tasks i ∧
      Same (places i) (run (cellBus cell) places st sched).dev (run (cellBus cell) places st' (sched.filter fun j => decide (j = i))).dev ∧
      ∀ a, (∀ j, a ∉ (places j).addrs) → (run (cellBus cell) places st sched).dev a = st.dev a := by
    intro sched
    induction sched with
    | nil => intro st st' _ h1 h2; exact ⟨h1, h2, fun _ _ => rfl⟩
    | cons k sched ih =>
      intro st st' hw h1 h2
      have hw' : ∀ j, Within (places j) ((step (cellBus cell) places st k).tasks j) := by
        intro j
        by_cases hj : j = k
        · subst hj; simpa [step] using step_within (cellBus cell) (hS.reorders j) (hw j) st.dev
        · simpa [step, hj] using hw j
      have hrest : ∀ a, (∀ j, a ∉ (places j).addrs) → (step (cellBus cell) places st k).dev a = st.dev a :=
        fun a ha => step_other cell (hw k) a (ha k)
      by_cases hk : k = i
      · subst hk
        rw [List.filter_cons_of_pos (by simp)]
        obtain ⟨e1, e2⟩ := step_same cell h2 (hw k)
        obtain ⟨g1, g2, g3⟩ := ih (step (cellBus cell) places st k) (step (cellBus cell) places st' k) hw'
          (by simp only [step, if_true, ← h1]; exact e1) (by simp only [step, ← h1]; exact e2)
        exact ⟨g1, g2, fun a ha => (g3 a ha).trans (hrest a ha)⟩
      · rw [List.filter_cons_of_neg (by simp [hk])]
        obtain ⟨g1, g2, g3⟩ := ih (step (cellBus cell) places st k) st' hw'
          (by simp only [step, show ¬ i = k from fun h => hk h.symm, if_false]; exact h1)
          (fun a ha => (step_other cell (hw k) a (hS.apart i k (fun h => hk h.symm) a ha)).trans (h2 a ha))
        exact ⟨g1, g2, fun a ha => (g3 a ha).trans (hrest a ha)⟩
  exact key sched _ _ (fun j f hf => by simp at hf) rfl fun _ _ => rfl

/-! ### One register alone -/

/-- `k` steps of one register. -/
def alone {σ} (bus : Bus σ) (p : Place) : Nat → Task × σ → Task × σ
  | 0, x => x
  | k + 1, x => alone bus p k (x.1.step bus p x.2)

theorem alone_add {σ} (bus : Bus σ) (p : Place) (k l : Nat) (x : Task × σ) : alone bus p (k + l) x = alone bus p l (alone bus p k x) := by
  induction k generalizing x with
  | zero => simp [alone]
  | succ k ih => rw [show k + 1 + l = (k + l) + 1 by omega]; exact ih _

theorem alone_finished {σ} (bus : Bus σ) (p : Place) (k : Nat) (x : Task × σ) (h : x.1.finished) : alone bus p k x = x := by
  induction k with
  | zero => rfl
  | succ k ih =>
    have : x.1.step bus p x.2 = x := by simp [Task.step, h.1, h.2]
    simp only [alone, this, ih]

/-- The rest of a write. -/
theorem finish_write {σ} (bus : Bus σ) (p : Place) (ops : List BusOp) (qs : List Req) (log : List Res) (v : Nat) (ok : Bool) (s : σ) :
    ∃ k, k ≤ ops.length + 1 ∧ alone bus p k (⟨qs, some ⟨.write, ops, v, ok⟩, log⟩, s) =
      (⟨qs, none, log ++ [.wrote (runWrites bus ops (s, ok)).2]⟩, (runWrites bus ops (s, ok)).1) := by
  induction ops generalizing s ok with
  | nil => exact ⟨1, by simp, rfl⟩
  | cons op ops ih =>
    cases hr : (bus s op).2.2 with
    | false => exact ⟨2, by simp, by simp [alone, Task.step, beat, hr, Flight.res, runWrites]⟩
    | true =>
      obtain ⟨k, hk, e⟩ := ih true (bus s op).1
      exact ⟨k + 1, by simp; omega, by simp only [alone, Task.step, beat, hr, if_true, e, runWrites]; simp⟩

/-- The rest of a read. -/
theorem finish_read {σ} (bus : Bus σ) (p : Place) (ops : List BusOp) (qs : List Req) (log : List Res) (v : Nat) (ok : Bool) (s : σ) :
    ∃ k, k ≤ ops.length + 1 ∧ alone bus p k (⟨qs, some ⟨.read, ops, v, ok⟩, log⟩, s) =
      (⟨qs, none, log ++ [.got (runReads bus p.w ops (s, v, ok)).2.1 (runReads bus p.w ops (s, v, ok)).2.2]⟩, (runReads bus p.w ops (s, v, ok)).1) := by
  induction ops generalizing s ok v with
  | nil => exact ⟨1, by simp, rfl⟩
  | cons op ops ih =>
    cases hr : (bus s { op with data := 0 }).2.2 with
    | false => exact ⟨2, by simp, by simp [alone, Task.step, beat, hr, Flight.res, runReads]⟩
    | true =>
      obtain ⟨k, hk, e⟩ := ih (v ||| (((bus s { op with data := 0 }).2.1 &&& (2 ^ (p.w * 8) - 1)) <<< (op.data * 8))) true (bus s { op with data := 0 }).1
      exact ⟨k + 1, by simp; omega, by simp only [alone, Task.step, beat, hr, if_true, e, runReads]; simp⟩

/-- The number of steps a register needs at most. -/
def budget (p : Place) (qs : List Req) : Nat := qs.length * (p.addrs.length + 2)

theorem alone_serial {σ} (bus : Bus σ) {p : Place} (hp : Reorders p.order) (qs : List Req) (log : List Res) (s : σ) :
    ∃ k, k ≤ budget p qs ∧ alone bus p k (⟨qs, none, log⟩, s) = (⟨[], none, log ++ (serial bus p qs s).1⟩, (serial bus p qs s).2) := by
  have hlen : ∀ (d : Dir) (v : Nat), (p.order (mkAccesses d p.w v p.nBits (2 ^ p.w - 1) 0 p.addrs)).length = p.addrs.length := by
    intro d v; rw [(hp _).length_eq, mkAccesses_length]
  induction qs generalizing s log with
  | nil => exact ⟨0, by simp, by simp [alone, serial]⟩
  | cons q qs ih =>
    cases q with
    | write v =>
      obtain ⟨k, hk, e⟩ := finish_write bus p (p.order (mkAccesses .write p.w v p.nBits (2 ^ p.w - 1) 0 p.addrs)) qs log 0 true s
      rw [hlen] at hk
      obtain ⟨l, hl, e2⟩ := ih (log ++ [.wrote (runWrites bus (p.order (mkAccesses .write p.w v p.nBits (2 ^ p.w - 1) 0 p.addrs)) (s, true)).2])
        (runWrites bus (p.order (mkAccesses .write p.w v p.nBits (2 ^ p.w - 1) 0 p.addrs)) (s, true)).1
      refine ⟨1 + (k + l), by simp only [budget, List.length_cons, Nat.add_mul, Nat.one_mul] at hl ⊢; omega, ?_⟩
      rw [alone_add, alone_add]
      simp only [alone, Task.step, start]
      rw [e, e2]
      simp [serial, busWrite]
    | read =>
      obtain ⟨k, hk, e⟩ := finish_read bus p (p.order (mkAccesses .read p.w 0 p.nBits (2 ^ p.w - 1) 0 p.addrs)) qs log 0 true s
      rw [hlen] at hk
      obtain ⟨l, hl, e2⟩ := ih (log ++ [.got (runReads bus p.w (p.order (mkAccesses .read p.w 0 p.nBits (2 ^ p.w - 1) 0 p.addrs)) (s, 0, true)).2.1
        (runReads bus p.w (p.order (mkAccesses .read p.w 0 p.nBits (2 ^ p.w - 1) 0 p.addrs)) (s, 0, true)).2.2])
        (runReads bus p.w (p.order (mkAccesses .read p.w 0 p.nBits (2 ^ p.w - 1) 0 p.addrs)) (s, 0, true)).1
      refine ⟨1 + (k + l), by simp only [budget, List.length_cons, Nat.add_mul, Nat.one_mul] at hl ⊢; omega, ?_⟩
      rw [alone_add, alone_add]
      simp only [alone, Task.step, start]
      rw [e, e2]
      simp [serial, busRead]

theorem run_alone {n : Nat} {σ} (bus : Bus σ) (places : Fin n → Place) (i : Fin n) (sched : List (Fin n)) (h : ∀ j ∈ sched, j = i) (st : State n σ) :
    ((run bus places st sched).tasks i, (run bus places st sched).dev) = alone bus (places i) sched.length (st.tasks i, st.dev) := by
  induction sched generalizing st with
  | nil => rfl
  | cons k sched ih =>
    have hk := h k (by simp)
    subst hk
    have := ih (fun j hj => h j (by simp [hj])) (step bus places st k)
    simp only [run, List.foldl_cons, List.length_cons, alone] at this ⊢
    rw [this]
    simp only [step, if_true]

/-- C325. Whenever the accesses to register `i` are over, under whatever schedule, they returned exactly what the accesses to that register return one after
the other with nothing else on the bus, and left the same behind its addresses. -/
theorem C325_as_if_alone {n : Nat} {γ} (cell : Nat → γ → BusOp → γ × Nat × Bool) (places : Fin n → Place) (hS : Separate places)
    (queues : Fin n → List Req) (s : Nat → γ) (sched : List (Fin n)) (i : Fin n) :
    let st := run (cellBus cell) places ⟨fun j => { queue := queues j }, s⟩ sched
    (st.tasks i).finished → (st.tasks i).log = (serial (cellBus cell) (places i) (queues i) s).1 ∧
      ∀ a ∈ (places i).addrs, st.dev a = (serial (cellBus cell) (places i) (queues i) s).2 a := by
  intro st hf
  obtain ⟨h1, h2, _⟩ := C325_interleaving cell places hS queues s sched i
  have ha := run_alone (cellBus cell) places i (sched.filter fun j => decide (j = i)) (by simp) ⟨fun j => { queue := queues j }, s⟩
  obtain ⟨k, _, e⟩ := alone_serial (cellBus cell) (hS.reorders i) (queues i) [] s
  have hfix : ∀ m, alone (cellBus cell) (places i) (k + m) (⟨queues i, none, []⟩, s) = alone (cellBus cell) (places i) k (⟨queues i, none, []⟩, s) := by
    intro m; rw [alone_add]; exact alone_finished _ _ _ _ (by rw [e]; exact ⟨rfl, rfl⟩)
  have hfin : alone (cellBus cell) (places i) (sched.filter fun j => decide (j = i)).length (⟨queues i, none, []⟩, s) =
      alone (cellBus cell) (places i) k (⟨queues i, none, []⟩, s) := by
    rw [← hfix (sched.filter fun j => decide (j = i)).length, Nat.add_comm, alone_add]
    refine (alone_finished _ _ _ _ ?_).symm
    rw [← ha, ← h1]
    exact hf
  rw [hfin, e] at ha
  simp only [List.nil_append, Prod.mk.injEq] at ha
  refine ⟨by rw [h1, ha.1], fun a haddr => by rw [h2 a haddr, ha.2]⟩

/-- C325. Every schedule that lets register `i` go on often enough completes its accesses, whatever the others do. -/
theorem C325_completes {n : Nat} {γ} (cell : Nat → γ → BusOp → γ × Nat × Bool) (places : Fin n → Place) (hS : Separate places)
    (queues : Fin n → List Req) (s : Nat → γ) (sched : List (Fin n)) (i : Fin n)
    (h : (queues i).length * ((places i).addrs.length + 2) ≤ (sched.filter fun j => decide (j = i)).length) :
    ((run (cellBus cell) places ⟨fun j => { queue := queues j }, s⟩ sched).tasks i).finished := by
  obtain ⟨h1, _, _⟩ := C325_interleaving cell places hS queues s sched i
  have ha := run_alone (cellBus cell) places i (sched.filter fun j => decide (j = i)) (by simp) ⟨fun j => { queue := queues j }, s⟩
  obtain ⟨k, hk, e⟩ := alone_serial (cellBus cell) (hS.reorders i) (queues i) [] s
  unfold budget at hk
  rw [show (sched.filter fun j => decide (j = i)).length = k + ((sched.filter fun j => decide (j = i)).length - k) by omega, alone_add] at ha
  dsimp only at ha
  rw [e, alone_finished _ _ _ _ ⟨rfl, rfl⟩] at ha
  rw [h1, (Prod.mk.inj ha).1]
  exact ⟨rfl, rfl⟩

theorem memBus_cell : memBus = cellBus memCell := by
  funext s op
  obtain ⟨kind, addr, data, be, nb⟩ := op
  cases kind with
  | write => rfl
  | read =>
    simp only [memBus, cellBus, memCell, Prod.mk.injEq, and_true]
    funext a
    by_cases h : a = addr <;> simp [h]

theorem serial_variable {p : Place} (hp : Reorders p.order) (hw : 1 ≤ p.w) (hne : p.addrs ≠ []) (hd : p.addrs.Nodup) (qs : List Req)
    (hv : ∀ v, Req.write v ∈ qs → v < 2 ^ (8 * p.w * p.addrs.length)) (s : Nat → Nat) (cur : Nat)
    (hs : (busRead memBus p.order p.w p.nBits (2 ^ p.w - 1) 0 p.addrs 1 (s, true)).2 = ([cur], true)) :
    (serial memBus p qs s).1 = asVariable cur qs := by
  induction qs generalizing s cur with
  | nil => rfl
  | cons q qs ih =>
    have hv' : ∀ v, Req.write v ∈ qs → v < 2 ^ (8 * p.w * p.addrs.length) := fun v h => hv v (by simp [h])
    cases q with
    | write v =>
      obtain ⟨h1, h2, _⟩ := C17_write_then_read p.order p.order hp hp p.w v hw p.nBits p.nBits (2 ^ p.w - 1) (2 ^ p.w - 1) 0 0 p.addrs hne hd
        (hv v (by simp)) s true true
      simp only [serial, asVariable, h1]
      rw [ih hv' _ v h2]
    | read =>
      have hsame : (busRead memBus p.order p.w p.nBits (2 ^ p.w - 1) 0 p.addrs 1 (s, true)).1 = s := by
        obtain ⟨ok', e, _⟩ := runReads_mem p.w (p.order (mkAccesses .read p.w 0 p.nBits (2 ^ p.w - 1) 0 p.addrs)) (order_perm_kind (hp _)) s 0 true
        simp only [busRead, e]
      simp only [serial, asVariable, hs, hsame, List.headD_cons]
      rw [ih hv' s cur hs]

/-- C325 on a memory: whatever accesses to other registers are mixed in between, once a register has been written its reads return what was last written to
it. -/
theorem C325_last_written {n : Nat} (places : Fin n → Place) (hS : Separate places) (queues : Fin n → List Req) (s : Nat → Nat) (sched : List (Fin n)) (i : Fin n)
    (hw : 1 ≤ (places i).w) (hne : (places i).addrs ≠ []) (hd : (places i).addrs.Nodup) (v : Nat) (qs : List Req) (hq : queues i = .write v :: qs)
    (hv : ∀ x, Req.write x ∈ queues i → x < 2 ^ (8 * (places i).w * (places i).addrs.length)) :
    let st := run memBus places ⟨fun j => { queue := queues j }, s⟩ sched
    (st.tasks i).finished → (st.tasks i).log = .wrote true :: asVariable v qs := by
  intro st hf
  simp only [st, memBus_cell] at hf ⊢
  rw [(C325_as_if_alone _ places hS queues s sched i hf).1, ← memBus_cell, hq]
  rw [hq] at hv
  obtain ⟨h1, h2, _⟩ := C17_write_then_read (places i).order (places i).order (hS.reorders i) (hS.reorders i) (places i).w v hw (places i).nBits (places i).nBits
    (2 ^ (places i).w - 1) (2 ^ (places i).w - 1) 0 0 (places i).addrs hne hd (hv v (by simp)) s true true
  simp only [serial, h1]
  rw [serial_variable (hS.reorders i) hw hne hd qs (fun x h => hv x (by simp [h])) _ v h2]

/-! ### A case: two registers of two words each -/

def exPlaces : Fin 2 → Place := fun i => if i = 0 then ⟨id, 2, 32, [0, 2]⟩ else ⟨List.reverse, 2, 32, [4, 6]⟩
def exQueues : Fin 2 → List Req := fun i => if i = 0 then [.write 0x11112222, .read] else [.write 0x33334444, .write 0x55556666, .read]
def exSched : List (Fin 2) := [0, 1, 1, 0, 1, 0, 0, 1, 0, 0, 1, 1, 1, 0, 0, 1, 1, 1, 1, 1, 1]

theorem ex_separate : Separate exPlaces where
  reorders i := by
    intro l
    match i with
    | 0 => exact List.Perm.refl _
    | 1 => exact List.reverse_perm _
  apart := by decide

example : ((run memBus exPlaces ⟨fun j => { queue := exQueues j }, fun _ => 0⟩ exSched).tasks 0).log = [.wrote true, .got 0x11112222 true] ∧
    ((run memBus exPlaces ⟨fun j => { queue := exQueues j }, fun _ => 0⟩ exSched).tasks 1).log = [.wrote true, .wrote true, .got 0x55556666 true] ∧
    ((run memBus exPlaces ⟨fun j => { queue := exQueues j }, fun _ => 0⟩ exSched).tasks 0).finished ∧
    ((run memBus exPlaces ⟨fun j => { queue := exQueues j }, fun _ => 0⟩ exSched).tasks 1).finished :=
  ⟨by decide, by decide, ⟨by decide, by decide⟩, ⟨by decide, by decide⟩⟩

/-- That the registers are separate is needed: two registers on the same words, a read that is interrupted returns half of the old and half of the new value. -/
example :
    let places : Fin 2 → Place := fun _ => ⟨id, 2, 32, [0, 2]⟩
    let queues : Fin 2 → List Req := fun i => if i = 0 then [.read] else [.write 0x11112222]
    ((run memBus places ⟨fun j => { queue := queues j }, fun _ => 0⟩ [0, 0, 1, 1, 1, 1, 0, 0]).tasks 0).log = [.got 0x11110000 true] := by decide

end Verif.RegConc
