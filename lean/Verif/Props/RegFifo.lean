import Verif.Lemmas.RegFifo
/-!
# C50: FIFO registers
-/
namespace Verif.RegFifo
open Verif.RegField (maskInt Rights PKind Path)
open Verif.Spec.RegFifo (Ev queue low)

theorem new_nBits (cap n : Nat) (hn : 0 < n) : (new cap n).reg.nBits = n := by
  simp [new, Reg.addField, Reg.new, Reg.insertAt]; omega

/-- C50.  Whatever is done to a FIFO register, it never holds more words than its capacity, every word fits in the
register, and the capacity does not change. -/
theorem C50_capacity (cap n : Nat) (hn : 0 < n) (ops : List Op) :
    size (run (new cap n) ops) ≤ cap ∧ (∀ v ∈ (run (new cap n) ops).fifo, v < 2 ^ n) ∧ (run (new cap n) ops).cap = cap := by
  obtain ⟨h, h1, h2, _⟩ := shape_run ops (shape_new cap n) rfl
  have h3 := h.room
  have h4 := h.fits
  rw [h2, new_nBits cap n hn] at h4
  rw [h1] at h3
  exact ⟨h3, h4, h1⟩

example : (run (new 2 8) [.set 1, .set 300, .set 3, .write 4 .RW true true]).fifo = [1, 44] := by decide

/-- The access on the abstract queue that an operation stands for. -/
def event : Op → Ev
  | .set v => .put v
  | .predict v k _ _ ok => if ok then (if k = .read then .take else .put v) else .skip
  | .read _ _ busOk auto => if busOk && auto then .take else .skip
  | _ => .skip

/-- The operations for which the queue behaves as it should: not `write` and `update`, and predicted writes through a
map that gives full rights (or not through a map). -/
def Plain : Op → Prop
  | .write .. => False
  | .update .. => False
  | .predict _ k p rt _ => rt = .RW ∨ p = .other ∨ k ≠ .write
  | _ => True

theorem queue_snoc (cap n : Nat) (evs : List Ev) (e : Ev) : queue cap n (evs ++ [e]) = Spec.RegFifo.after cap n (queue cap n evs) e := by
  simp [queue, List.foldl_append]

theorem run_snoc (s : Fifo) (ops : List Op) (op : Op) : run s (ops ++ [op]) = step (run s ops) op := by
  simp [run, List.foldl_append]

theorem low_eq (n : Nat) (v : Int) : low n v = maskInt n v := by simp [low, maskInt]

/-- C50.  For every history of `set`, predictions, reads, randomisations and resets, the register holds exactly what a
bounded queue holds: words added by `set` and predicted writes in order (dropped when full), the oldest removed by each
successful read.  Missing: `write` and `update`, for which this is false. -/
theorem C50_order_partial (cap n : Nat) (hn : 0 < n) (ops : List Op) (hp : ∀ op ∈ ops, Plain op) :
    (run (new cap n) ops).fifo = queue cap n (ops.map event) := by
  have key : ∀ r : List Op, (∀ op ∈ r, Plain op) → (run (new cap n) r.reverse).fifo = queue cap n (r.reverse.map event) := by
    intro r
    induction r with
    | nil => intro _; rfl
    | cons op r ih =>
      intro hp
      have ih := ih fun o ho => hp o (List.mem_cons_of_mem _ ho)
      have hop := hp op List.mem_cons_self
      rw [List.reverse_cons, run_snoc, List.map_append, List.map_cons, List.map_nil, queue_snoc, ← ih]
      obtain ⟨h, h1, h2, hu⟩ := shape_run r.reverse (shape_new cap n) rfl
      rw [new_nBits cap n hn] at h2
      generalize run (new cap n) r.reverse = s at *
      have h1 : s.cap = cap := h1
      have hu : s.updating = false := hu
      have hroom := h.room
      cases op with
      | set v =>
        simp only [step, event, Spec.RegFifo.after, (set_spec h v).2.2.1, low_eq, h1, h2]
        by_cases hf : s.fifo.length = cap
        · rw [if_pos hf, if_neg (by omega)]
        · rw [if_neg hf, if_pos (by omega)]
      | predict v k p rt ok =>
        obtain ⟨s', p1, _, _, _, p5, _, p7⟩ := predict_spec h v k p rt ok
        simp only [step, p1]
        cases ok with
        | false => simp [p5 rfl, event, Spec.RegFifo.after]
        | true =>
          rw [p7 rfl hu hop, h1, h2]
          cases k <;> rfl
      | write v rt b a => exact absurd hop id
      | update rt b a => exact absurd hop id
      | read rv rt b a =>
        simp only [step, (read_spec h rv rt b a).2.2.2.2.2.2 hu, event]
        cases hba : b && a <;> simp [Spec.RegFifo.after]
      | randomize => rfl
      | reset k => rfl
  have := key ops.reverse (fun op ho => hp op (List.mem_reverse.mp ho))
  rwa [List.reverse_reverse] at this

example : (run (new 3 8) [.set 7, .predict 8 .write .front .RW true, .predict 9 .direct .front .RW true, .set 10,
    .read 7 .RW true true]).fifo = [8, 9] := by decide

/-- C50.  `get` gives the oldest word and leaves the register alone; a read of a non-empty FIFO goes to the bus and
gives its answer; a read of an empty FIFO is refused without touching the bus or the register. -/
theorem C50_read (cap n : Nat) (ops : List Op) (rv : Nat) (rt : Rights) (busOk auto : Bool) :
    let s := run (new cap n) ops
    (∀ w ws, s.fifo = w :: ws → get s = some w ∧
      (read s rv rt busOk auto).2 = (true, rv, busOk)) ∧
    (s.fifo = [] → read s rv rt busOk auto = (s, false, 0, false)) := by
  intro s
  obtain ⟨h, _⟩ := shape_run ops (shape_new cap n) rfl
  constructor
  · intro w ws hw
    obtain ⟨_, _, _, h4, h5, h6, _⟩ := read_spec h rv rt busOk auto
    have hw' : (run (new cap n) ops).fifo = w :: ws := hw
    rw [hw'] at h4 h5 h6
    refine ⟨by simp [get, hw], ?_⟩
    ext1
    · simpa using h4
    · ext1
      · exact h6 (by simp)
      · simpa using h5
  · intro he
    simp [read, preRead, he]

/-- C50 fails for `get` on an empty FIFO: it raises an IndexError. -/
theorem C50_get_empty_fails (cap n : Nat) : get (new cap n) = none := rfl

/-- C50 fails for `write`: outside an update, a write is refused in every state (error status, nothing sent to the
bus) and yet its value is put in the queue whenever there is room. -/
theorem C50_write_fails (cap n : Nat) (hn : 0 < n) (ops : List Op) (v : Int) (rt : Rights) (busOk auto : Bool) :
    let s := run (new cap n) ops
    (write s v rt busOk auto).2 = ([], false) ∧
    (size s < cap → (write s v rt busOk auto).1.fifo = s.fifo ++ [low n v]) := by
  intro s
  obtain ⟨h, h1, h2, hu⟩ := shape_run ops (shape_new cap n) rfl
  rw [new_nBits cap n hn] at h2
  have h : Shape s := h
  have h1 : s.cap = cap := h1
  have h2 : s.reg.nBits = n := h2
  have hw := write_idle h hu v rt busOk auto
  rw [hw]
  refine ⟨rfl, fun hs => ?_⟩
  simp only [(set_spec h v).2.2.1, h1, h2, low_eq]
  rw [if_neg (by simp only [size] at hs; omega)]

example : size (run (new 4 8) [.set 3]) < 4 := by decide

/-- Any number of `set` calls for which there is room. -/
theorem sets (cap n : Nat) (vs : List Int) : ∀ s : Fifo, Shape s → s.cap = cap → s.reg.nBits = n → s.updating = false →
    s.fifo.length + vs.length ≤ cap →
    Shape (run s (vs.map .set)) ∧ (run s (vs.map .set)).cap = cap ∧ (run s (vs.map .set)).updating = false ∧
    (run s (vs.map .set)).fifo = s.fifo ++ vs.map (low n) ∧ (run s (vs.map .set)).setCnt = s.setCnt + vs.length := by
  induction vs with
  | nil => intro s h h1 _ hu _; exact ⟨h, h1, hu, by simp [run], rfl⟩
  | cons v vs ih =>
    intro s h h1 h2 hu hl
    simp only [List.length_cons] at hl
    obtain ⟨g1, ⟨g2, g3, g4⟩, g5, g6⟩ := set_spec h v
    rw [if_neg (by omega)] at g5 g6
    rw [h2] at g5 g3
    obtain ⟨k1, k2, k3, k4, k5⟩ := ih (set s v) g1 (g2.trans h1) g3 (g4.trans hu) (by rw [g5]; simp; omega)
    refine ⟨k1, k2, k3, ?_, ?_⟩
    · show (run (set s v) (vs.map .set)).fifo = _
      rw [k4, g5]; simp [low_eq]
    · show (run (set s v) (vs.map .set)).setCnt = _
      rw [k5, g6]; simp; omega

/-- C50.  After any history that left nothing pending, values set for which there is room are the first words that
`update` writes, in order; if they fill the FIFO exactly, they are the only ones, the queue is unchanged and nothing is
pending any more.  Missing: the same when there is room left. -/
theorem C50_update_partial (cap n : Nat) (hn : 0 < n) (ops : List Op) (vs : List Int) (rt : Rights) (busOk auto : Bool) :
    let s := run (new cap n) ops
    s.setCnt = 0 → vs ≠ [] → size s + vs.length ≤ cap →
    ∃ s' ws, update (run s (vs.map .set)) rt busOk auto = some (s', ws) ∧ s'.setCnt = 0 ∧
      (∃ more, ws = vs.map (low n) ++ more) ∧
      (size s + vs.length = cap → ws = vs.map (low n) ∧ s'.fifo = s.fifo ++ vs.map (low n)) := by
  intro s hc hne hl
  obtain ⟨h, h1, h2, hu⟩ := shape_run ops (shape_new cap n) rfl
  rw [new_nBits cap n hn] at h2
  obtain ⟨g1, g2, g3, g4, g5⟩ := sets cap n vs s h h1 h2 hu hl
  obtain ⟨s', ws, u1, _, u3, _, u5⟩ := update_spec g1 g3 rt busOk auto
  have hvl : 0 < vs.length := List.length_pos_iff.mpr hne
  obtain ⟨u6, ⟨more, u7⟩, u8, u9⟩ := u5 (by rw [g5]; omega) (by rw [g4]; simp [hne])
  have hd : (run s (vs.map .set)).fifo.length - (run s (vs.map .set)).setCnt = s.fifo.length := by
    rw [g4, g5, hc]; simp
  rw [hd, u7, g4] at u8
  rw [List.append_assoc, List.drop_left] at u8
  refine ⟨s', ws, u1, u6, ⟨more, u8⟩, fun hf => ?_⟩
  have hm : more = [] := by
    rw [u7, g4, g2] at u9
    simp only [List.length_append, List.length_map] at u9
    simp only [size] at hf
    exact List.length_eq_zero_iff.mp (by omega)
  rw [hm] at u8 u7
  exact ⟨by simpa using u8, by rw [u7, g4]; simp⟩

example : let s := run (new 3 8) [.set 1, .update .RW true true, .read 1 .RW true true]
    s.setCnt = 0 ∧ size s + [5].length = 3 ∧ (update (run s [.set 5]) .RW true true).map (·.2) = some [5] := by decide

/-- C50 fails for `update` whenever there is room left: it writes more words than were set, and fills the queue up. -/
theorem C50_update_fails (cap n : Nat) (hn : 0 < n) (ops : List Op) (vs : List Int) (rt : Rights) (busOk auto : Bool) :
    let s := run (new cap n) ops
    s.setCnt = 0 → vs ≠ [] → size s + vs.length < cap →
    ∃ s' ws, update (run s (vs.map .set)) rt busOk auto = some (s', ws) ∧ ws.length = cap - size s ∧ vs.length < ws.length ∧
      size s' = cap := by
  intro s hc hne hl
  obtain ⟨h, h1, h2, hu⟩ := shape_run ops (shape_new cap n) rfl
  rw [new_nBits cap n hn] at h2
  obtain ⟨g1, g2, g3, g4, g5⟩ := sets cap n vs s h h1 h2 hu (by simp only [size] at hl; omega)
  obtain ⟨s', ws, u1, _, u3, _, u5⟩ := update_spec g1 g3 rt busOk auto
  have hvl : 0 < vs.length := List.length_pos_iff.mpr hne
  obtain ⟨u6, ⟨more, u7⟩, u8, u9⟩ := u5 (by rw [g5]; omega) (by rw [g4]; simp [hne])
  have hd : (run s (vs.map .set)).fifo.length - (run s (vs.map .set)).setCnt = s.fifo.length := by
    rw [g4, g5, hc]; simp
  rw [hd] at u8
  rw [g2] at u9
  have hwl : ws.length = cap - size s := by rw [u8, List.length_drop, u9]; rfl
  refine ⟨s', ws, u1, hwl, by simp only [size] at hl hwl ⊢; omega, u9⟩

/-- One value set on an empty FIFO of four words is written four times. -/
example : (update (run (new 4 8) [.set 7]) .RW true true).map (·.2) = some [7, 7, 7, 7] := by decide

/-- C50 fails after a value was set and then read back by prediction: the FIFO is empty, `update` writes nothing, and
the value stays counted as pending. -/
theorem C50_stale_pending_fails (cap n : Nat) (hc : 0 < cap) (v : Int) (rv : Nat) (rt : Rights) (busOk auto : Bool) :
    let s := run (new cap n) [.set v, .predict rv .read .front .RW true]
    s.fifo = [] ∧ s.setCnt = 1 ∧ update s rt busOk auto = some (s, []) := by
  intro s
  have h0 := shape_new cap n
  obtain ⟨g1, ⟨g2, g3, g4⟩, g5, g6⟩ := set_spec h0 v
  have hcap : (new cap n).cap = cap := rfl
  have hf : (new cap n).fifo = [] := rfl
  rw [if_neg (by simp [hf, hcap]; omega)] at g5 g6
  obtain ⟨s', p1, _, _, p4, _, _, p7⟩ := predict_spec g1 (rv : Int) .read .front .RW true
  have hs : s = s' := by simp [s, run, step, p1]
  have h1 := p7 rfl g4 (.inl rfl)
  rw [g5] at h1
  have hcnt : (new cap n).setCnt = 0 := rfl
  rw [g6, hcnt] at p4
  rw [← hs] at h1 p4
  have he : s.fifo = [] := by rw [h1]; simp [Spec.RegFifo.after, evOf, hf]
  exact ⟨he, p4, by simp [update, he]⟩

/-- C50.  Randomising the register leaves the queue alone and nothing pending: `update` then writes nothing. -/
theorem C50_randomize (cap n : Nat) (ops : List Op) (rt : Rights) (busOk auto : Bool) :
    let s := step (run (new cap n) ops) .randomize
    s.fifo = (run (new cap n) ops).fifo ∧ update s rt busOk auto = some (s, []) := by
  intro s
  have h0 : s.setCnt = 0 := rfl
  exact ⟨rfl, by simp [update, h0]⟩

example : (run (new 3 8) [.set 1, .set 2]).setCnt = 2 := by decide

/-- C50 fails for a write predicted through a map without write rights: the register's old value is added again. -/
theorem C50_rights_fails :
    (run (new 4 8) [.predict 5 .write .front .RW true, .predict 9 .write .front .RO true]).fifo = [5, 5] := by decide

/-- C50.  `set` and predicted writes on a full FIFO are dropped without effect on the queue. -/
theorem C50_full (cap n : Nat) (ops : List Op) (v : Int) (k : PKind) (p : Path) (rt : Rights) (ok : Bool) :
    let s := run (new cap n) ops
    size s = cap → k ≠ .read →
    (step s (.set v)).fifo = s.fifo ∧ (step s (.set v)).setCnt = s.setCnt ∧ (step s (.predict v k p rt ok)).fifo = s.fifo := by
  intro s hs hk
  obtain ⟨h, h1, h2, hu⟩ := shape_run ops (shape_new cap n) rfl
  have h : Shape s := h
  have h1 : s.cap = cap := h1
  have hu : s.updating = false := hu
  have hl : s.fifo.length = s.cap := by rw [h1]; exact hs
  obtain ⟨_, _, g5, g6⟩ := set_spec h v
  rw [if_pos hl] at g5 g6
  refine ⟨g5, g6, ?_⟩
  have hp : doPredict s v k p rt ok = (Reg.doPredict s.reg v k p rt (-1)).map fun q => ({ s with reg := q.1 }, ok && q.2) := by
    simp only [doPredict]
    cases Reg.doPredict s.reg v k p rt (-1) with
    | none => rfl
    | some q =>
      cases k with
      | read => exact absurd rfl hk
      | write => cases hq : ok && q.2 <;> simp [hq, hl]
      | direct => cases hq : ok && q.2 <;> simp [hq, hl]
  simp only [step, hp]
  cases Reg.doPredict s.reg v k p rt (-1) <;> rfl

example : size (run (new 2 8) [.set 1, .set 2]) = 2 := by decide

end Verif.RegFifo
