import Verif.Spec.RegPar
import Verif.Props.RegConc
import Verif.Props.RegChip
namespace Verif.RegPar
open Verif.Reg Verif.RegField Verif.RegAccess Verif.RegMap Verif.RegSystem Verif.RegConc

/-- What a device makes of a request. -/
def serve {σ} (d : Dev σ) (s : σ) : Req → σ × Res
  | .write v => ((d.wr s v).1, .wrote (d.wr s v).2)
  | .read => ((d.rd s).1, .got (d.rd s).2.1 (d.rd s).2.2)

/-- An access is what comes before the bus, the bus, and what comes after it. -/
theorem access_split {σ} {p : Port} {rt : Rights} (hp : p.cfg.route = .front rt) (d : Dev σ) (r : Reg) (s : σ) (op : RegAccess.Op) :
    access p d r s op = match begin p r op with
      | .done r' o => some (r', s, o)
      | .ask r' q => (finish p r' r' op q (serve d s q).2).map fun x => (x.1, (serve d s q).1, x.2) := by
  have hr : rights p = rt := by simp [rights, hp]
  have hw : ∀ r v, doWrite p.cfg p.dflt d p.preW p.postW r s v =
      if (preWrite p.preW r v).1.ok = false then some ⟨r, s, false, (preWrite p.preW r v).2, []⟩
      else (endWrite p r (preWrite p.preW r v).1.value (d.wr s (preWrite p.preW r v).1.value).2).map fun x =>
        ⟨x.1, (d.wr s (preWrite p.preW r v).1.value).1, x.2, (preWrite p.preW r v).2,
          (postWrite p.postW x.1 ⟨(preWrite p.preW r v).1.value, (d.wr s (preWrite p.preW r v).1.value).2⟩).2⟩ := by
    intro r v
    simp only [doWrite, hp, endWrite, hr]
    split
    · rfl
    · cases p.cfg.auto
      · rfl
      · simp only [if_true]; cases predict p.cfg r (preWrite p.preW r v).1.value PKind.write Path.front rt <;> rfl
  have hrd : ∀ r, doRead p.cfg d p.preR p.postR r s =
      if (preRead p.preR r).1.ok = false then some ⟨r, s, false, (preRead p.preR r).1.value, false, (preRead p.preR r).2, []⟩
      else (endRead p r r (d.rd s).2.1 (d.rd s).2.2).map fun x =>
        ⟨x.1, (d.rd s).1, x.2.1, (d.rd s).2.1, x.2.2, (preRead p.preR r).2, (postRead p.postR x.1 ⟨(d.rd s).2.1, (d.rd s).2.2⟩).2⟩ := by
    intro r
    simp only [doRead, hp, endRead, hr]
    split
    · rfl
    · cases p.cfg.auto
      · rfl
      · simp only [if_true]; cases predict p.cfg r (d.rd s).2.1 PKind.read Path.front rt <;> rfl
  cases op with
  | set v => rfl
  | setField i v => rfl
  | write v =>
    simp only [access, write, hw, begin, beginWrite]
    split
    · rfl
    · simp only [finish, serve, Option.map_map]; rfl
  | read =>
    simp only [access, RegAccess.read, hrd, begin, beginRead]
    split
    · rfl
    · simp only [finish, serve, Option.map_map]; rfl
  | update =>
    simp only [access, update, write, hw, begin]
    split
    · rfl
    · simp only [beginWrite]
      split
      · rfl
      · simp only [finish, serve, Option.map_map]; rfl
  | mirror b =>
    simp only [access, mirror, hp, hrd, begin, beginRead]
    split
    · rfl
    · simp only [finish, serve, Option.map_map]; rfl

/-- The rest of what is on the bus, at once. -/
def flush {σ} (bus : Bus σ) (w : Nat) (f : Flight) (s : σ) : σ × Res :=
  match f.dir with
  | .write => ((runWrites bus f.todo (s, f.ok)).1, .wrote (runWrites bus f.todo (s, f.ok)).2)
  | .read => ((runReads bus w f.todo (s, f.value, f.ok)).1, .got (runReads bus w f.todo (s, f.value, f.ok)).2.1 (runReads bus w f.todo (s, f.value, f.ok)).2.2)

theorem flush_nil {σ} (bus : Bus σ) (w : Nat) (f : Flight) (h : f.todo = []) (s : σ) : flush bus w f s = (s, f.res) := by
  unfold flush Flight.res
  cases f.dir <;> simp [h, runWrites, runReads]

theorem flush_beat {σ} (bus : Bus σ) (w : Nat) (f : Flight) (op : BusOp) (ops : List BusOp) (h : f.todo = op :: ops) (s : σ) :
    flush bus w (beat bus w f op ops s).1 (beat bus w f op ops s).2 = flush bus w f s := by
  unfold flush beat
  cases hd : f.dir with
  | write =>
    simp only [h, runWrites]
    cases (bus s op).2.2 <;> simp [runWrites]
  | read =>
    simp only [h, runReads]
    cases (bus s { op with data := 0 }).2.2 <;> simp [runReads]

theorem flush_start {σ} (bus : Bus σ) (order : Order) (w nb : Nat) (addrs : List Nat) (q : Req) (s : σ) :
    flush bus w (start ⟨order, w, nb, addrs⟩ q) s = serve (regDev bus order w nb addrs) s q := by
  cases q with
  | write v => simp only [flush, start, serve, regDev, busWrite]
  | read => simp only [flush, start, serve, regDev, busRead, List.headD_cons]

theorem solo_append {σ} (bus : Bus σ) (order : Order) (w : Nat) (p : Port) (a b : List RegAccess.Op) (r : Reg) (s : σ) :
    solo bus order w p r s (a ++ b) = (solo bus order w p r s a).bind fun x =>
      (solo bus order w p x.1 x.2.1 b).map fun z => (z.1, z.2.1, x.2.2 ++ z.2.2) := by
  induction a generalizing r s with
  | nil => simp only [List.nil_append, solo, Option.bind_some]; cases solo bus order w p r s b <;> rfl
  | cons op a ih =>
    simp only [List.cons_append, solo]
    cases access p (regDev bus order w r.nBits p.addrs) r s op with
    | none => rfl
    | some q =>
      simp only [Option.bind_some, ih]
      cases solo bus order w p q.1 q.2.1 a with
      | none => rfl
      | some x =>
        simp only [Option.bind_some, Option.map_some, Option.map_map]
        cases solo bus order w p x.1 x.2.1 b <;> rfl

/-- The operation on the bus, completed at once. -/
def after {σ} (bus : Bus σ) (w : Nat) (p : Port) (t : Task) (s : σ) : Option (Reg × σ × List Out) :=
  match t.cur with
  | none => some (t.reg, s, [])
  | some g => (finish p g.seen t.reg g.op g.req (flush bus w g.flight s).2).map fun x => (x.1, (flush bus w g.flight s).1, [x.2])

/-- What everything asked for will have led to, completed one after the other. -/
def rest {σ} (bus : Bus σ) (order : Order) (w : Nat) (p : Port) (t : Task) (s : σ) : Option (Reg × σ × List Out) :=
  (after bus w p t s).bind fun x => (solo bus order w p x.1 x.2.1 t.queue).map fun z => (z.1, z.2.1, t.log ++ x.2.2 ++ z.2.2)

theorem rest_ask {σ} (bus : Bus σ) (order : Order) (w : Nat) (p : Port) (t : Task) (s : σ) (op : RegAccess.Op) :
    rest bus order w p { t with queue := t.queue ++ [op] } s = (rest bus order w p t s).bind fun x =>
      (solo bus order w p x.1 x.2.1 [op]).map fun z => (z.1, z.2.1, x.2.2 ++ z.2.2) := by
  unfold rest
  rw [show after bus w p { t with queue := t.queue ++ [op] } s = after bus w p t s from rfl]
  cases after bus w p t s with
  | none => rfl
  | some x =>
    simp only [Option.bind_some, solo_append]
    cases solo bus order w p x.1 x.2.1 t.queue with
    | none => rfl
    | some z =>
      simp only [Option.bind_some, Option.map_some, Option.map_map]
      cases solo bus order w p z.1 z.2.1 [op] with
      | none => rfl
      | some u => simp

theorem rest_step {σ} (bus : Bus σ) (order : Order) (w : Nat) {p : Port} {rt : Rights} (hp : p.cfg.route = .front rt) (t : Task) (s : σ) :
    rest bus order w p (t.step bus order w p s).1 (t.step bus order w p s).2 = rest bus order w p t s := by
  unfold Task.step
  split
  · rfl
  · split
    · next hc =>
      split
      · rfl
      · next op ops hq =>
        have ha : after bus w p t s = some (t.reg, s, []) := by simp [after, hc]
        have hs := access_split hp (regDev bus order w t.reg.nBits p.addrs) t.reg s op
        split
        · next r o hb =>
          rw [hb] at hs
          simp only [rest, ha, Option.bind_some, hq, solo, hs]
          simp only [after, hc, Option.bind_some]
          cases solo bus order w p r s ops <;> simp
        · next r q hb =>
          rw [hb] at hs
          simp only [rest, ha, Option.bind_some, hq, solo, hs]
          simp only [after, flush_start]
          cases finish p r r op q (serve (regDev bus order w t.reg.nBits p.addrs) s q).2 with
          | none => rfl
          | some x =>
            simp only [Option.map_some, Option.bind_some]
            cases solo bus order w p x.1 (serve (regDev bus order w t.reg.nBits p.addrs) s q).1 ops <;> simp
    · next g hc =>
      split
      · next ht =>
        have ha : after bus w p t s = (finish p g.seen t.reg g.op g.req g.flight.res).map fun x => (x.1, s, [x.2]) := by
          simp [after, hc, flush_nil bus w g.flight ht s]
        split
        · next hf =>
          unfold rest
          rw [show after bus w p { t with dead := true } s = after bus w p t s from rfl]
        · next x hf =>
          rw [hf] at ha
          simp only [rest, ha, Option.map_some, Option.bind_some]
          simp [after]
      · next op ops ht =>
        have ha : after bus w p { t with cur := some { g with flight := (beat bus w g.flight op ops s).1 } } (beat bus w g.flight op ops s).2 = after bus w p t s := by
          simp only [after, hc, flush_beat bus w g.flight op ops ht s]
        simp only [rest, ha]

/-! ### Several registers -/

/-- The words still to be accessed are words of the register. -/
def Within (p : Port) (t : Task) : Prop := ∀ g, t.cur = some g → ∀ op ∈ g.flight.todo, op.addr ∈ p.addrs

def Same {γ} (p : Port) (s s' : Nat → γ) : Prop := ∀ a ∈ p.addrs, s a = s' a

theorem within_step {σ} (bus : Bus σ) {order : Order} (ho : Reorders order) (w : Nat) {p : Port} {t : Task} (h : Within p t) (s : σ) :
    Within p (t.step bus order w p s).1 := by
  unfold Task.step
  split
  · exact h
  · split
    · split
      · exact h
      · next op ops _ =>
        split
        · exact fun g hg => h g hg
        · next r q _ =>
          intro g hg x hx
          simp only [Option.some.injEq] at hg
          subst hg
          exact start_within (p := ⟨order, w, t.reg.nBits, p.addrs⟩) ho q x hx
    · next g hc =>
      split
      · split
        · exact h
        · intro g hg; simp at hg
      · next op ops ht =>
        intro g' hg x hx
        simp only [Option.some.injEq] at hg
        subst hg
        exact h g hc x (by rw [ht]; exact List.mem_cons_of_mem _ (beat_todo _ _ _ _ _ _ x hx))

theorem same_step {γ} (cell : Nat → γ → BusOp → γ × Nat × Bool) (order : Order) (w : Nat) {p : Port} {t : Task} (h : Within p t) {s s' : Nat → γ} (hs : Same p s s') :
    (t.step (cellBus cell) order w p s).1 = (t.step (cellBus cell) order w p s').1 ∧
      Same p (t.step (cellBus cell) order w p s).2 (t.step (cellBus cell) order w p s').2 := by
  unfold Task.step
  split
  · exact ⟨rfl, hs⟩
  · split
    · split
      · exact ⟨rfl, hs⟩
      · split <;> exact ⟨rfl, hs⟩
    · next g hc =>
      split
      · split <;> exact ⟨rfl, hs⟩
      · next op ops ht =>
        obtain ⟨h1, h2⟩ := beat_same cell (p := ⟨order, w, 0, p.addrs⟩) hs w g.flight op ops (h g hc op (by rw [ht]; simp))
        simp only [h1]; exact ⟨trivial, h2⟩

theorem other_step {γ} (cell : Nat → γ → BusOp → γ × Nat × Bool) (order : Order) (w : Nat) {p : Port} {t : Task} (h : Within p t) (s : Nat → γ) (a : Nat) (ha : a ∉ p.addrs) :
    (t.step (cellBus cell) order w p s).2 a = s a := by
  unfold Task.step
  split
  · rfl
  · split
    · split
      · rfl
      · split <;> rfl
    · next g hc =>
      split
      · split <;> rfl
      · next op ops ht =>
        have hne : a ≠ op.addr := fun e => ha (e ▸ h g hc op (by rw [ht]; simp))
        unfold beat
        cases g.flight.dir <;> simp [cellBus, hne]

/-- How much register `i` still has to do, at most. -/
def work (p : Port) (t : Task) : Nat :=
  t.queue.length * (p.addrs.length + 2) + match t.cur with | none => 0 | some g => g.flight.todo.length + 1

theorem work_step {σ} (bus : Bus σ) {order : Order} (ho : Reorders order) (w : Nat) {p : Port} (t : Task) (s : σ) :
    (t.step bus order w p s).1.dead = true ∨ work p (t.step bus order w p s).1 ≤ work p t - 1 := by
  unfold Task.step
  split
  · next h => exact .inl h
  · split
    · next hc =>
      split
      · next hq => right; simp [work, hc, hq]
      · next op ops hq =>
        split
        · right; simp only [work, hc, hq, List.length_cons, Nat.add_mul]; omega
        · next r q _ =>
          right
          have hl : (start ⟨order, w, t.reg.nBits, p.addrs⟩ q).todo.length = p.addrs.length := by
            cases q <;> simp only [start] <;> rw [(ho _).length_eq, mkAccesses_length]
          simp only [work, hc, hq, List.length_cons, Nat.add_mul, hl]; omega
    · next g hc =>
      split
      · next ht =>
        split
        · exact .inl rfl
        · right; simp only [work, hc, ht, List.length_nil]; omega
      · next op ops ht =>
        right
        have hl : (beat bus w g.flight op ops s).1.todo.length ≤ ops.length := by
          unfold beat
          cases g.flight.dir <;> dsimp only <;> split <;> simp
        simp only [work, hc, ht, List.length_cons]; omega

end Verif.RegPar
