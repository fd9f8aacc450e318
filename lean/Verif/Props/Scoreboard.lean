import Verif.Lemmas.Scoreboard
/-! # C354, C355: what a checking environment receives, and what its comparators count, for every history -/
namespace Verif.Scoreboard
variable {α : Type}

/-- C354. A subscriber receives exactly the transactions written to the ports from which connections lead to it: each once (also when
several paths lead to it), in the order written, whatever else happens. -/
theorem C354_subscriber {nm node calls ps net} (hw : Wired nm node calls ps net) (comp : α → α → Bool) (sink : Nat → Sink) (i k : Nat)
    (hi : sink i = .sub k) (hu : ∀ j, sink j = .sub k → j = i) (leads : Nat → Bool) (hl : LeadsTo (Port.built nm node calls) ps i leads)
    (ops : List (Op α)) (hp : WritesIn ps ops) : (run comp net sink {} ops).subs k = writtenTo leads ops := by
  simpa using run_sub hw comp sink i k hi hu leads hl ops hp {}

/-- C354. What was taken out of an analysis FIFO (by any consumers, in any way), followed by what it still holds, is exactly what was
written to the ports that lead to it, in order: nothing lost, doubled, reordered or invented. -/
theorem C354_fifo {nm node calls ps net} (hw : Wired nm node calls ps net) (comp : α → α → Bool) (sink : Nat → Sink) (i k : Nat)
    (hi : sink i = .fifo k) (hu : ∀ j, sink j = .fifo k → j = i) (leads : Nat → Bool) (hl : LeadsTo (Port.built nm node calls) ps i leads)
    (ops : List (Op α)) (hp : WritesIn ps ops) :
    ((run comp net sink {} ops).fifoOut k).flatMap TlmFifo.takenBy ++ ((run comp net sink {} ops).fifos k).m.queue = writtenTo leads ops := by
  obtain ⟨es, h1, _, h3⟩ := run_fifo hw comp sink i k hi hu leads hl ops hp {} [] fifoAt_init
  have := TlmFifo.C42_order 0 es
  rw [show (TlmFifo.init 0 : TlmFifo.State α) = TlmFifo.initAnalysis from rfl, h1] at this
  rw [this, h3, List.nil_append]

/-- C354. Every comparator has published, in order, the first so many pairs of the two streams written to the ports that lead to its two
sides, each with the verdict of the comparison. -/
theorem C354_pairs {nm node calls ps net} (hw : Wired nm node calls ps net) (comp : α → α → Bool) (sink : Nat → Sink) (i j c : Nat)
    (hi : sink i = .before c) (hj : sink j = .after c) (hui : ∀ m, sink m = .before c → m = i) (huj : ∀ m, sink m = .after c → m = j)
    (lb la : Nat → Bool) (hb : LeadsTo (Port.built nm node calls) ps i lb) (ha : LeadsTo (Port.built nm node calls) ps j la)
    (ops : List (Op α)) (hp : WritesIn ps ops) :
    (run comp net sink {} ops).pairs c =
      (Comparator.pairUp comp (writtenTo la ops) (writtenTo lb ops)).take ((run comp net sink {} ops).pairs c).length := by
  obtain ⟨es, _, h2, h3, h4, _⟩ := run_cmp hw comp sink i j c hi hj hui huj lb la hb ha ops hp {} [] [] False (cmpAt_init comp)
  have := Comparator.C45_prefix comp es
  rwa [h2, h3, h4, List.nil_append, List.nil_append] at this

theorem pairUp_ok_iff (comp : α → α → Bool) (as bs : List α) :
    (∀ p ∈ Comparator.pairUp comp as bs, p.ok = true) ↔
      ∀ (n : Nat) b a, bs[n]? = some b → as[n]? = some a → comp b a = true := by
  induction as generalizing bs with
  | nil => simp [Comparator.pairUp]
  | cons a as ih =>
    cases bs with
    | nil => simp [Comparator.pairUp]
    | cons b bs =>
      have := ih bs
      simp only [Comparator.pairUp, List.zipWith_cons_cons, List.mem_cons, forall_eq_or_imp] at this ⊢
      rw [this]
      constructor
      · rintro ⟨h1, h2⟩ n b' a' hb ha
        cases n with
        | zero => simp only [List.getElem?_cons_zero, Option.some.injEq] at hb ha; rw [← hb, ← ha]; exact h1
        | succ n => exact h2 n b' a' (by simpa using hb) (by simpa using ha)
      · intro h
        exact ⟨h 0 b a rfl rfl, fun n b' a' hb ha => h (n + 1) b' a' (by simpa using hb) (by simpa using ha)⟩

theorem filter_split (p : Comparator.Pair α → Bool) (l : List (Comparator.Pair α)) (n : Nat)
    (h : (l.filter p).length + n = l.length) : n = 0 ↔ ∀ x ∈ l, p x = true := by
  constructor
  · intro h0 x hx
    have he : (l.filter p).length = l.length := by omega
    exact List.length_filter_eq_length_iff.1 he x hx
  · intro hx
    have := List.length_filter_eq_length_iff.2 hx
    omega

/-- C354. Once a started comparator has nothing left to do (and if it was never flushed): it has compared every position that both
streams have, and it counts no mismatch exactly if at each of them the two transactions compare equal. -/
theorem C354_verdict {nm node calls ps net} (hw : Wired nm node calls ps net) (comp : α → α → Bool) (sink : Nat → Sink) (i j c : Nat)
    (hi : sink i = .before c) (hj : sink j = .after c) (hui : ∀ m, sink m = .before c → m = i) (huj : ∀ m, sink m = .after c → m = j)
    (lb la : Nat → Bool) (hb : LeadsTo (Port.built nm node calls) ps i lb) (ha : LeadsTo (Port.built nm node calls) ps j la)
    (ops : List (Op α)) (hp : WritesIn ps ops) (hf : .cmp c .flush ∉ ops) (hs : Comparator.Settled ((run comp net sink {} ops).cmps c)) :
    let s := (run comp net sink {} ops).cmps c
    (run comp net sink {} ops).pairs c = Comparator.pairUp comp (writtenTo la ops) (writtenTo lb ops) ∧
    s.nMatch + s.nMismatch = min (writtenTo lb ops).length (writtenTo la ops).length ∧
    (s.nMismatch = 0 ↔ ∀ (n : Nat) b a, (writtenTo lb ops)[n]? = some b → (writtenTo la ops)[n]? = some a → comp b a = true) := by
  obtain ⟨es, h1, h2, h3, h4, h5⟩ := run_cmp hw comp sink i j c hi hj hui huj lb la hb ha ops hp {} [] [] False (cmpAt_init comp)
  have hne : ∀ e ∈ es, e ≠ .flush := fun e he h => (h5 (h ▸ he)).elim id hf
  simp only [List.nil_append] at h3 h4
  have hs' : Comparator.Settled (Verif.runS (Comparator.step comp) Comparator.init es) := by rw [h1]; exact hs
  have a1 := Comparator.C45_all_pairs comp es hs'
  have a2 := Comparator.C45_total comp es hne hs'
  simp only [h1, h2, h3, h4] at a1 a2
  refine ⟨a1.1, a2.1, ?_⟩
  rw [← pairUp_ok_iff]
  refine filter_split (fun p => p.ok) _ _ ?_
  rw [← a1.1, a1.2, ← a2.1, a2.2, a1.1]

/-! ## With a sequencer and its driver -/

theorem observe_eq (obs : Sequencer.Item → α) (l : List Sequencer.Out) : observe obs l = (Sequencer.doneOf l).map obs := by
  induction l with
  | nil => rfl
  | cons o l ih => cases o <;> simp only [observe, Sequencer.doneOf, ih, List.map_cons]

theorem writtenTo_port (leads : Nat → Bool) (port : Nat) (l : List α) :
    writtenTo leads (l.map (.write port)) = if leads port then l else [] := by
  induction l with
  | nil => simp [writtenTo]
  | cons x l ih => simp only [List.map_cons, writtenTo, ih]; split <;> rfl

variable {mode : Arbiter.Mode} {rel : Arbiter.Seq → Bool} {rnd : Nat → Nat}

/-- What the environment of a testbench goes through: the writes of the driver and everything else, interleaved. -/
theorem bench_ops (comp : α → α → Bool) (net : Port.State) (sink : Nat → Sink) (port : Nat) (obs : Sequencer.Item → α)
    (bops : List (BOp α)) : ∀ b : Bench α,
    ∃ more ops, (bops.foldl (bstep mode rel rnd comp net sink port obs) b).outs = b.outs ++ more ∧
      (bops.foldl (bstep mode rel rnd comp net sink port obs) b).sb = run comp net sink b.sb ops ∧
      (∀ leads : Nat → Bool, leads port = true → (∀ p x, .write p x ∈ otherOps bops → leads p = false) →
        writtenTo leads ops = (Sequencer.doneOf more).map obs) ∧
      (∀ leads : Nat → Bool, leads port = false → writtenTo leads ops = writtenTo leads (otherOps bops)) ∧
      (∀ c, .cmp c .flush ∈ ops → .cmp c .flush ∈ otherOps bops) ∧
      (∀ ps, port ∈ ps → WritesIn ps (otherOps bops) → WritesIn ps ops) := by
  induction bops with
  | nil =>
    intro b
    exact ⟨[], [], by simp, rfl, fun _ _ _ => rfl, fun _ _ => rfl, fun _ h => h, fun _ _ h => h⟩
  | cons o bops ih =>
    intro b
    obtain ⟨more, ops, h1, h2, h3, h4, h5, h6⟩ := ih (bstep mode rel rnd comp net sink port obs b o)
    cases o with
    | seq o =>
      let r := Sequencer.step mode rel rnd b.sqr o
      refine ⟨r.2 ++ more, (observe obs r.2).map (.write port) ++ ops, ?_, ?_, ?_, ?_, ?_, ?_⟩
      · rw [List.foldl_cons, h1]; simp [bstep, r]
      · rw [List.foldl_cons, h2, run_append]; rfl
      · intro leads hp ho
        rw [writtenTo_append, h3 leads hp ho, writtenTo_port, if_pos hp, observe_eq, Sequencer.doneOf_append, List.map_append]
      · intro leads hp
        rw [writtenTo_append, h4 leads hp, writtenTo_port, hp]; rfl
      · intro c hm
        rcases List.mem_append.1 hm with hm | hm
        · obtain ⟨_, _, h⟩ := List.mem_map.1 hm; cases h
        · exact h5 c hm
      · intro ps hp hw p x hm
        rcases List.mem_append.1 hm with hm | hm
        · obtain ⟨_, _, h⟩ := List.mem_map.1 hm; cases h; exact hp
        · exact h6 ps hp hw p x hm
    | other o =>
      refine ⟨more, o :: ops, ?_, ?_, ?_, ?_, ?_, ?_⟩
      · rw [List.foldl_cons, h1]; rfl
      · rw [List.foldl_cons, h2]; rfl
      · intro leads hp ho
        have h := h3 leads hp (fun p x hm => ho p x (List.mem_cons_of_mem _ hm))
        cases o with
        | write p x => rw [writtenTo, ho p x (List.mem_cons_self ..), h]; rfl
        | _ => exact h
      · intro leads hp
        have h := h4 leads hp
        cases o <;> simp only [writtenTo, otherOps, h]
      · intro c hm
        rcases List.mem_cons.1 hm with hm | hm
        · rw [hm]; exact List.mem_cons_self ..
        · exact List.mem_cons_of_mem _ (h5 c hm)
      · intro ps hp hw p x hm
        rcases List.mem_cons.1 hm with hm | hm
        · exact hw p x (by rw [hm]; exact List.mem_cons_self ..)
        · exact h6 ps hp (writesIn_cons hw) p x hm

theorem reach_play {ops : List Sequencer.Op} {outs s} (h : Sequencer.Reach mode rel rnd ops outs s) :
    ops.foldl (Sequencer.play mode rel rnd) ({}, []) = (s, outs) := by
  induction h with
  | nil => rfl
  | snoc _ _ _ ih => rw [List.foldl_append, ih]; rfl

theorem bench_play (comp : α → α → Bool) (net : Port.State) (sink : Nat → Sink) (port : Nat) (obs : Sequencer.Item → α)
    (bops : List (BOp α)) : ∀ b : Bench α,
    ((bops.foldl (bstep mode rel rnd comp net sink port obs) b).sqr, (bops.foldl (bstep mode rel rnd comp net sink port obs) b).outs) =
      (seqOps bops).foldl (Sequencer.play mode rel rnd) (b.sqr, b.outs) := by
  induction bops with
  | nil => intro b; rfl
  | cons o bops ih => intro b; rw [List.foldl_cons, ih]; cases o <;> rfl

/-- C355. A whole testbench, for every interleaving of sequences, driver, monitors and comparators: the comparator that is fed by the
driver on one side and by monitors on the other compares the n-th item that the sequences sent with the n-th transaction of the
monitors, for every item the driver has finished.  Once it is settled it has compared them all, and it counts no mismatch exactly if
every observed item compares equal to what the monitors saw at its position. -/
theorem C355_items_checked {nm node calls ps net} (hw : Wired nm node calls ps net) (comp : α → α → Bool) (sink : Nat → Sink) (i j c : Nat)
    (hi : sink i = .before c) (hj : sink j = .after c) (hui : ∀ m, sink m = .before c → m = i) (huj : ∀ m, sink m = .after c → m = j)
    (lb la : Nat → Bool) (hb : LeadsTo (Port.built nm node calls) ps i lb) (ha : LeadsTo (Port.built nm node calls) ps j la)
    (port : Nat) (hport : port ∈ ps) (hpb : lb port = true) (hpa : la port = false) (obs : Sequencer.Item → α)
    (bops : List (BOp α)) (hp : WritesIn ps (otherOps bops)) (hob : ∀ p x, .write p x ∈ otherOps bops → lb p = false)
    (hf : .cmp c .flush ∉ otherOps bops)
    (outs : List Sequencer.Out) (q : Sequencer.State) (hr : Sequencer.Reach mode rel rnd (seqOps bops) outs q)
    (hs : Comparator.Settled ((bops.foldl (bstep mode rel rnd comp net sink port obs) {}).sb.cmps c)) :
    let s := (bops.foldl (bstep mode rel rnd comp net sink port obs) {}).sb.cmps c
    let seen := writtenTo la (otherOps bops)
    s.nMatch + s.nMismatch = min (Sequencer.doneOf outs).length seen.length ∧
    (s.nMismatch = 0 ↔ ∀ (n : Nat) item x, n < (Sequencer.doneOf outs).length → (Sequencer.sentOf outs)[n]? = some item → seen[n]? = some x →
      comp (obs item) x = true) := by
  have hpl := bench_play (mode := mode) (rel := rel) (rnd := rnd) comp net sink port obs bops {}
  obtain ⟨more, ops, h1, h2, h3, h4, h5, h6⟩ := bench_ops (mode := mode) (rel := rel) (rnd := rnd) comp net sink port obs bops {}
  rw [show (({} : Bench α).sqr, ({} : Bench α).outs) = (({} : Sequencer.State), ([] : List Sequencer.Out)) from rfl, reach_play hr] at hpl
  have hm : more = outs := by
    have := congrArg Prod.snd hpl
    simp only [h1] at this
    simpa using this
  subst hm
  rw [h2] at hs ⊢
  have hv := C354_verdict hw comp sink i j c hi hj hui huj lb la hb ha ops (h6 ps hport hp) (fun h => hf (h5 c h)) hs
  have hlb := h3 lb hpb hob
  have hla := h4 la hpa
  simp only [hlb, hla, List.length_map] at hv
  refine ⟨hv.2.1, hv.2.2.trans ?_⟩
  obtain ⟨_, _, hsd, _⟩ := Sequencer.C36_handshake hr
  constructor
  · intro h n item x hn hi hx
    rw [hsd, List.getElem?_append_left hn] at hi
    exact h n (obs item) x (by rw [List.getElem?_map, hi]; rfl) hx
  · intro h n b a hb' ha'
    rw [List.getElem?_map] at hb'
    obtain ⟨item, hi, rfl⟩ := Option.map_eq_some_iff.1 hb'
    have hn : n < (Sequencer.doneOf more).length := (List.getElem?_eq_some_iff.1 hi).1
    exact h n item a hn (by rw [hsd, List.getElem?_append_left hn]; exact hi) ha'

/-! ## A concrete testbench: driver port 0, monitor port 1, comparator exports 2 and 3 with implementations 4 and 5, a subscriber 6 of both
ports (of the monitor twice: directly and through export 8), a FIFO 7 of the monitor. -/
namespace Sample

theorem assign_mem {l : List (String × Nat)} {k k' : String} {v v' : Nat} (h : (k', v') ∈ Verif.Pool.assign l k v) :
    (k', v') ∈ l ∨ v' = v := by
  induction l with
  | nil => simp [Verif.Pool.assign] at h; exact .inr h.2
  | cons p l ih =>
    simp only [Verif.Pool.assign] at h
    split at h
    · rcases List.mem_cons.1 h with h | h
      · exact .inr (congrArg Prod.snd h)
      · exact .inl (List.mem_cons_of_mem _ h)
    · rcases List.mem_cons.1 h with h | h
      · exact .inl (by rw [h]; exact List.mem_cons_self ..)
      · exact (ih h).imp (List.mem_cons_of_mem _) id

/-- Every connection comes from a call. -/
theorem conn_calls (nm : Nat → String) (calls : List (Nat × Option Nat)) (p q : Nat) : ∀ s : Port.State,
    Port.Conn (calls.foldl (fun s c => (Port.connect nm s c.1 c.2).1) s) p q → Port.Conn s p q ∨ (p, some q) ∈ calls := by
  induction calls with
  | nil => intro s h; exact .inl h
  | cons c calls ih =>
    intro s h
    rcases ih _ h with h | h
    · replace h : Port.Conn (Port.connect nm s c.1 c.2).1 p q := h
      have hc := Port.C57_connect nm s c.1 c.2
      by_cases hd : (Port.connect nm s c.1 c.2).2 = .done
      · obtain ⟨q', hq', -⟩ := hc.1.1 hd
        obtain ⟨e1, e2, -⟩ := hc.2.2 q' hq' hd
        obtain ⟨k, hk⟩ := h
        by_cases hpc : p = c.1
        · subst hpc
          rw [e1] at hk
          rcases assign_mem hk with hk | hk
          · exact .inl ⟨k, hk⟩
          · exact .inr (List.mem_cons.2 (.inl (by rw [hk, ← hq'])))
        · rw [e2 p hpc] at hk; exact .inl ⟨k, hk⟩
      · rw [hc.2.1 hd] at h; exact .inl h
    · exact .inr (List.mem_cons_of_mem _ h)

def nm (n : Nat) : String := String.ofList (List.replicate n 'x')
def node (n : Nat) : Port.Node :=
  if n < 2 then Port.fresh .port 256 0 (-1) else if n < 4 ∨ n = 8 then Port.fresh .export 256 0 (-1) else Port.fresh .imp 256 1 1
def calls : List (Nat × Option Nat) :=
  [(0, some 2), (2, some 4), (1, some 3), (3, some 5), (0, some 6), (1, some 6), (1, some 8), (8, some 6), (1, some 7)]
def ports : List Nat := [0, 1, 2, 3, 8, 4, 5, 6, 7]
def net : Port.State := Port.resolveAll nm 3 (Port.built nm node calls) ports
def rank (n : Nat) : Nat := if n < 2 then 2 else if n < 4 ∨ n = 8 then 1 else 0
def sink : Nat → Sink
  | 4 => .before 0
  | 5 => .after 0
  | 6 => .sub 0
  | 7 => .fifo 0
  | n => .sub (n + 1)
/-- Is implementation `i` called when `p` is written? -/
def leads (i p : Nat) : Bool := (Port.write net p).contains (.imp i)

theorem names : ∀ a b, nm a = nm b → a = b := by
  intro a b h
  have h' := congrArg (fun s => s.toList.length) h
  simpa [nm] using h'

theorem fresh : Port.Fresh node := by
  intro p; unfold node; split
  · simp [Port.fresh]
  · split <;> simp [Port.fresh]

theorem acyclic : Port.Acyclic (Port.built nm node calls) rank := by
  intro p q h
  rcases conn_calls nm calls p q ⟨node, []⟩ h with ⟨k, h⟩ | h
  · rw [show ((⟨node, []⟩ : Port.State).node p).providedBy = [] from (fresh p).1] at h; cases h
  · simp only [calls, List.mem_cons, Prod.mk.injEq, Option.some.injEq, List.not_mem_nil, or_false] at h
    rcases h with ⟨rfl, rfl⟩ | ⟨rfl, rfl⟩ | ⟨rfl, rfl⟩ | ⟨rfl, rfl⟩ | ⟨rfl, rfl⟩ | ⟨rfl, rfl⟩ | ⟨rfl, rfl⟩ | ⟨rfl, rfl⟩ | ⟨rfl, rfl⟩ <;> decide

theorem wired : Wired nm node calls ports net := ⟨names, fresh, rank, 3, acyclic, by decide, rfl⟩

theorem leadsTo (i : Nat) : LeadsTo (Port.built nm node calls) ports i (leads i) := by
  intro p hp
  rw [← (Port.C57_write_reaches nm names node fresh calls rank acyclic 3 ports (by decide) p hp).2.2 i]
  simp [leads, net]

/-- Which of the ports lead to the two sides of the comparator, to the subscriber and to the FIFO. -/
example : ports.map (leads 4) = [true, false, true, false, false, true, false, false, false] ∧
    ports.map (leads 5) = [false, true, false, true, false, false, true, false, false] ∧
    ports.map (leads 6) = [true, true, false, false, true, false, false, true, false] ∧
    ports.map (leads 7) = [false, true, false, false, false, false, false, false, true] := by decide

/-- Writes to both ports, a consumer of the FIFO that gets one transaction, the comparator running. -/
def ops : List (Op Nat) :=
  [.cmp 0 .start, .write 0 5, .fifo 0 (.get 1), .write 1 5, .cmp 0 .resume, .cmp 0 .resume, .write 1 9, .write 0 8, .fifo 0 (.resume 1),
    .cmp 0 .resume, .cmp 0 .resume, .write 0 7]

theorem sinks : (∀ m, sink m = .before 0 → m = 4) ∧ (∀ m, sink m = .after 0 → m = 5) ∧ (∀ m, sink m = .sub 0 → m = 6) ∧
    (∀ m, sink m = .fifo 0 → m = 7) := by
  refine ⟨?_, ?_, ?_, ?_⟩ <;> intro m h <;> unfold sink at h <;> split at h <;> first | rfl | (simp at h)

theorem opsIn : WritesIn ports ops := by
  intro p x h
  simp only [ops, List.mem_cons, List.not_mem_nil, reduceCtorEq, Op.write.injEq, false_or, or_false] at h
  rcases h with ⟨rfl, -⟩ | ⟨rfl, -⟩ | ⟨rfl, -⟩ | ⟨rfl, -⟩ | ⟨rfl, -⟩ <;> decide

def eqb (a b : Nat) : Bool := a == b

example : (run eqb net sink {} ops).subs 0 = [5, 5, 9, 8, 7] := by
  rw [C354_subscriber wired eqb sink 6 0 rfl sinks.2.2.1 (leads 6) (leadsTo 6) ops opsIn]; decide
example : ((run eqb net sink {} ops).fifoOut 0).flatMap TlmFifo.takenBy ++ ((run eqb net sink {} ops).fifos 0).m.queue = [5, 9] := by
  rw [C354_fifo wired eqb sink 7 0 rfl sinks.2.2.2 (leads 7) (leadsTo 7) ops opsIn]; decide
example : ((run eqb net sink {} ops).fifoOut 0).flatMap TlmFifo.takenBy = [5] := by decide
example : Comparator.Settled ((run eqb net sink {} (ops ++ [.cmp 0 .resume])).cmps 0) ∧ .cmp 0 .flush ∉ ops ∧
    (run eqb net sink {} ops).pairs 0 = [⟨5, 5, true⟩, ⟨9, 8, false⟩] ∧ ((run eqb net sink {} ops).cmps 0).nMismatch = 1 := by
  refine ⟨⟨?_, ?_, ?_⟩, ?_, ?_, ?_⟩ <;> decide

/-- The testbench of the sample: two sequences send the items 10 and 20, the monitor sees 10 and 21. -/
def bops : List (BOp Nat) :=
  .other (.cmp 0 .start) :: Sequencer.exBoth.map .seq ++
    [.other (.write 1 10), .other (.cmp 0 .resume), .other (.cmp 0 .resume), .other (.write 1 21), .other (.cmp 0 .resume), .other (.cmp 0 .resume)]

def bench : Bench Nat := bops.foldl (bstep .fifo (fun _ => true) (fun _ => 0) eqb net sink 0 (·.name)) {}

example : ∃ outs q, Sequencer.Reach .fifo (fun _ => true) (fun _ => 0) (seqOps bops) outs q ∧ (Sequencer.doneOf outs).length = 2 :=
  ⟨_, _, Sequencer.play_reach (seqOps bops) (by decide), by decide⟩
example : Comparator.Settled (bench.sb.cmps 0) ∧ (bench.sb.cmps 0).nMatch = 1 ∧ (bench.sb.cmps 0).nMismatch = 1 ∧
    leads 4 0 = true ∧ leads 5 0 = false ∧ leads 4 1 = false ∧ bench.sb.subs 0 = [10, 20, 10, 21] := by
  refine ⟨⟨?_, ?_, ?_⟩, ?_, ?_, ?_, ?_, ?_, ?_⟩ <;> decide

end Sample
end Verif.Scoreboard
