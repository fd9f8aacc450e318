import Verif.Spec.RegAdapter
import Verif.Lemmas.RegMap
/-!
# C338: register and memory accesses through adapter, sequencer and driver; C339: drivers that send responses
-/
namespace Verif.RegAdapter
open Verif.RegMap

variable {σ β : Type} {A : Adapter β} {D : Driver σ β} {bus : Bus σ}

theorem word_faithful (h : Faithful A D bus) (hr : A.responses = false) (first : Bool) (op : BusOp) (s : σ) :
    ∃ b b' d st, A.reg2bus op = some b ∧ bus s op = ((bus s op).1, d, st.good) ∧
      word A D first op s = ((bus s op).1, [.preDo] ++ (if first then [.midRw] else []) ++ [.midDo b, .sent b, .postDo b'], .done (d, st)) := by
  obtain ⟨b, h1, h2⟩ := h op s
  exact ⟨b, (D.exec s b).2, (A.bus2reg (D.exec s b).2 op).1, (A.bus2reg (D.exec s b).2 op).2, h1, by rw [h2], by simp [word, h1, hr, h2]⟩

/-- What is shown of the list of operations of one value. -/
structure Sees (evs : List (Ev β)) (i : Nat) (ops done : List BusOp) (A : Adapter β) (last : Bool) : Prop where
  sent : (items evs).map some = done.map A.reg2bus
  hooks : rwHooks evs = (if i = 0 ∧ ops ≠ [] then [true] else []) ++ (if last then [false] else [])
  inOrder : ∃ l, evs.filter ofItem = handled l ∧ l.map Prod.fst = items evs
  start : i = 0 → ops ≠ [] → ∃ l, evs = .preDo :: .midRw :: l
  stop : last = true → ∃ l, evs = l ++ [.postRw]

theorem sees_nil (i : Nat) : Sees ([] : List (Ev β)) i [] [] A false :=
  ⟨rfl, by simp [rwHooks], ⟨[], rfl, rfl⟩, fun _ h => absurd rfl h, by simp⟩

theorem sees_end {i : Nat} {op : BusOp} {ops : List BusOp} {b b' : β} (hb : A.reg2bus op = some b) (p : Bool) :
    Sees (([.preDo] ++ (if decide (i = 0) = true then [.midRw] else []) ++ [.midDo b, .sent b, .postDo b']) ++ (if p = true then [.postRw] else [])) i (op :: ops) [op] A p := by
  refine ⟨?_, ?_, ⟨[(b, b')], ?_, ?_⟩, ?_, fun hp => ⟨_, by rw [if_pos hp]⟩⟩ <;> by_cases hi : i = 0 <;> cases p <;> simp [items, rwHooks, handled, ofItem, List.filter_cons, hi, hb]

theorem sees_cons {i : Nat} {op : BusOp} {ops done : List BusOp} {b b' : β} {evs : List (Ev β)} {last : Bool} (hb : A.reg2bus op = some b)
    (h : Sees evs (i + 1) ops done A last) :
    Sees (([.preDo] ++ (if decide (i = 0) = true then [.midRw] else []) ++ [.midDo b, .sent b, .postDo b']) ++ evs) i (op :: ops) (op :: done) A last := by
  obtain ⟨h1, h2, ⟨l, h3, h4⟩, h5, h6⟩ := h
  refine ⟨?_, ?_, ⟨(b, b') :: l, ?_, ?_⟩, ?_, ?_⟩
  · have := h1
    by_cases hi : i = 0 <;> simp_all [items]
  · by_cases hi : i = 0 <;> simp_all [rwHooks]
  · by_cases hi : i = 0 <;> simp_all [handled, ofItem, List.filter_cons]
  · by_cases hi : i = 0 <;> simp_all [items]
  · intro hi _; exact ⟨.midDo b :: .sent b :: .postDo b' :: evs, by simp [hi]⟩
  · intro hl
    obtain ⟨m, hm⟩ := h6 hl
    exact ⟨([.preDo] ++ (if decide (i = 0) = true then [.midRw] else []) ++ [.midDo b, .sent b, .postDo b']) ++ m, by rw [hm, List.append_assoc _ m]⟩

theorem writes_faithful (h : Faithful A D bus) (hr : A.responses = false) (n : Nat) (ops : List BusOp) (i : Nat) (hn : i + ops.length = n) (s : σ) (st : Status) :
    ∃ s' evs st', writes A D n i ops (s, st) = (s', evs, .done st') ∧ (s', st'.good) = runWrites bus ops (s, st.good) ∧
      Sees evs i ops (performed bus s ops) A (decide (ops ≠ [] ∧ (performed bus s ops).length = ops.length)) := by
  induction ops generalizing i s st with
  | nil => exact ⟨s, [], st, rfl, rfl, by simpa [performed] using sees_nil i⟩
  | cons op ops ih =>
    obtain ⟨b, b', d, st1, hb, h1, h2⟩ := word_faithful h hr (decide (i = 0)) op s
    have hok : (bus s op).2.2 = st1.good := by rw [h1]
    unfold writes
    rw [h2]
    simp only
    by_cases hst : st1 = .notOk
    · have hg : st1.good = false := by simp [Status.good, hst]
      refine ⟨_, _, st1, by rw [if_pos hst], ?_, ?_⟩
      · rw [hg]; unfold runWrites; simp only; rw [hok, hg]; simp
      · have hp : performed bus s (op :: ops) = [op] := by unfold performed; rw [hok, hg]; simp
        rw [hp]
        have := sees_end (i := i) (ops := ops) (b' := b') hb (decide (i + 1 = n))
        have hd : decide (op :: ops ≠ [] ∧ [op].length = (op :: ops).length) = decide (i + 1 = n) := by
          simp only [List.length_cons, List.length_nil] at hn ⊢
          by_cases hl : ops.length = 0
          · have : i + 1 = n := by omega
            simp [hl, this]
          · have : ¬ i + 1 = n := by omega
            simp [this, hl]
        rw [hd]
        by_cases hi : i + 1 = n <;> simpa [hi] using this
    · have hg : st1.good = true := by simp [Status.good, hst]
      obtain ⟨s', evs, st', k1, k2, k3⟩ := ih (i + 1) (by simp only [List.length_cons] at hn; omega) (bus s op).1 st1
      refine ⟨s', _, st', by rw [if_neg hst, k1], ?_, ?_⟩
      · rw [k2, hg]; simp only [runWrites, hok, hg]; simp
      · have hp : performed bus s (op :: ops) = op :: performed bus (bus s op).1 ops := by rw [performed, hok, hg]; simp
        rw [hp]
        by_cases hi : i + 1 = n
        · have hz : ops = [] := by
            cases ops with
            | nil => rfl
            | cons a l => simp only [List.length_cons] at hn; omega
          subst hz
          simp only [writes, Prod.mk.injEq, Res.done.injEq] at k1
          obtain ⟨_, rfl, _⟩ := k1
          have := sees_end (i := i) (ops := []) (b' := b') hb true
          simpa [hi, performed] using this
        · have := sees_cons (i := i) (b' := b') hb k3
          have hne : ops ≠ [] := by rintro rfl; simp only [List.length_cons, List.length_nil] at hn; omega
          simpa [hi, hne] using this

theorem reads_faithful (h : Faithful A D bus) (hr : A.responses = false) (w n : Nat) (ops : List BusOp) (i : Nat) (hn : i + ops.length = n) (s : σ) (v : Nat) (st : Status) :
    ∃ s' evs v' st', reads A D w n i ops (s, v, st) = (s', evs, .done (v', st')) ∧ (s', v', st'.good) = runReads bus w ops (s, v, st.good) ∧
      Sees evs i ops (performed bus s (ops.map fun op => { op with data := 0 })) A (decide (ops ≠ [] ∧ st'.good = true)) := by
  induction ops generalizing i s v st with
  | nil => exact ⟨s, [], v, st, rfl, rfl, by simpa [performed] using sees_nil i⟩
  | cons op ops ih =>
    obtain ⟨b, b', d, st1, hb, h1, h2⟩ := word_faithful h hr (decide (i = 0)) { op with data := 0 } s
    have hok : (bus s { op with data := 0 }).2.2 = st1.good := by rw [h1]
    have hd : (bus s { op with data := 0 }).2.1 = d := by rw [h1]
    unfold reads
    rw [h2]
    simp only [List.map_cons]
    by_cases hst : st1 = .notOk
    · have hg : st1.good = false := by simp [Status.good, hst]
      refine ⟨_, _, v, st1, by rw [if_pos hst], ?_, ?_⟩
      · rw [hg]; unfold runReads; simp only; rw [hok, hg]; simp
      · have hp : performed bus s ({ op with data := 0 } :: ops.map fun op => { op with data := 0 }) = [{ op with data := 0 }] := by
          unfold performed; rw [hok, hg]; simp
        rw [hp]
        obtain ⟨e1, e2, e3, e4, e5⟩ := sees_end (A := A) (i := i) (ops := ops) (b' := b') hb false
        rw [hg]
        simp only [Bool.false_eq_true, if_false, List.append_nil] at e1 e2 e3 e4 e5
        exact ⟨e1, by simpa using e2, e3, fun a _ => e4 a (by simp), by simp⟩
    · have hg : st1.good = true := by simp [Status.good, hst]
      obtain ⟨s', evs, v', st', k1, k2, k3⟩ := ih (i + 1) (by simp only [List.length_cons] at hn; omega) (bus s { op with data := 0 }).1
        (v ||| ((d &&& (2 ^ (w * 8) - 1)) <<< (op.data * 8))) st1
      refine ⟨s', _, v', st', by rw [if_neg hst, k1], ?_, ?_⟩
      · rw [k2, hg]; simp only [runReads, hok, hg, hd]; simp
      · have hp : performed bus s ({ op with data := 0 } :: ops.map fun op => { op with data := 0 }) =
            { op with data := 0 } :: performed bus (bus s { op with data := 0 }).1 (ops.map fun op => { op with data := 0 }) := by
          rw [performed, hok, hg]; simp
        rw [hp]
        by_cases hi : i + 1 = n
        · have hz : ops = [] := by
            cases ops with
            | nil => rfl
            | cons a l => simp only [List.length_cons] at hn; omega
          subst hz
          simp only [reads, Prod.mk.injEq, Res.done.injEq] at k1
          obtain ⟨_, rfl, _, rfl⟩ := k1
          obtain ⟨e1, e2, e3, e4, e5⟩ := sees_end (A := A) (i := i) (ops := []) (b' := b') hb true
          simp only [if_true] at e1 e2 e3 e4 e5
          simp only [hi, hg, if_true, List.append_nil]
          exact ⟨by simpa [performed] using e1, by simpa using e2, e3, fun a _ => e4 a (by simp), fun _ => e5 trivial⟩
        · obtain ⟨e1, e2, e3, e4, e5⟩ := sees_cons (i := i) (b' := b') hb k3
          have hne : ops ≠ [] := by rintro rfl; simp only [List.length_cons, List.length_nil] at hn; omega
          simp only [hi, if_false]
          exact ⟨e1, by simpa [hne] using e2, e3, fun a _ => e4 a (by simp), fun hx => e5 (by simpa [hne] using hx)⟩

/-- C338. With a faithful adapter and driver the accesses of registers and memories, of any number of words, are those on the bus itself: the same effect,
the same values, and a status that tells a failed access from others.  They do not raise. -/
theorem C338_access (h : Faithful A D bus) (hr : A.responses = false) (order : Order) (ho : Reorders order) (w : Nat) (nBits : Int) (be stride : Nat) (addrs : List Nat) (s : σ) (st : Status) :
    (∀ vs, ∃ s' evs st', busWrite A D order w nBits be stride addrs vs (s, st) = (s', evs, .done st') ∧
      RegMap.busWrite bus order w nBits be stride addrs vs (s, st.good) = (s', st'.good)) ∧
    ∀ cnt, ∃ s' evs vs st', busRead A D order w nBits be stride addrs cnt (s, st) = (s', evs, .done (vs, st')) ∧
      RegMap.busRead bus order w nBits be stride addrs cnt (s, st.good) = (s', vs, st'.good) := by
  constructor
  · intro vs
    induction vs generalizing addrs s st with
    | nil => exact ⟨s, [], st, rfl, rfl⟩
    | cons v vs ih =>
      have hl : (order (mkAccesses .write w v nBits be 0 addrs)).length = addrs.length := by rw [(ho _).length_eq, mkAccesses_length]
      obtain ⟨s1, e1, st1, k1, k2, _⟩ := writes_faithful h hr addrs.length (order (mkAccesses .write w v nBits be 0 addrs)) 0 (by omega) s st
      obtain ⟨s2, e2, st2, k3, k4⟩ := ih (addrs.map (· + stride)) s1 st1
      refine ⟨s2, e1 ++ e2, st2, by unfold busWrite; rw [k1]; simp only; rw [k3], ?_⟩
      unfold RegMap.busWrite
      rw [← k2]; exact k4
  · intro cnt
    induction cnt generalizing addrs s st with
    | zero => exact ⟨s, [], [], st, rfl, rfl⟩
    | succ cnt ih =>
      have hl : (order (mkAccesses .read w 0 nBits be 0 addrs)).length = addrs.length := by rw [(ho _).length_eq, mkAccesses_length]
      obtain ⟨s1, e1, v, st1, k1, k2, _⟩ := reads_faithful h hr w addrs.length (order (mkAccesses .read w 0 nBits be 0 addrs)) 0 (by omega) s 0 st
      obtain ⟨s2, e2, vs, st2, k3, k4⟩ := ih (addrs.map (· + stride)) s1 st1
      refine ⟨s2, e1 ++ e2, v :: vs, st2, by unfold busRead; rw [k1]; simp only; rw [k3], ?_⟩
      unfold RegMap.busRead
      rw [← k2]; simp only; rw [k4]

/-- C338. A write of one value, of any number of words: the driver is given one item for each bus operation performed, in order, each between the hooks of
the parent sequence; `mid_do` of the parent is called once with the register item, before the first item is sent, and `post_do` once, at the end, if the
last operation was performed. -/
theorem C338_write_items (h : Faithful A D bus) (hr : A.responses = false) (order : Order) (ho : Reorders order) (w : Nat) (nBits : Int) (be stride : Nat)
    (addrs : List Nat) (hne : addrs ≠ []) (v : Nat) (s : σ) (st : Status) :
    let ops := order (mkAccesses .write w v nBits be 0 addrs)
    let evs := (busWrite A D order w nBits be stride addrs [v] (s, st)).2.1
    (items evs).map some = (performed bus s ops).map A.reg2bus ∧
    (∃ l, evs.filter ofItem = handled l ∧ l.map Prod.fst = items evs) ∧
    rwHooks evs = true :: (if (performed bus s ops).length = addrs.length then [false] else []) ∧
    (∃ l, evs = .preDo :: .midRw :: l) ∧
    ((performed bus s ops).length = addrs.length → ∃ l, evs = l ++ [.postRw]) := by
  intro ops evs
  have hl : ops.length = addrs.length := by rw [(ho _).length_eq, mkAccesses_length]
  have hne' : ops ≠ [] := by intro e; rw [e] at hl; exact hne (List.eq_nil_of_length_eq_zero hl.symm)
  obtain ⟨s1, e1, st1, k1, _, k3⟩ := writes_faithful h hr addrs.length ops 0 (by omega) s st
  have he : evs = e1 := by
    show (busWrite A D order w nBits be stride addrs [v] (s, st)).2.1 = e1
    unfold busWrite; rw [k1]; simp [busWrite]
  rw [he]
  obtain ⟨g1, g2, g3, g4, g5⟩ := k3
  simp only [hne', ne_eq, not_false_eq_true, true_and, hl, decide_eq_true_eq] at g2 g5
  exact ⟨g1, g3, by simpa using g2, g4 rfl hne', g5⟩

/-- C338. A read of one value, of any number of words: likewise, and `post_do` is called with the register item if the access did not fail. -/
theorem C338_read_items (h : Faithful A D bus) (hr : A.responses = false) (order : Order) (ho : Reorders order) (w : Nat) (nBits : Int) (be stride : Nat)
    (addrs : List Nat) (hne : addrs ≠ []) (s : σ) (st : Status) :
    let ops := (order (mkAccesses .read w 0 nBits be 0 addrs)).map fun op => { op with data := 0 }
    let evs := (busRead A D order w nBits be stride addrs 1 (s, st)).2.1
    (items evs).map some = (performed bus s ops).map A.reg2bus ∧
    (∃ l, evs.filter ofItem = handled l ∧ l.map Prod.fst = items evs) ∧
    (∃ l, evs = .preDo :: .midRw :: l) ∧
    ∃ s' v st', busRead A D order w nBits be stride addrs 1 (s, st) = (s', evs, .done ([v], st')) ∧
      rwHooks evs = true :: (if st' = .notOk then [] else [false]) ∧ (st' ≠ .notOk → ∃ l, evs = l ++ [.postRw]) := by
  intro ops evs
  have hl : (order (mkAccesses .read w 0 nBits be 0 addrs)).length = addrs.length := by rw [(ho _).length_eq, mkAccesses_length]
  have hne' : order (mkAccesses .read w 0 nBits be 0 addrs) ≠ [] := by intro e; rw [e] at hl; exact hne (List.eq_nil_of_length_eq_zero hl.symm)
  obtain ⟨s1, e1, v, st1, k1, _, k3⟩ := reads_faithful h hr w addrs.length (order (mkAccesses .read w 0 nBits be 0 addrs)) 0 (by omega) s 0 st
  have hb : busRead A D order w nBits be stride addrs 1 (s, st) = (s1, e1, .done ([v], st1)) := by
    unfold busRead; rw [k1]; simp [busRead]
  have he : evs = e1 := by show (busRead A D order w nBits be stride addrs 1 (s, st)).2.1 = e1; rw [hb]
  rw [he]
  obtain ⟨g1, g2, g3, g4, g5⟩ := k3
  refine ⟨g1, g3, g4 rfl hne', s1, v, st1, hb, ?_, ?_⟩
  · rw [g2]
    by_cases hs : st1 = .notOk <;> simp [hne', hs, Status.good]
  · intro hs
    exact g5 (by simp [hne', Status.good, hs])

/-- C339 fails: with an adapter that says that the driver sends responses no access ever returns.  The first item is executed; when its response comes it is
lost and the access raises, and if none comes the access waits for ever. -/
theorem C339_responses_fails (hr : A.responses = true) (hi : ∀ op, A.reg2bus op ≠ none) (order : Order) (ho : Reorders order) (w : Nat) (nBits : Int) (be stride : Nat)
    (addrs : List Nat) (hne : addrs ≠ []) (s : σ) (st : Status) :
    (∀ v vs, ∃ op b, (order (mkAccesses .write w v nBits be 0 addrs)).head? = some op ∧ A.reg2bus op = some b ∧
      let r := busWrite A D order w nBits be stride addrs (v :: vs) (s, st)
      r.1 = (D.exec s b).1 ∧ items r.2.1 = [b] ∧ r.2.2 = if D.answers s b then .raised else .waits) ∧
    ∀ cnt, ∃ op b, (order (mkAccesses .read w 0 nBits be 0 addrs)).head? = some op ∧ A.reg2bus { op with data := 0 } = some b ∧
      let r := busRead A D order w nBits be stride addrs (cnt + 1) (s, st)
      r.1 = (D.exec s b).1 ∧ items r.2.1 = [b] ∧ r.2.2 = if D.answers s b then .raised else .waits := by
  have hcons : ∀ d v, ∃ op ops, order (mkAccesses d w v nBits be 0 addrs) = op :: ops := by
    intro d v
    cases ho' : order (mkAccesses d w v nBits be 0 addrs) with
    | nil =>
      have := (ho (mkAccesses d w v nBits be 0 addrs)).length_eq
      rw [ho', mkAccesses_length] at this
      exact absurd (List.eq_nil_of_length_eq_zero this.symm) hne
    | cons op ops => exact ⟨op, ops, rfl⟩
  constructor
  · intro v vs
    obtain ⟨op, ops, e⟩ := hcons .write v
    obtain ⟨b, hb⟩ := Option.ne_none_iff_exists'.1 (hi op)
    refine ⟨op, b, by rw [e]; rfl, hb, ?_⟩
    unfold busWrite
    rw [e]
    by_cases hx : D.answers s b = true <;> simp [writes, word, hb, hr, hx, items]
  · intro cnt
    obtain ⟨op, ops, e⟩ := hcons .read 0
    obtain ⟨b, hb⟩ := Option.ne_none_iff_exists'.1 (hi { op with data := 0 })
    refine ⟨op, b, by rw [e]; rfl, hb, ?_⟩
    unfold busRead
    rw [e]
    by_cases hx : D.answers s b = true <;> simp [reads, word, hb, hr, hx, items]

/-! ### A bus with its own kind of item, a driver with a memory that fails above an address -/

structure BusItem where
  write : Bool
  addr : Nat
  data : Nat
  error : Bool := false
deriving DecidableEq, Repr

def egAdapter : Adapter BusItem where
  reg2bus op := some { write := op.kind = .write, addr := op.addr, data := op.data }
  bus2reg b _ := (b.data, if b.error then .notOk else .isOk)

def egDriver : Driver (Nat → Nat) BusItem where
  exec s b :=
    if b.addr ≥ 0x100 then (s, { b with error := true })
    else if b.write then ((fun a => if a = b.addr then b.data else s a), b)
    else (s, { b with data := s b.addr })
  answers _ _ := true

def egBus : Bus (Nat → Nat) := fun s op =>
  if op.addr ≥ 0x100 then (s, op.data, false)
  else if op.kind = .write then ((fun a => if a = op.addr then op.data else s a), op.data, true)
  else (s, s op.addr, true)

example : Faithful egAdapter egDriver egBus := by
  intro op s
  refine ⟨_, rfl, ?_⟩
  by_cases h1 : op.addr ≥ 0x100
  · simp [egBus, egDriver, egAdapter, h1, Status.good]
  · have h2 : ¬ 256 ≤ op.addr := by omega
    by_cases h3 : op.kind = .write <;> simp [egBus, egDriver, egAdapter, h2, h3, Status.good]

example : let r := busWrite egAdapter egDriver List.reverse 1 16 1 0 [0xff, 0x100] [0x1234] (fun _ => 0, .isOk)
    r.2.1 = [.preDo, .midRw, .midDo ⟨true, 0x100, 0x12, false⟩, .sent ⟨true, 0x100, 0x12, false⟩, .postDo ⟨true, 0x100, 0x12, true⟩] ∧ r.2.2 = .done .notOk := by decide

example : let r := busRead egAdapter egDriver id 1 16 1 0 [0x10, 0x11] 1 (fun a => 2 * a, .notOk)
    r.2.2 = .done ([0x2220], .isOk) ∧ rwHooks r.2.1 = [true, false] := by decide

example : (busWrite { egAdapter with responses := true } egDriver id 1 16 1 0 [0x10, 0x11] [0x1234] (fun _ => 0, .isOk)).2.2 = .raised := by decide

end Verif.RegAdapter
