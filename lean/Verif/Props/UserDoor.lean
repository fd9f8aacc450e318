import Verif.Spec.UserDoor
/-!
# C277-C281: user-defined back doors
-/
namespace Verif.UserDoor

/-! ## C277: the nearest back door -/

theorem climb_nearest {s : State} (hf : Forest s) : ∀ (n : Nat) (b : Option Nat), (∀ k, b = some k → k + 1 < n) → 0 < n →
    Nearest s b (climb s n b) := by
  intro n
  induction n with
  | zero => intro b _ h; omega
  | succ n ih =>
    intro b hb _
    cases b with
    | none => exact .top
    | some b =>
      have h1 : b < n := by have := hb b rfl; omega
      have ih' := ih (s.parent b) (fun k hk => by have := hf b k hk; omega) (by omega)
      cases hd : s.door b with
      | some d =>
        have : climb s (n + 1) (some b) = some d := by simp [climb, hd]
        rw [this]
        exact .own hd
      | none =>
        have : climb s (n + 1) (some b) = climb s n (s.parent b) := by
          simp only [climb, hd]
          cases climb s n (s.parent b) <;> rfl
        rw [this]
        exact .up hd ih'

theorem climb_fuel {s : State} (hf : Forest s) (b : Option Nat) : Nearest s b (climb s (fuel b) b) := by
  refine climb_nearest hf _ _ (fun k hk => ?_) ?_
  · subst hk; simp [fuel]
  · cases b <;> simp [fuel]

theorem nearest_inj {s : State} {b x y : Option Nat} (h : Nearest s b x) (k : Nearest s b y) : x = y := by
  induction h with
  | top => cases k; rfl
  | own hd =>
    cases k with
    | own he => rw [hd] at he; exact he
    | up he _ => rw [hd] at he; cases he
  | up hd _ ih =>
    cases k with
    | own he => rw [hd] at he; cases he
    | up _ hk => exact ih hk

/-- The back door of a block is its own, else (if asked for) that of the nearest block around it that has one. -/
theorem C277_block {s : State} (hf : Forest s) (b : Nat) :
    Nearest s (some b) (blockDoor s b true) ∧ blockDoor s b false = s.door b := by
  unfold blockDoor
  cases hd : s.door b with
  | some d => exact ⟨.own hd, rfl⟩
  | none => exact ⟨.up hd (climb_fuel hf _), rfl⟩

theorem run_fixed (ops : List Op) : ∀ s : State, (runS step s ops).parent = s.parent ∧ (runS step s ops).home = s.home := by
  induction ops with
  | nil => intro s; exact ⟨rfl, rfl⟩
  | cons o ops ih =>
    intro s
    rw [runS_cons, (ih _).1, (ih _).2]
    cases o with
    | setElem e d => exact ⟨rfl, rfl⟩
    | setBlock b d => exact ⟨rfl, rfl⟩
    | get e i =>
      show (getDoor s e i).1.parent = _ ∧ (getDoor s e i).1.home = _
      unfold getDoor
      split
      · exact ⟨rfl, rfl⟩
      · split
        · split
          · exact ⟨rfl, rfl⟩
          · exact ⟨rfl, rfl⟩
        · exact ⟨rfl, rfl⟩

theorem own_lastSet (e : Nat) (ops : List Op) : ∀ s : State, (∀ i, Op.get e i ∉ ops) →
    (runS step s ops).own e = lastSet (s.own e) e ops := by
  induction ops with
  | nil => intro s _; rfl
  | cons o ops ih =>
    intro s hn
    rw [runS_cons, ih _ (fun i hi => hn i (.tail _ hi))]
    cases o with
    | setElem e' d =>
      show lastSet (set s.own e' d e) e ops = lastSet (if e' = e then d else s.own e) e ops
      unfold set
      by_cases h : e' = e
      · simp [h]
      · simp [h, Ne.symm h]
    | setBlock b d => rfl
    | get e' i =>
      have hne : e ≠ e' := fun h => hn i (by rw [h]; exact .head _)
      show lastSet ((getDoor s e' i).1.own e) e ops = lastSet (s.own e) e ops
      congr 1
      unfold getDoor
      split
      · rfl
      · split
        · split
          · show set s.own e' _ e = _
            simp [set, hne]
          · rfl
        · rfl

/-- The first time an element is asked it gives the back door set for it last, else that of the nearest block; asked for
its own only, it gives its own. -/
theorem C277_element {s : State} (hf : Forest s) (e : Nat) (ops : List Op) (hn : ∀ i, Op.get e i ∉ ops) :
    (∀ d, lastSet (s.own e) e ops = some d → ∀ i, (step (runS step s ops) (.get e i)).2 = some d) ∧
    (lastSet (s.own e) e ops = none →
      Nearest (runS step s ops) (s.home e) (step (runS step s ops) (.get e true)).2 ∧
      (step (runS step s ops) (.get e false)).2 = none) := by
  have ho := own_lastSet e ops s hn
  have hfx := run_fixed ops s
  generalize runS step s ops = t at *
  have hf' : Forest t := fun b p h => hf b p (by rw [← hfx.1]; exact h)
  refine ⟨fun d hd i => ?_, fun hd => ⟨?_, ?_⟩⟩
  · show (getDoor t e i).2 = _
    simp [getDoor, ho, hd]
  · show Nearest t (s.home e) (getDoor t e true).2
    have h1 := climb_fuel hf' (t.home e)
    rw [hfx.2] at h1
    have h2 : (getDoor t e true).2 = climb t (fuel (s.home e)) (s.home e) := by
      simp only [getDoor, ho, hd, hfx.2]
      cases climb t (fuel (s.home e)) (s.home e) <;> rfl
    rw [h2]
    exact h1
  · show (getDoor t e false).2 = none
    simp [getDoor, ho, hd]

/-- Blocks 0 ⊃ 1 ⊃ 2, element 0 in block 2: the back door 7 of block 0 is found from everywhere, 8 of block 1 hides it. -/
def tree : State := ⟨fun | 1 => some 0 | 2 => some 1 | _ => none, fun _ => none, fun _ => some 2, fun _ => none⟩
example : Forest tree := by
  intro b p h
  match b, h with
  | 1, h => cases h; decide
  | 2, h => cases h; decide
example : (step (runS step tree [.setBlock 0 (some 7)]) (.get 0 true)).2 = some 7 ∧
    (step (runS step tree [.setBlock 0 (some 7), .setBlock 1 (some 8)]) (.get 0 true)).2 = some 8 ∧
    (step (runS step tree [.setBlock 0 (some 7), .setElem 0 (some 9)]) (.get 0 true)).2 = some 9 := by decide

/-! ## C278: later changes of the back door of a block are seen -/

/-- Once an element has found a back door, it keeps it, whatever the blocks around it get, until it is given one of its own;
it then also passes for its own. -/
theorem C278_stale_fails (s : State) (e d : Nat) (h : (step s (.get e true)).2 = some d) (ops : List Op)
    (hn : ∀ x, Op.setElem e x ∉ ops) (i : Bool) : (step (runS step (step s (.get e true)).1 ops) (.get e i)).2 = some d := by
  have h1 : (step s (.get e true)).1.own e = some d := by
    have h' : (getDoor s e true).2 = some d := h
    show (getDoor s e true).1.own e = some d
    unfold getDoor at h' ⊢
    split
    · rename_i x hx
      simp only [hx] at h'
      rw [hx, h']
    · rename_i hx
      simp only [hx, if_true] at h' ⊢
      split
      · rename_i y hy
        simp only [hy] at h'
        show set s.own e (some y) e = _
        simp [set, h']
      · rename_i hy
        simp only [hy] at h'
        cases h'
  have key : ∀ (ops : List Op) (t : State), (∀ x, Op.setElem e x ∉ ops) → t.own e = some d → (runS step t ops).own e = some d := by
    intro ops
    induction ops with
    | nil => intro t _ h; exact h
    | cons o ops ih =>
      intro t hn ht
      refine ih _ (fun x hx => hn x (.tail _ hx)) ?_
      cases o with
      | setElem e' x =>
        have hne : e ≠ e' := fun h => hn x (by rw [h]; exact .head _)
        show set t.own e' x e = _
        simp [set, hne, ht]
      | setBlock b x => exact ht
      | get e' j =>
        show (getDoor t e' j).1.own e = _
        unfold getDoor
        split
        · exact ht
        · rename_i hx
          have hne : e ≠ e' := fun h => by rw [← h, ht] at hx; cases hx
          split
          · split
            · show set t.own e' _ e = _
              simp [set, hne, ht]
            · exact ht
          · exact ht
  show (getDoor _ e i).2 = some d
  simp [getDoor, key ops _ hn h1]

/-- The block around gets another back door and then none; the element still gives the first. -/
example : (step tree (.setBlock 1 (some 7))).1.door 1 = some 7 ∧
    (run step tree [.setBlock 1 (some 7), .get 0 true, .setBlock 1 (some 8), .get 0 true, .setBlock 1 none, .get 0 true, .get 0 false]).2 =
      [none, some 7, none, some 7, none, some 7, some 7] := by decide

/-- As long as an element has found nothing, changes are seen. -/
theorem C278_seen_partial {s : State} (hf : Forest s) (e : Nat) (h : (step s (.get e true)).2 = none) (b : Nat) (d : Option Nat) :
    Nearest (runS step s [.get e true, .setBlock b d]) (s.home e) (step (runS step s [.get e true, .setBlock b d]) (.get e true)).2 := by
  have h' : (getDoor s e true).2 = none := h
  have h1 : (getDoor s e true).1 = s ∧ s.own e = none := by
    unfold getDoor at h' ⊢
    split
    · rename_i x hx; simp only [hx] at h'; cases h'
    · rename_i hx
      simp only [hx, if_true] at h' ⊢
      split
      · rename_i y hy; simp only [hy] at h'; cases h'
      · exact ⟨rfl, trivial⟩
  have h2 : runS step s [.get e true, .setBlock b d] = (step s (.setBlock b d)).1 := by
    show (step (getDoor s e true).1 (.setBlock b d)).1 = _
    rw [h1.1]
  rw [h2]
  have h3 := (C277_element hf e [.setBlock b d] (by simp)).2 (by show s.own e = none; exact h1.2)
  exact h3.1

/-! ## C279: what is written through an encoding back door reads back -/

/-- `encode` is never called, and `decode` is called on writes as well, in the order of registration: a callback that
adds 1 to encode and subtracts it to decode makes 7 read back as 5, and 6 be stored. -/
theorem C279_roundtrip_fails :
    (∀ (d : Door) (cbs : List Cb) (dev : List Nat) (it : Item), (d.cbs.map fun c => { c with encode := id }) = cbs.map (fun c => { c with encode := id }) →
      write d dev it = write { d with cbs := cbs } dev it) ∧
    ∃ (c : Cb) (dev : List Nat), (∀ v, c.decode (c.encode v) = v) ∧ (write { cbs := [c] } dev ⟨[7], true⟩).1 = [6] ∧
      (read { cbs := [c] } (write { cbs := [c] } dev ⟨[7], true⟩).1 ⟨[0], true⟩).value = [5] ∧
      encodedBy [c] [7] = [8] ∧ decodedBy [c] [8] = [7] := by
  refine ⟨?_, { encode := fun v => v.map (· + 1), decode := fun v => v.map (· - 1) }, [], ?_, by decide, by decide, by decide, by decide⟩
  · intro d cbs dev it h
    have hd : ∀ v, decodeAll d.cbs v = decodeAll cbs v := by
      have e : ∀ (l : List Cb) (v : List Nat), decodeAll l v = decodeAll (l.map fun c => { c with encode := id }) v := by
        intro l v
        unfold decodeAll
        rw [List.foldl_map]
      intro v
      rw [e d.cbs, e cbs, h]
    show (_, _) = (_, _)
    simp only [doPreWrite, doPostWrite, hd]
  · intro v
    show (v.map (· + 1)).map (· - 1) = v
    rw [List.map_map]
    conv => rhs; rw [← List.map_id v]
    exact List.map_congr_left fun x _ => rfl

theorem fold_comm (c : Cb) (l : List Cb) (hc : ∀ b ∈ l, ∀ v, c.decode (b.decode v) = b.decode (c.decode v)) :
    ∀ v, decodeAll l (c.decode v) = c.decode (decodeAll l v) := by
  induction l with
  | nil => intro v; rfl
  | cons b l ih =>
    intro v
    show decodeAll l (b.decode (c.decode v)) = c.decode (decodeAll l (b.decode v))
    rw [← hc b (.head _), ih (fun x hx => hc x (.tail _ hx))]

/-- If every `decode` undoes itself and they commute (masks that are toggled), what is written reads back. -/
theorem C279_roundtrip_partial (cbs : List Cb) (hs : ∀ c ∈ cbs, ∀ v, c.decode (c.decode v) = v)
    (hc : ∀ c ∈ cbs, ∀ b ∈ cbs, ∀ v, c.decode (b.decode v) = b.decode (c.decode v)) (hp : ∀ c ∈ cbs, ∀ it, c.postRead it = it)
    (dev v : List Nat) (ok : Bool) (it : Item) :
    (read { cbs := cbs } (write { cbs := cbs } dev ⟨v, ok⟩).1 it).value = v := by
  have h1 : ∀ (l : List Cb), (∀ c ∈ l, ∀ it, c.postRead it = it) → ∀ it, postReadAll l it = it := by
    intro l hl it
    unfold postReadAll
    have : ∀ (l : List Cb), (∀ c ∈ l, ∀ it, c.postRead it = it) → ∀ it, l.foldl (fun it c => c.postRead it) it = it := by
      intro l
      induction l with
      | nil => intro _ _; rfl
      | cons c l ih => intro h it; rw [List.foldl_cons, h c (.head _)]; exact ih (fun x hx => h x (.tail _ hx)) it
    exact this _ (fun c hc => hl c (List.mem_filter.1 hc).1) it
  have h2 : ∀ (l : List Cb), (∀ c ∈ l, ∀ v, c.decode (c.decode v) = v) →
      (∀ c ∈ l, ∀ b ∈ l, ∀ v, c.decode (b.decode v) = b.decode (c.decode v)) → ∀ v, decodeAll l (decodeAll l v) = v := by
    intro l
    induction l with
    | nil => intro _ _ v; rfl
    | cons c l ih =>
      intro hs hc v
      show decodeAll l (c.decode (decodeAll l (c.decode v))) = v
      rw [fold_comm c l (fun b hb => hc c (.head _) b (.tail _ hb)) v, hs c (.head _)]
      exact ih (fun x hx => hs x (.tail _ hx)) (fun x hx y hy => hc x (.tail _ hx) y (.tail _ hy)) v
  show (postReadAll cbs { it with value := decodeAll cbs (decodeAll cbs v) }).value = v
  rw [h1 cbs hp, h2 cbs hs hc]

/-- Two masks. -/
example :
    let c (m : Nat) : Cb := { decode := fun v => v.map (· ^^^ m) }
    (∀ m v, (c m).decode ((c m).decode v) = v) ∧ (∀ m k v, (c m).decode ((c k).decode v) = (c k).decode ((c m).decode v)) ∧
    (write { cbs := [c 5, c 12] } [] ⟨[7], true⟩).1 = [14] ∧ (read { cbs := [c 5, c 12] } [14] ⟨[0], true⟩).value = [7] := by
  refine ⟨fun m v => ?_, fun m k v => ?_, by decide, by decide⟩
  · show (v.map (· ^^^ m)).map (· ^^^ m) = v
    rw [List.map_map]
    conv => rhs; rw [← List.map_id v]
    exact List.map_congr_left fun x _ => by simp [Nat.xor_assoc]
  · show (v.map (· ^^^ k)).map (· ^^^ m) = (v.map (· ^^^ m)).map (· ^^^ k)
    rw [List.map_map, List.map_map]
    exact List.map_congr_left fun x _ => by
      show (x ^^^ k) ^^^ m = (x ^^^ m) ^^^ k
      rw [Nat.xor_assoc, Nat.xor_comm k m, ← Nat.xor_assoc]

/-! ## C280: the hooks of a back door -/

/-- The methods `pre_write`, `post_write`, `pre_read` of callbacks never run: back doors whose callbacks differ in these
behave the same. -/
theorem C280_callbacks_fails (d : Door) (f g h : Cb → Item → Item) (dev : List Nat) (it : Item) :
    write { d with cbs := d.cbs.map fun c => { c with preWrite := f c, postWrite := g c, preRead := h c } } dev it = write d dev it ∧
    read { d with cbs := d.cbs.map fun c => { c with preWrite := f c, postWrite := g c, preRead := h c } } dev it = read d dev it := by
  have hd : ∀ (l : List Cb) (v : List Nat),
      decodeAll (l.map fun c => { c with preWrite := f c, postWrite := g c, preRead := h c }) v = decodeAll l v := by
    intro l v
    unfold decodeAll
    rw [List.foldl_map]
  have hp : ∀ (l : List Cb) (it : Item),
      postReadAll (l.map fun c => { c with preWrite := f c, postWrite := g c, preRead := h c }) it = postReadAll l it := by
    intro l it
    unfold postReadAll
    rw [List.filter_map, List.foldl_map]
    rfl
  refine ⟨?_, ?_⟩
  · simp only [write, doPreWrite, doPostWrite, hd]
  · simp only [read, doPreRead, doPostRead, hd, hp]

/-- A disabled callback still takes part: it decodes. -/
theorem C280_disabled_fails : ∃ (c : Cb) (dev : List Nat), c.enabled = false ∧
    (read { cbs := [c] } dev ⟨[0], true⟩).value ≠ (read { cbs := [] } dev ⟨[0], true⟩).value ∧
    (write { cbs := [c] } dev ⟨[1], true⟩).1 ≠ (write { cbs := [] } dev ⟨[1], true⟩).1 :=
  ⟨{ enabled := false, decode := fun v => v.map (· + 1) }, [1], rfl, by decide, by decide⟩

/-- The back door's own methods run: `pre_write` decides what is stored, `post_write` and `post_read` what is reported; the
`post_read` callbacks that are enabled run in the order of registration, before the back door's own. -/
theorem C280_own_partial (d : Door) (hdec : ∀ c ∈ d.cbs, ∀ v, c.decode v = v) (dev : List Nat) (it : Item) :
    (write d dev it).1 = (d.preWrite it).value ∧ (write d dev it).2 = d.postWrite (d.preWrite it) ∧
    read d dev it = d.postRead ((d.cbs.filter (·.enabled)).foldl (fun it c => c.postRead it) { d.preRead it with value := dev }) := by
  have hd : ∀ (l : List Cb), (∀ c ∈ l, ∀ v, c.decode v = v) → ∀ v, decodeAll l v = v := by
    intro l
    induction l with
    | nil => intro _ _; rfl
    | cons c l ih =>
      intro h v
      show decodeAll l (c.decode v) = v
      rw [h c (.head _)]
      exact ih (fun x hx => h x (.tail _ hx)) v
  refine ⟨?_, ?_, ?_⟩
  · show decodeAll d.cbs (d.preWrite it).value = _
    rw [hd _ hdec]
  · show d.postWrite { d.preWrite it with value := decodeAll d.cbs (d.preWrite it).value } = _
    rw [hd _ hdec]
  · show d.postRead (postReadAll d.cbs { d.preRead it with value := decodeAll d.cbs dev }) = _
    rw [hd _ hdec]
    rfl

example : ∃ d : Door, d.cbs.length = 2 ∧ (∀ c ∈ d.cbs, ∀ v, c.decode v = v) ∧
    (read d [3] ⟨[0], true⟩).value = [9] ∧ (write d [] ⟨[3], true⟩).1 = [4] :=
  ⟨{ preWrite := fun it => { it with value := it.value.map (· + 1) },
     cbs := [{ postRead := fun it => { it with value := it.value.map (· + 6) } }, { enabled := false, postRead := fun _ => ⟨[0], false⟩ }] },
   rfl, by simp, by decide, by decide⟩

/-! ## C281: peek and poke of memories through user back doors -/

/-- A poke through a user back door reports success and does nothing; a peek reports success and gives 0. -/
theorem C281_poke_fails (d : Door) (w : Nat) (dev : List Nat) (v : Nat) :
    poke (.user d) w dev v = (dev, true) ∧ peek (.user d) dev = (true, some 0) := ⟨rfl, rfl⟩

/-- So a word poked does not read back, though the same back door stores and returns it when it is run. -/
example : let d : Door := {}
    (write d [1] ⟨[9], true⟩).1 = [9] ∧ (read d [9] ⟨[0], true⟩).value = [9] ∧
    peek (.user d) (poke (.user d) 8 [1] 9).1 = (true, some 0) := by decide

/-- Without any way the calls are refused.  Through an HDL path that stores what it is given and fetches what is stored, a
poke of the value stores it, cut to the width, and a peek then gives it. -/
theorem C281_other_partial (w : Nat) (dev : List Nat) (v : Nat) (wr : List Nat → Item → List Nat × Item) (rd : List Nat → Item → Item)
    (hw : ∀ dev it, wr dev it = (it.value, it)) (hr : ∀ dev it, rd dev it = ⟨dev, it.ok⟩) :
    poke .none w dev v = (dev, false) ∧ peek .none dev = (false, none) ∧
    poke (.hdl wr rd) w dev v = ([v % 2 ^ w], true) ∧ peek (.hdl wr rd) (poke (.hdl wr rd) w dev v).1 = (true, some (v % 2 ^ w)) := by
  have h1 : poke (.hdl wr rd) w dev v = ([v % 2 ^ w], true) := by simp only [poke, hw]
  refine ⟨rfl, rfl, h1, ?_⟩
  rw [h1]
  simp [peek, hr]

example : ∃ (wr : List Nat → Item → List Nat × Item) (rd : List Nat → Item → Item), (∀ dev it, wr dev it = (it.value, it)) ∧
    (∀ dev it, rd dev it = ⟨dev, it.ok⟩) ∧ peek (.hdl wr rd) (poke (.hdl wr rd) 4 [0] 25).1 = (true, some 9) :=
  ⟨fun _ it => (it.value, it), fun dev it => ⟨dev, it.ok⟩, fun _ _ => rfl, fun _ _ => rfl, by decide⟩

end Verif.UserDoor
