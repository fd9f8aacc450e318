import Verif.Lemmas.Hdl
import Verif.Props.RegAccess
/-!
# C145-C154: HDL paths and back-door accesses

C145: the HDL paths of blocks and registers.
C146: a path is read and written at the signal it names, and only there.
C147: a back-door write has the documented effect on the device, and the mirror is what the device has.
C148: a back-door read returns the device's value and has the documented effect.
C149: after a back-door read the mirror is what the device has.
C150: a path that names nothing is reported.
C151: words of arrays of arrays.
C152: registers and memories made of slices.
C153: a memory seen through the back door is an array.
C154: registers without a path.
-/
namespace Verif.Hdl
open Verif.Reg Verif.RegField
open Verif.SvBits (andNot)

/-! ## C145 -/

theorem blockPaths_cons (l : Level) (up : List Level) (hr : l.root = none) (ps : List HdlPath) (hp : l.paths = some ps) :
    blockPaths (l :: up) = (ps.flatMap fun p => if (blockPaths up).1.length = 0 then (if p ≠ [] then [p] else []) else (blockPaths up).1.map fun pp => pp ++ p,
      (blockPaths up).2) := by
  simp only [blockPaths, hr, hp]

/-- C145. The HDL paths of a block, whatever the tree above it and the paths given there: exactly the paths that consist of one of its own paths below one path
of its parent (or alone if the parent has none), or the root path if it is a root. -/
theorem C145_block_paths (ls : List Level) (p : HdlPath) : p ∈ (blockPaths ls).1 ↔ PathOf ls p := by
  induction ls generalizing p with
  | nil => simp [blockPaths, PathOf]
  | cons l up ih =>
    cases hr : l.root with
    | some r =>
      simp only [blockPaths, PathOf, hr]
      by_cases h : r = [] <;> simp [h]
    | none =>
      cases hp : l.paths with
      | none => simp [blockPaths, PathOf, hr, hp]
      | some ps =>
        rw [blockPaths_cons l up hr ps hp]
        simp only [PathOf, hr, hp, Option.some.injEq, exists_eq_left', List.mem_flatMap, ← ih]
        by_cases h0 : (blockPaths up).1 = []
        · simp only [h0, List.length_nil, if_true, List.not_mem_nil, false_and, exists_false, false_or, not_false_eq_true, implies_true, true_and]
          constructor
          · rintro ⟨a, ha, h⟩
            by_cases hn : a = []
            · simp [hn] at h
            · simp [hn] at h; exact ⟨a, ha, h, hn⟩
          · rintro ⟨a, ha, rfl, hn⟩
            exact ⟨p, ha, by simp [hn]⟩
        · have hl : (blockPaths up).1.length ≠ 0 := by simpa using h0
          obtain ⟨q0, hq0⟩ := List.exists_mem_of_ne_nil _ h0
          simp only [hl, if_false, List.mem_map]
          constructor
          · rintro ⟨a, ha, q, hq, rfl⟩; exact ⟨a, ha, .inl ⟨q, hq, rfl⟩⟩
          · rintro ⟨a, ha, ⟨q, hq, rfl⟩ | ⟨hn, _⟩⟩
            · exact ⟨a, ha, q, hq, rfl⟩
            · exact absurd hq0 (hn q0)

/-- C145. An error is reported exactly if, going up, a block without a path for the kind is met before a root. -/
theorem C145_undefined_reported (ls : List Level) : (blockPaths ls).2 = 1 ∧ Undefined ls ∨ (blockPaths ls).2 = 0 ∧ ¬ Undefined ls := by
  induction ls with
  | nil => exact .inr ⟨rfl, by rintro ⟨pre, l, post, h, _⟩; simp at h⟩
  | cons l up ih =>
    cases hr : l.root with
    | some r =>
      refine .inr ⟨by simp [blockPaths, hr], ?_⟩
      rintro ⟨pre, m, post, h, h1, h2, h3⟩
      cases pre with
      | nil => simp at h; rw [← h.1, hr] at h2; cases h2
      | cons a pre => simp at h; have := (h1 a (by simp)).1; rw [← h.1, hr] at this; cases this
    | none =>
      cases hp : l.paths with
      | none => exact .inl ⟨by simp [blockPaths, hr, hp], [], l, up, rfl, by simp, hr, hp⟩
      | some ps =>
        have e : Undefined (l :: up) ↔ Undefined up := by
          constructor
          · rintro ⟨pre, m, post, h, h1, h2, h3⟩
            cases pre with
            | nil => simp at h; rw [← h.1, hp] at h3; cases h3
            | cons a pre => simp at h; exact ⟨pre, m, post, h.2, fun x hx => h1 x (by simp [hx]), h2, h3⟩
          · rintro ⟨pre, m, post, h, h1, h2, h3⟩
            exact ⟨l :: pre, m, post, by simp [h], by
              intro x hx
              rcases List.mem_cons.1 hx with rfl | hx
              · exact ⟨hr, by simp [hp]⟩
              · exact h1 x hx, h2, h3⟩
        rw [blockPaths_cons l up hr ps hp, e]
        exact ih

/-- C145. If no block is a root and all have paths, none of them empty, there are as many paths as there are choices. -/
theorem C145_number_of_paths (ls : List Level) (hls : ls ≠ []) (h : ∀ l ∈ ls, l.root = none ∧ ∃ ps, l.paths = some ps ∧ ps ≠ [] ∧ ∀ p ∈ ps, p ≠ []) :
    (blockPaths ls).1.length = (ls.map fun l => (l.paths.getD []).length).foldr (· * ·) 1 := by
  induction ls with
  | nil => exact absurd rfl hls
  | cons l up ih =>
    obtain ⟨hr, ps, hp, hne, hnn⟩ := h l (by simp)
    rw [blockPaths_cons l up hr ps hp]
    simp only [List.map_cons, List.foldr_cons, hp, Option.getD_some]
    have key : ∀ (n : Nat) (f : HdlPath → List HdlPath), (∀ p ∈ ps, (f p).length = n) → (ps.flatMap f).length = ps.length * n := by
      clear hp hne hnn
      intro n f
      induction ps with
      | nil => intro _; simp
      | cons a ps ih =>
        intro h
        simp only [List.flatMap_cons, List.length_append, List.length_cons, h a (by simp), ih fun p hp => h p (by simp [hp])]
        rw [Nat.add_mul]; omega
    cases up with
    | nil =>
      refine (key 1 _ ?_).trans (by simp)
      intro p hp; simp [blockPaths, hnn p hp]
    | cons m up =>
      have ih := ih (by simp) fun x hx => h x (by simp [hx])
      refine key _ _ ?_
      intro p hp
      have hz : (blockPaths (m :: up)).1.length ≠ 0 := by
        rw [ih]
        have : ∀ ns : List Nat, (∀ n ∈ ns, n ≠ 0) → ns.foldr (· * ·) 1 ≠ 0 := by
          intro ns
          induction ns with
          | nil => simp
          | cons a ns ih => intro h; simp only [List.foldr_cons]; exact Nat.mul_ne_zero (h a (by simp)) (ih fun n hn => h n (by simp [hn]))
        apply this
        intro n hn
        obtain ⟨x, hx, rfl⟩ := List.mem_map.1 hn
        obtain ⟨_, qs, hq, hq1, _⟩ := h x (List.mem_cons_of_mem _ hx)
        simpa [hq] using hq1
      rw [if_neg hz, List.length_map, ih]

/-- C145. The paths of a register or memory: each of its concatenations below each path of its block; a slice is at its own path below the block's and keeps its place in the
register, unless it has no path of its own: then it is the block's path and the whole register. -/
theorem C145_register_paths (own : List (List Slice)) (parents : List HdlPath) (c : List Slice) :
    c ∈ fullPaths own parents ↔ ∃ o ∈ own, ∃ p ∈ parents, All2 (fun s t => t.path = p ++ s.path ∧
      (s.path ≠ [] → t.offset = s.offset ∧ t.size = s.size) ∧ (s.path = [] → t.offset = -1 ∧ t.size = -1)) o c := by
  have key : ∀ (p : HdlPath) (o c : List Slice), All2 (fun s t => t.path = p ++ s.path ∧
      (s.path ≠ [] → t.offset = s.offset ∧ t.size = s.size) ∧ (s.path = [] → t.offset = -1 ∧ t.size = -1)) o c ↔
      c = o.map fun s => if s.path = [] then { path := p } else { s with path := p ++ s.path } := by
    intro p o
    induction o with
    | nil =>
      intro c
      constructor
      · intro h; cases h; rfl
      · intro h; rw [h]; exact .nil
    | cons s o ih =>
      intro c
      constructor
      · intro h
        cases h with
        | @cons _ t _ c h1 h2 =>
          rw [List.map_cons, ← (ih c).1 h2]
          congr 1
          obtain ⟨tp, to', ts⟩ := t
          obtain ⟨a, b, e⟩ := h1
          by_cases hp : s.path = []
          · have := e hp; simp_all
          · have := b hp; simp_all
      · intro h
        rw [h, List.map_cons]
        refine .cons ?_ ((ih _).2 rfl)
        by_cases hp : s.path = [] <;> simp [hp]
  simp only [key, fullPaths, List.mem_flatMap, List.mem_map]
  constructor
  · rintro ⟨o, ho, p, hp, h⟩; exact ⟨o, ho, p, hp, h.symm⟩
  · rintro ⟨o, ho, p, hp, h⟩; exact ⟨o, ho, p, hp, h.symm⟩

/-! ## C146 -/

/-- C146. A path that names a signal, in whatever design: a read returns the value of the signal; a deposit gives it the value, cut to its width, and changes no other
signal; and the path still names it. -/
theorem C146_signal_access (d : Dut) (p : HdlPath) (i : Nat) (h : Signal d p i) (v : Nat) :
    hdlRead d p = some (d.val i) ∧
    ∃ d', hdlDeposit d p v = some d' ∧ hdlRead d' p = some (v % 2 ^ d.width i) ∧ (∀ q j, j ≠ i → Signal d q j → hdlRead d' q = hdlRead d q) := by
  refine ⟨read_signal h, put d i v, deposit_signal h v, ?_, ?_⟩
  · rw [read_signal (signal_put h i v)]; simp [put]
  · intro q j hj hq
    rw [read_signal hq, read_signal (signal_put hq i v)]; simp [put, hj]

/-- C146. A register that is one signal in one or more places: a back-door read returns its value; it reports an error if the places disagree. -/
theorem C146_read_compares (n : Nat) (d : Dut) (paths : List (List Slice)) (i : Nat) (sigs : List Nat) (h : Whole d paths (i :: sigs)) (old : Nat) :
    ∃ ok, bdRead n paths d old = some (ok, d.val i % 2 ^ n) ∧ (ok = true ↔ ∀ j ∈ sigs, d.val j % 2 ^ n = d.val i % 2 ^ n) :=
  ⟨_, bdRead_whole h old, by simp⟩

/-- C146. A back-door write of a register that is one signal in several places writes all of them and nothing else. -/
theorem C146_write_all_places (d : Dut) (paths : List (List Slice)) (sigs : List Nat) (h : Whole d paths sigs) (v : Nat) :
    ∃ d', bdWrite paths d v = some d' ∧ ∀ j, d'.val j = if j ∈ sigs then v % 2 ^ d.width j else d.val j :=
  ⟨_, bdWrite_whole h v, (foldl_put d sigs v).2.2.2⟩

/-! ## C147 -/

/-- The value a back-door write gives the device. -/
def finalValue (dflt : Rights) (r : Reg) (c v : Nat) : Nat :=
  r.fields.foldl (fun acc x =>
    acc ||| (xpredict x.f ((c >>> x.lsb) &&& (2 ^ x.f.size - 1)) ((v >>> x.lsb) &&& (2 ^ x.f.size - 1)) dflt <<< x.lsb)) 0

theorem final_set (dflt : Rights) (r : Reg) (u : Int) (c v : Nat) : finalValue dflt (Reg.set r u) c v = finalValue dflt r c v := by
  simp only [finalValue, Reg.set, List.foldl_map]; rfl

theorem shift_and_testBit (v l n i : Nat) (hi : i < n) : ((v >>> l) &&& (2 ^ n - 1)).testBit i = v.testBit (l + i) := by
  simp [Nat.testBit_and, Nat.testBit_shiftRight, Nat.testBit_two_pow_sub_one, hi]

theorem final_testBit (dflt : Rights) {r : Reg} (hg : Good r) (c v b : Nat) :
    (finalValue dflt r c v).testBit b = match fieldAt r b with
      | some x => (doc (getAccess x.f dflt)).1.bit x.f.written (c.testBit b) (v.testBit b)
      | none => false := by
  have hx : ∀ x : RF, IsWriteResult x.f.size (doc (getAccess x.f dflt)).1 x.f.written ((c >>> x.lsb) &&& (2 ^ x.f.size - 1)) ((v >>> x.lsb) &&& (2 ^ x.f.size - 1))
      (xpredict x.f ((c >>> x.lsb) &&& (2 ^ x.f.size - 1)) ((v >>> x.lsb) &&& (2 ^ x.f.size - 1)) dflt) :=
    fun x => xpredict_result x.f _ _ dflt (and_mask_lt _ _) (and_mask_lt _ _)
  rw [finalValue, assemble_testBit r.fields hg.disj _ (fun x _ => (hx x).1)]
  simp only [assembled, fieldAt]
  cases hf : r.fields.find? (fun x => decide (Covers x b)) with
  | none => rfl
  | some x =>
    have hc : Covers x b := by simpa using List.find?_some hf
    have hb : b - x.lsb < x.f.size := by have := hc.1; have := hc.2; omega
    simp only
    rw [(hx x).2 _ hb, shift_and_testBit _ _ _ _ hb, shift_and_testBit _ _ _ _ hb]
    have : x.lsb + (b - x.lsb) = b := by have := hc.1; omega
    rw [this]

theorem final_lt (dflt : Rights) {r : Reg} (hg : Good r) (hi : RegAccess.Inside r) (c v : Nat) : finalValue dflt r c v < 2 ^ r.nBits := by
  apply lt_of_testBit
  intro b hb
  rw [final_testBit dflt hg]
  simp only [fieldAt]
  cases hf : r.fields.find? (fun x => decide (Covers x b)) with
  | none => rfl
  | some x =>
    have hc : Covers x b := by simpa using List.find?_some hf
    have := hi x (List.mem_of_find?_eq_some hf)
    have := hc.2; omega

/-- The mirror after a back-door prediction of `v`: the bits of `v` that belong to fields. -/
theorem mirrored_other {r : Reg} (hg : Good r) (v : Nat) (k : PKind) (b : Nat) :
    (getMirrored (after r v k)).testBit b = match fieldAt r b with | some _ => v.testBit b | none => false := by
  simp only [getMirrored, after, List.foldl_map]
  rw [assemble_testBit r.fields hg.disj (fun x => slice v x.lsb x.f.size) (fun x _ => slice_lt _ _ _)]
  simp only [assembled, fieldAt]
  cases hf : r.fields.find? (fun x => decide (Covers x b)) with
  | none => rfl
  | some x =>
    have hc : Covers x b := by simpa using List.find?_some hf
    have hb : b - x.lsb < x.f.size := by have := hc.1; have := hc.2; omega
    simp only
    rw [slice_testBit _ _ _ _ hb, intBit_nat]
    have : x.lsb + (b - x.lsb) = b := by have := hc.1; omega
    rw [this]

theorem get_other (r : Reg) (v : Nat) (k : PKind) :
    Reg.get (after r v k) =
    getMirrored (after r v k) := by
  simp only [Reg.get, getMirrored, after, List.foldl_map]

/-- C147. A back-door write of `v` to a register that is one signal (or the same signal in several places, which agree), each wide enough: the status is OK, every place
gets the value the documented policies give for the device's old value and `v`, no other signal changes, and mirror and desired value are what the device has. -/
theorem C147_write (d : Dut) (paths : List (List Slice)) (i : Nat) (sigs : List Nat) (h : Whole d paths (i :: sigs)) (dflt : Rights)
    (r : Reg) (hreach : Reachable r) (hin : RegAccess.Inside r) (hw : ∀ j ∈ i :: sigs, r.nBits ≤ d.width j)
    (hag : ∀ j ∈ sigs, d.val j % 2 ^ r.nBits = d.val i % 2 ^ r.nBits) (v : Nat) :
    ∃ o, regWrite paths dflt r d v = some o ∧ o.ok = true ∧
      (∀ j, j ∉ i :: sigs → o.dut.val j = d.val j) ∧
      (∀ j ∈ i :: sigs, getMirrored o.reg = o.dut.val j) ∧ Reg.get o.reg = getMirrored o.reg ∧
      ∀ b, (o.dut.val i).testBit b = match fieldAt r b with
        | some x => (doc (getAccess x.f dflt)).1.bit x.f.written ((d.val i).testBit b) ((v % 2 ^ r.nBits).testBit b)
        | none => false := by
  have hg := reachable_good hreach
  have hg' : Good (Reg.set r v) := RegAccess.good_set hg v
  have hn : (Reg.set r v).nBits = r.nBits := rfl
  have hfin := final_lt dflt hg hin (d.val i % 2 ^ r.nBits) (v % 2 ^ r.nBits)
  have hb := bdRead_whole (n := r.nBits) h (v % 2 ^ r.nBits)
  rw [decide_eq_true hag] at hb
  have hput := (foldl_put d (i :: sigs) (finalValue dflt r (d.val i % 2 ^ r.nBits) (v % 2 ^ r.nBits))).2.2.2
  have hpj : ∀ j ∈ i :: sigs, (List.foldl (fun e k => put e k (finalValue dflt r (d.val i % 2 ^ r.nBits) (v % 2 ^ r.nBits))) d (i :: sigs)).val j =
      finalValue dflt r (d.val i % 2 ^ r.nBits) (v % 2 ^ r.nBits) := by
    intro j hj
    rw [hput j, if_pos hj]
    exact Nat.mod_eq_of_lt (Nat.lt_of_lt_of_le hfin (Nat.pow_le_pow_right (by omega) (hw j hj)))
  have hrun : regWrite paths dflt r d v = some ⟨after (Reg.set r v) (finalValue dflt r (d.val i % 2 ^ r.nBits) (v % 2 ^ r.nBits)) .write, (i :: sigs).foldl (fun e k => put e k (finalValue dflt r (d.val i % 2 ^ r.nBits) (v % 2 ^ r.nBits))) d, true, 0⟩ := by
    simp only [regWrite, hn, hb, Option.bind_eq_bind, Option.bind_some, Bool.true_eq_false, if_false]
    have e := final_set dflt r v (d.val i % 2 ^ r.nBits) (v % 2 ^ r.nBits)
    unfold finalValue at e
    rw [e]
    have e2 := bdWrite_whole h (finalValue dflt r (d.val i % 2 ^ r.nBits) (v % 2 ^ r.nBits))
    unfold finalValue at e2 ⊢
    rw [e2]
    simp only [Option.bind_some, doPredict_other (Reg.set r v) _ .write (by decide)]
    rfl
  refine ⟨_, hrun, rfl, ?_, ?_, get_other _ _ .write, ?_⟩
  · intro j hj; simp only; rw [hput j, if_neg hj]
  · intro j hj
    simp only
    rw [hpj j hj]
    apply Nat.eq_of_testBit_eq
    intro b
    refine (mirrored_other hg' _ .write b).trans ?_
    rw [final_testBit dflt hg]
    have hf : (fieldAt (Reg.set r v) b).isSome = (fieldAt r b).isSome := by
      simp only [fieldAt, Reg.set]
      rw [find_map r.fields (fun x => { x with f := RegField.set x.f (slice v x.lsb x.f.size) }) (fun x hx => ⟨rfl, (fits_step (hg.fits x hx) (.set _)).2⟩)]
      simp
    revert hf
    cases fieldAt (Reg.set r v) b <;> cases fieldAt r b <;> intro hf
    · rfl
    · exact absurd hf (by simp)
    · exact absurd hf (by simp)
    · rfl
  · intro b
    simp only
    rw [hpj i (by simp), final_testBit dflt hg]
    simp only [fieldAt]
    cases hf : r.fields.find? (fun x => decide (Covers x b)) with
    | none => rfl
    | some x =>
      have hc : Covers x b := by simpa using List.find?_some hf
      have := hin x (List.mem_of_find?_eq_some hf)
      have hlt : b < r.nBits := by have := hc.2; omega
      simp [Nat.testBit_mod_two_pow, hlt]

/-- C147. If the places of the register disagree, the status is not OK, and neither the device nor the mirror changes. -/
theorem C147_write_disagreeing (d : Dut) (paths : List (List Slice)) (i : Nat) (sigs : List Nat) (h : Whole d paths (i :: sigs)) (dflt : Rights)
    (r : Reg) (j : Nat) (hj : j ∈ sigs) (hd : d.val j % 2 ^ r.nBits ≠ d.val i % 2 ^ r.nBits) (v : Nat) :
    ∃ o, regWrite paths dflt r d v = some o ∧ o.ok = false ∧ o.dut = d ∧ getMirrored o.reg = getMirrored r := by
  have hb := bdRead_whole (n := r.nBits) h (v % 2 ^ r.nBits)
  rw [decide_eq_false (fun hh => hd (hh j hj))] at hb
  have hn : (Reg.set r v).nBits = r.nBits := rfl
  exact ⟨_, by simp only [regWrite, hn, hb, Option.bind_eq_bind, Option.bind_some, if_true]; rfl, rfl, rfl, RegAccess.getMirrored_set r v⟩

/-! ## C148 -/

theorem ones_shift_testBit (x : RF) (b : Nat) : ((2 ^ x.f.size - 1) <<< x.lsb).testBit b = decide (Covers x b) := by
  rw [Nat.testBit_shiftLeft, Nat.testBit_two_pow_sub_one]
  simp only [Covers]
  by_cases h1 : x.lsb ≤ b <;> by_cases h2 : b < x.lsb + x.f.size <;> simp [h1, h2] <;> omega

theorem readEffect_testBit (x : RF) (v b : Nat) :
    (readEffect x v).testBit b = if Covers x b then afterRead x.f.access (v.testBit b) else v.testBit b := by
  unfold readEffect afterRead
  simp only [getAccess]
  cases x.f.access <;> simp only [doc, Nat.testBit_or, andNot_testBit, ones_shift_testBit] <;>
    by_cases h : Covers x b <;> simp [h]

theorem readEffects_testBit (fs : List RF) (hd : NoOverlap fs) (v b : Nat) :
    (fs.foldl (fun v x => readEffect x v) v).testBit b =
      match fs.find? (fun x => decide (Covers x b)) with
      | some x => afterRead x.f.access (v.testBit b)
      | none => v.testBit b := by
  induction fs generalizing v with
  | nil => rfl
  | cons x xs ih =>
    have hd' := List.pairwise_cons.1 hd
    rw [List.foldl_cons, ih hd'.2, readEffect_testBit, List.find?_cons]
    by_cases h : Covers x b
    · have hn : xs.find? (fun x => decide (Covers x b)) = none := by
        rw [List.find?_eq_none]
        intro y hy hc
        exact hd'.1 y hy ⟨b, h, by simpa using hc⟩
      simp [h, hn]
    · simp [h]

theorem woMask_testBit {r : Reg} (hd : NoOverlap r.fields) (b : Nat) :
    (woMask r).testBit b = match fieldAt r b with
      | some x => decide ((doc x.f.access).2 = .error)
      | none => false := by
  have hstep : ∀ (x : RF) (m : Nat), (woField m x).testBit b = (m.testBit b || (decide (Covers x b) && decide ((doc x.f.access).2 = .error))) := by
    intro x m
    unfold woField
    simp only [getAccess]
    cases x.f.access <;> simp only [doc, Nat.testBit_or, ones_shift_testBit] <;> simp
  have key : ∀ (fs : List RF) (m : Nat), NoOverlap fs → (fs.foldl woField m).testBit b = (m.testBit b || match fs.find? (fun x => decide (Covers x b)) with
        | some x => decide ((doc x.f.access).2 = .error)
        | none => false) := by
    intro fs
    induction fs with
    | nil => intro m _; simp
    | cons x xs ih =>
      intro m hd
      have hd' := List.pairwise_cons.1 hd
      rw [List.foldl_cons, ih _ hd'.2, hstep, List.find?_cons]
      by_cases h : Covers x b
      · have hn : xs.find? (fun x => decide (Covers x b)) = none := by
          rw [List.find?_eq_none]
          intro y hy hc
          exact hd'.1 y hy ⟨b, h, by simpa using hc⟩
        simp [h, hn]
      · simp [h]
  have := key r.fields 0 hd
  simpa [woMask, fieldAt] using this

/-- C148. A back-door read of a register that is one signal (or the same signal in several places, which agree): the status is OK; the value is the device's, but 0 in
write-only fields; the device's fields that are cleared or set by a read are cleared or set, in every place, and nothing else changes; mirror and desired value are, in every field, the
value read. -/
theorem C148_read (d : Dut) (paths : List (List Slice)) (i : Nat) (sigs : List Nat) (h : Whole d paths (i :: sigs))
    (r : Reg) (hreach : Reachable r) (hw : ∀ j ∈ i :: sigs, r.nBits ≤ d.width j)
    (hag : ∀ j ∈ sigs, d.val j % 2 ^ r.nBits = d.val i % 2 ^ r.nBits) :
    ∃ o, regRead paths r d = some o ∧ o.ok = true ∧ o.value < 2 ^ r.nBits ∧
      (∀ b < r.nBits, o.value.testBit b = match fieldAt r b with
        | some x => (d.val i).testBit b && decide ((doc x.f.access).2 ≠ .error)
        | none => (d.val i).testBit b) ∧
      (∀ j, j ∉ i :: sigs → o.dut.val j = d.val j) ∧
      (∀ j ∈ i :: sigs, ∀ b < r.nBits, (o.dut.val j).testBit b = match fieldAt r b with
        | some x => afterRead x.f.access ((d.val i).testBit b)
        | none => (d.val i).testBit b) ∧
      Reg.get o.reg = getMirrored o.reg ∧
      ∀ b, (getMirrored o.reg).testBit b = match fieldAt r b with
        | some _ => o.value.testBit b
        | none => false := by
  have hg := reachable_good hreach
  have hb := bdRead_whole (n := r.nBits) h 0
  rw [decide_eq_true hag] at hb
  have hcb : ∀ b < r.nBits, (d.val i % 2 ^ r.nBits).testBit b = (d.val i).testBit b := by
    intro b hlt; simp [Nat.testBit_mod_two_pow, hlt]
  have hv' := fun b => readEffects_testBit r.fields hg.disj (d.val i % 2 ^ r.nBits) b
  obtain ⟨d', hd', ho, hin⟩ : ∃ d', writeBack paths d (r.fields.foldl (fun v x => readEffect x v) (d.val i % 2 ^ r.nBits)) (d.val i % 2 ^ r.nBits) = some d' ∧
      (∀ j, j ∉ i :: sigs → d'.val j = d.val j) ∧
      (∀ j ∈ i :: sigs, ∀ b < r.nBits, (d'.val j).testBit b = (r.fields.foldl (fun v x => readEffect x v) (d.val i % 2 ^ r.nBits)).testBit b) := by
    by_cases he : (r.fields.foldl (fun v x => readEffect x v) (d.val i % 2 ^ r.nBits)) = d.val i % 2 ^ r.nBits
    · refine ⟨d, by simp [writeBack, he], fun _ _ => rfl, ?_⟩
      intro j hj b hlt
      rw [he]
      have : d.val j % 2 ^ r.nBits = d.val i % 2 ^ r.nBits := by
        rcases List.mem_cons.1 hj with rfl | hj
        · rfl
        · exact hag j hj
      rw [← this]; simp [Nat.testBit_mod_two_pow, hlt]
    · have hp := (foldl_put d (i :: sigs) (r.fields.foldl (fun v x => readEffect x v) (d.val i % 2 ^ r.nBits))).2.2.2
      refine ⟨_, by rw [writeBack, if_pos he]; exact bdWrite_whole h _, ?_, ?_⟩
      · intro j hj; rw [hp j, if_neg hj]
      · intro j hj b hlt
        rw [hp j, if_pos hj]
        have := hw j hj
        simp [Nat.testBit_mod_two_pow, (show b < d.width j by omega)]
  have hvb : ∀ b, (andNot (d.val i % 2 ^ r.nBits) (woMask r)).testBit b = ((d.val i % 2 ^ r.nBits).testBit b && !(woMask r).testBit b) := andNot_testBit _ _
  refine ⟨⟨after r (andNot (d.val i % 2 ^ r.nBits) (woMask r)) .read, d', true, andNot (d.val i % 2 ^ r.nBits) (woMask r)⟩, ?_, rfl, ?_, ?_, ho, ?_, get_other _ _ .read, ?_⟩
  · simp only [regRead, hb, Option.bind_eq_bind, Option.bind_some, Bool.true_eq_false, if_false]
    rw [hd']
    simp only [Option.bind_some, doPredict_other r _ .read (by decide)]
    rfl
  · apply lt_of_testBit
    intro b hle
    have : ¬ b < r.nBits := by omega
    simp only [hvb, Nat.testBit_mod_two_pow, this, decide_false, Bool.false_and]
  · intro b hlt
    simp only [hvb, woMask_testBit hg.disj, hcb b hlt]
    cases fieldAt r b with
    | none => simp
    | some x => simp [decide_not]
  · intro j hj b hlt
    simp only
    rw [hin j hj b hlt, hv', hcb b hlt]; rfl
  · intro b
    exact mirrored_other hg _ .read b

/-- C148. If the places of the register disagree, the status is not OK, and neither the device nor the register model changes. -/
theorem C148_read_disagreeing (d : Dut) (paths : List (List Slice)) (i : Nat) (sigs : List Nat) (h : Whole d paths (i :: sigs))
    (r : Reg) (j : Nat) (hj : j ∈ sigs) (hd : d.val j % 2 ^ r.nBits ≠ d.val i % 2 ^ r.nBits) :
    ∃ o, regRead paths r d = some o ∧ o.ok = false ∧ o.dut = d ∧ o.reg = r := by
  have hb := bdRead_whole (n := r.nBits) h 0
  rw [decide_eq_false (fun hh => hd (hh j hj))] at hb
  exact ⟨_, by simp only [regRead, hb, Option.bind_eq_bind, Option.bind_some, if_true]; rfl, rfl, rfl, rfl⟩

/-! ## C149 -/

/-- C149 fails for fields that a read clears: after a back-door read of a bit that was 1 the device has 0 there and the mirror 1. -/
theorem C149_cleared_field_fails (d : Dut) (paths : List (List Slice)) (i : Nat) (sigs : List Nat) (h : Whole d paths (i :: sigs))
    (r : Reg) (hreach : Reachable r) (hw : ∀ j ∈ i :: sigs, r.nBits ≤ d.width j)
    (hag : ∀ j ∈ sigs, d.val j % 2 ^ r.nBits = d.val i % 2 ^ r.nBits)
    (b : Nat) (hb : b < r.nBits) (x : RF) (hx : fieldAt r b = some x) (hc : (doc x.f.access).2 = .clears) (h1 : (d.val i).testBit b = true) :
    ∃ o, regRead paths r d = some o ∧ o.ok = true ∧ (getMirrored o.reg).testBit b = true ∧ (o.dut.val i).testBit b = false := by
  obtain ⟨o, h0, hok, _, h2, _, h3, _, h4⟩ := C148_read d paths i sigs h r hreach hw hag
  refine ⟨o, h0, hok, ?_, ?_⟩
  · rw [h4 b, hx]; simp only; rw [h2 b hb, hx]; simp [h1, hc]
  · rw [h3 i (by simp) b hb, hx]; simp [afterRead, hc]

/-- C149, the part that holds: if no field is affected by reads or write-only, the mirror is, field by field, what the device has. -/
theorem C149_mirror_partial (d : Dut) (paths : List (List Slice)) (i : Nat) (sigs : List Nat) (h : Whole d paths (i :: sigs))
    (r : Reg) (hreach : Reachable r) (hw : ∀ j ∈ i :: sigs, r.nBits ≤ d.width j)
    (hag : ∀ j ∈ sigs, d.val j % 2 ^ r.nBits = d.val i % 2 ^ r.nBits) (hf : ∀ x ∈ r.fields, (doc x.f.access).2 = .noEffect) :
    ∃ o, regRead paths r d = some o ∧ o.ok = true ∧
      ∀ j ∈ i :: sigs, ∀ b < r.nBits, fieldAt r b ≠ none → (getMirrored o.reg).testBit b = (o.dut.val j).testBit b := by
  obtain ⟨o, h0, hok, _, h2, _, h3, _, h4⟩ := C148_read d paths i sigs h r hreach hw hag
  refine ⟨o, h0, hok, ?_⟩
  intro j hj b hb hne
  cases hx : fieldAt r b with
  | none => exact absurd hx hne
  | some x =>
    have he := hf x (List.mem_of_find?_eq_some hx)
    rw [h4 b, h3 j hj b hb, hx]
    simp only
    rw [h2 b hb, hx]
    simp [afterRead, he]

/-! ## C150 -/

/-- C150 fails: a component that names nothing is skipped, in every design and at every place of a path; the access is then made at whatever the rest of the path names. -/
theorem C150_missing_component_fails (d : Dut) (p q : HdlPath) (c : Comp) (o : Obj) (hp : Names d.top p o) (hs : Simple d.verilator p)
    (hc : c.idx = []) (hno : ∀ m, ¬ Names o [c] m) (v : Nat) :
    hdlRead d (p ++ c :: q) = hdlRead d (p ++ q) ∧ hdlDeposit d (p ++ c :: q) v = hdlDeposit d (p ++ q) v := by
  have h : locate d.verilator d.top (p ++ c :: q) = locate d.verilator d.top (p ++ q) := by
    have h1 := locate_names hp hs
    simp only [locate] at h1
    simp only [locate, List.flatMap_append, List.flatMap_cons, List.foldlM_append, h1, Option.bind_eq_bind, Option.bind_some]
    have h2 : List.foldlM next o (splitComp d.verilator c) = some o := by
      simp only [splitComp, hc, List.foldlM_cons, List.foldlM_nil, next]
      cases o with
      | sig i => rfl
      | array es => rfl
      | scope cs =>
        cases hl : cs.lookup c.name with
        | none => simp [hl]
        | some m => exact absurd (Names.child hl (by rw [hc]; exact .here m) (.here m)) (hno m)
    simp only [h2, Option.bind_some]
  simp [hdlRead, hdlDeposit, h]

/-! ## C151 -/

theorem splitComp_more (v : Bool) (n : String) (i : Nat) (is js : List Nat) (hv : v = true) :
    splitComp v ⟨n, i :: is⟩ = splitComp v ⟨n, i :: js⟩ := by simp [splitComp, hv]

/-- C151 fails: if the path of a memory ends with an index (a row of an array of arrays), all words of the memory are the same to the back door: the index of the word is dropped. -/
theorem C151_word_index_dropped_fails (d : Dut) (hv : d.verilator = true) (n : Nat) (p : HdlPath) (name : String) (i : Nat) (is : List Nat) (o o' v : Nat) :
    memPoke n [[{ path := p ++ [⟨name, i :: is⟩] }]] d o v = memPoke n [[{ path := p ++ [⟨name, i :: is⟩] }]] d o' v ∧
    memPeek n [[{ path := p ++ [⟨name, i :: is⟩] }]] d o = memPeek n [[{ path := p ++ [⟨name, i :: is⟩] }]] d o' := by
  have e : ∀ k, locate d.verilator d.top (withIndex (p ++ [⟨name, i :: is⟩]) k) = locate d.verilator d.top (p ++ [⟨name, [i]⟩]) := by
    intro k
    simp [withIndex, locate, List.flatMap_append, splitComp, hv]
  have hr : ∀ k, hdlRead d (withIndex (p ++ [⟨name, i :: is⟩]) k) = hdlRead d (p ++ [⟨name, [i]⟩]) := fun k => by simp only [hdlRead, e]
  have hd : ∀ k u, hdlDeposit d (withIndex (p ++ [⟨name, i :: is⟩]) k) u = hdlDeposit d (p ++ [⟨name, [i]⟩]) u := fun k u => by simp only [hdlDeposit, e]
  constructor
  · simp [memPoke, bdWrite, atIndex, writeSlice, hd]
  · simp [memPeek, bdRead, atIndex, readSlice, hr]

/-! ## C152 -/

/-- C152 fails: a back-door read or write of a register (or a peek of a memory) whose first path has a slice with an offset always raises. -/
theorem C152_sliced_fails (c : List Slice) (cs : List (List Slice)) (s : Slice) (hs : s ∈ c) (ho : 0 ≤ s.offset) (d : Dut) (dflt : Rights) (r : Reg) (v n o : Nat) :
    regWrite (c :: cs) dflt r d v = none ∧ regRead (c :: cs) r d = none ∧ memPeek n (c :: cs) d o = none := by
  have key : ∀ (c : List Slice) (a : Nat), (∃ s ∈ c, 0 ≤ s.offset) → c.foldlM (readSlice d) a = none := by
    intro c
    induction c with
    | nil => rintro _ ⟨s, hs, _⟩; simp at hs
    | cons t ts ih =>
      rintro a ⟨s, hs, ho⟩
      rw [List.foldlM_cons]
      rcases List.mem_cons.1 hs with rfl | hs
      · have : ¬ s.offset < 0 := by omega
        simp [readSlice, this]
      · cases readSlice d a t with
        | none => rfl
        | some u => exact ih u ⟨s, hs, ho⟩
  have hb : ∀ m old, bdRead m (c :: cs) d old = none := by
    intro m old
    simp [bdRead, key c 0 ⟨s, hs, ho⟩]
  refine ⟨by simp [regWrite, hb], by simp [regRead, hb], ?_⟩
  have := key (c.map fun s => { s with path := withIndex s.path o }) 0 ⟨_, List.mem_map.2 ⟨s, hs, rfl⟩, ho⟩
  simp [memPeek, atIndex, bdRead, this]

/-- C152, the part that holds: a deposit into slices (as `poke` of a memory does): each signal gets its bits of the value, and nothing else changes. -/
theorem C152_deposit_slices_partial (d : Dut) (c : List Slice) (sigs : List Nat) (v : Nat) (hn : sigs.Nodup)
    (h : All2 (fun s k => Signal d s.path k ∧ 0 ≤ s.offset ∧ 0 ≤ s.size) c sigs) :
    ∃ d', bdWrite [c] d v = some d' ∧ (∀ j, j ∉ sigs → d'.val j = d.val j) ∧
      All2 (fun s k => ∀ b, (d'.val k).testBit b = (decide (b < s.size.toNat ∧ b < d.width k) && v.testBit (s.offset.toNat + b))) c sigs := by
  have key : ∀ (c : List Slice) (sigs : List Nat) (e : Dut), e.top = d.top → e.verilator = d.verilator → e.width = d.width → sigs.Nodup →
      All2 (fun s k => Signal d s.path k ∧ 0 ≤ s.offset ∧ 0 ≤ s.size) c sigs →
      ∃ d', c.foldlM (writeSlice v) e = some d' ∧ (∀ j, j ∉ sigs → d'.val j = e.val j) ∧
        All2 (fun s k => ∀ b, (d'.val k).testBit b = (decide (b < s.size.toNat ∧ b < d.width k) && v.testBit (s.offset.toNat + b))) c sigs := by
    intro c
    induction c with
    | nil => intro sigs e _ _ _ _ h; cases h; exact ⟨e, rfl, fun _ _ => rfl, .nil⟩
    | cons s c ih =>
      intro sigs e e1 e2 e3 hn h
      cases h with
      | @cons _ k _ ks h1 h2 =>
        have hn' := List.nodup_cons.1 hn
        have hs : Signal e s.path k := by
          have := h1.1
          simp only [Signal] at this ⊢
          rw [e1, e2]; exact this
        have ho : ¬ s.offset < 0 := by have := h1.2.1; omega
        have hz : ¬ s.size < 0 := by have := h1.2.2; omega
        obtain ⟨d', a1, a2, a3⟩ := ih ks (put e k ((v >>> s.offset.toNat) &&& (2 ^ s.size.toNat - 1))) e1 e2 e3 hn'.2 h2
        refine ⟨d', ?_, ?_, .cons ?_ a3⟩
        · simp only [List.foldlM_cons, writeSlice, ho, hz, if_false, deposit_signal hs]
          exact a1
        · intro j hj
          simp only [List.mem_cons, not_or] at hj
          rw [a2 j hj.2]; simp [put, hj.1]
        · intro b
          rw [a2 k hn'.1]
          simp only [put, if_true, e3, Nat.testBit_mod_two_pow, Nat.testBit_and, Nat.testBit_shiftRight, Nat.testBit_two_pow_sub_one]
          by_cases q1 : b < d.width k <;> by_cases q2 : b < s.size.toNat <;> simp [q1, q2]
  obtain ⟨d', a1, a2, a3⟩ := key c sigs d rfl rfl rfl hn h
  exact ⟨d', by simp [bdWrite, a1], a2, a3⟩

/-! ## C153 -/

theorem withIndex_cons (c c' : Comp) (p : HdlPath) (i : Nat) : withIndex (c :: c' :: p) i = c :: withIndex (c' :: p) i := by
  simp only [withIndex, List.getLast?_cons_cons]
  cases h : (c' :: p).getLast? with
  | none => simp at h
  | some x => simp

theorem names_index {o : Obj} {p : HdlPath} {es : List Obj} (h : Names o p (.array es)) (hne : p ≠ []) (hl : ∀ c, p.getLast? = some c → c.idx = [])
    {i : Nat} {e : Obj} (he : es[i]? = some e) : Names o (withIndex p i) e := by
  generalize ht : Obj.array es = t at h
  induction h with
  | here _ => exact absurd rfl hne
  | @child cs c m m' o p h1 h2 h3 ih =>
    cases p with
    | nil =>
      cases h3
      have hc := hl c rfl
      rw [hc] at h2
      cases h2
      subst ht
      simp only [withIndex, List.getLast?_singleton, List.dropLast_singleton, List.nil_append, hc]
      exact .child h1 (.elem he (.here e)) (.here e)
    | cons c' p =>
      rw [withIndex_cons]
      exact .child h1 h2 (ih (by simp) (fun x hx => hl x (by simpa [List.getLast?_cons_cons] using hx)) ht)

theorem simple_index {p : HdlPath} (hs : Simple true p) (hl : ∀ c, p.getLast? = some c → c.idx = []) (i : Nat) : Simple true (withIndex p i) := by
  intro c hc
  unfold withIndex at hc
  cases h : p.getLast? with
  | none => simp [h] at hc
  | some x =>
    simp only [h, List.mem_append, List.mem_singleton] at hc
    rcases hc with hc | rfl
    · exact hs c (List.dropLast_subset p hc)
    · simp [hl x h]

theorem memory_signal {d : Dut} {p : HdlPath} {ids : List Nat} (h : Memory d p ids) {i k : Nat} (hi : ids[i]? = some k) : Signal d (withIndex p i) k := by
  refine ⟨names_index h.names h.nonempty h.last (by simp [hi]), ?_⟩
  rw [h.verilator]
  exact simple_index h.simple h.last i

theorem memory_put {d : Dut} {p : HdlPath} {ids : List Nat} (h : Memory d p ids) (k v : Nat) : Memory (put d k v) p ids := ⟨h.1, h.2, h.3, h.4, h.5, h.6⟩

/-- C153. A memory that is an array of signals, seen through poke and peek: after any history of pokes a peek returns the value last poked at its offset, cut to the width of the
memory, or the initial content. -/
theorem C153_memory_is_array (n : Nat) (p : HdlPath) (ids : List Nat) (ops : List (Nat × Nat)) (d : Dut) (h : Memory d p ids)
    (hw : ∀ k ∈ ids, n ≤ d.width k) (hops : ∀ q ∈ ops, q.1 < ids.length) :
    ∃ d', ops.foldlM (fun d q => memPoke n [[{ path := p }]] d q.1 q.2) d = some d' ∧
      ∀ o < ids.length, memPeek n [[{ path := p }]] d' o = some (true, lastPoke n (fun o => d.val (ids.getD o 0) % 2 ^ n) ops o) := by
  induction ops generalizing d with
  | nil =>
    refine ⟨d, rfl, ?_⟩
    intro o ho
    have hs := memory_signal h (List.getElem?_eq_getElem ho)
    have hW : Whole d [[{ path := withIndex p o }]] [ids[o]] := .cons ⟨_, rfl, hs⟩ .nil
    simp only [memPeek, atIndex, List.map_cons, List.map_nil]
    rw [bdRead_whole hW 0]
    simp [lastPoke, ho]
  | cons q ops ih =>
    have hq := hops q (by simp)
    have hs := memory_signal h (List.getElem?_eq_getElem hq)
    have hW : Whole d [[{ path := withIndex p q.1 }]] [ids[q.1]] := .cons ⟨_, rfl, hs⟩ .nil
    obtain ⟨d', h1, h2⟩ := ih (put d ids[q.1] (q.2 &&& (2 ^ n - 1))) (memory_put h _ _) hw fun x hx => hops x (by simp [hx])
    refine ⟨d', ?_, ?_⟩
    · rw [List.foldlM_cons]
      simp only [memPoke, atIndex, List.map_cons, List.map_nil] at h1 ⊢
      rw [bdWrite_whole hW]
      exact h1
    · intro o ho
      rw [h2 o ho]
      simp only [lastPoke, List.reverse_cons, List.find?_append]
      cases hf : ops.reverse.find? (fun q => q.1 == o) with
      | some x => simp
      | none =>
        by_cases he : q.1 = o
        · subst he
          have hm := hw ids[q.1] (List.getElem_mem hq)
          have : q.2 % 2 ^ n % 2 ^ d.width ids[q.1] = q.2 % 2 ^ n :=
            Nat.mod_eq_of_lt (Nat.lt_of_lt_of_le (Nat.mod_lt _ (Nat.two_pow_pos _)) (Nat.pow_le_pow_right (by omega) hm))
          simp [put, hq, Nat.and_two_pow_sub_one_eq_mod, this]
        · have hne : ids[o] ≠ ids[q.1] := by
            intro hh
            exact he ((List.getElem_inj h.nodup).1 hh).symm
          have hb : (q.1 == o) = false := by simp [he]
          simp [put, ho, hne, hb]

/-! ## C154 -/

/-- C154 fails: a register of a block whose root path is empty has no paths, without any report; whatever is written, the status is OK, the device is left alone and yet the mirror is
predicted; a read gives 0 with status OK. -/
theorem C154_no_path_fails (l : Level) (up : List Level) (hl : l.root = some []) (own : List (List Slice)) (dflt : Rights) (r : Reg) (d : Dut) (v : Nat) :
    (blockPaths (l :: up)).2 = 0 ∧
    (∃ o, regWrite (fullPaths own (blockPaths (l :: up)).1) dflt r d v = some o ∧ o.ok = true ∧ o.dut = d) ∧
    ∃ o, regRead (fullPaths own (blockPaths (l :: up)).1) r d = some o ∧ o.ok = true ∧ o.value = 0 := by
  have hp : blockPaths (l :: up) = ([], 0) := by simp [blockPaths, hl]
  have hf : fullPaths own [] = [] := by simp [fullPaths]
  have hz : ∀ m, andNot 0 m = 0 := by
    intro m; apply Nat.eq_of_testBit_eq; intro i; rw [andNot_testBit]; simp
  have hw : ∀ (u : Nat), writeBack [] d u 0 = some d := by intro u; simp [writeBack, bdWrite]
  rw [hp, hf]
  refine ⟨rfl, ⟨⟨after (Reg.set r v) (finalValue dflt (Reg.set r v) (v % 2 ^ r.nBits) (v % 2 ^ r.nBits)) .write, d, true, 0⟩, ?_, rfl, rfl⟩,
    ⟨⟨after r (andNot 0 (woMask r)) .read, d, true, andNot 0 (woMask r)⟩, ?_, rfl, hz (woMask r)⟩⟩
  · simp only [regWrite, bdRead, Option.bind_eq_bind, Option.bind_some, Bool.true_eq_false, if_false, bdWrite, List.foldlM_nil, Option.pure_def, finalValue,
      doPredict_other (Reg.set r v) _ .write (by decide)]
    rfl
  · simp only [regRead, bdRead, Option.bind_eq_bind, Option.bind_some, Bool.true_eq_false, if_false, hw, doPredict_other r _ .read (by decide)]
    rfl

/-! ## The hypotheses are met -/

/-- A design with a register (also visible as `shadow`), a memory of three words and an array of two rows. -/
def exTop : Obj := .scope [("blk", .scope [("ctrl", .sig 0), ("shadow", .sig 1), ("mem", .array [.sig 2, .sig 3, .sig 4]),
  ("bank", .array [.array [.sig 5, .sig 6], .array [.sig 7, .sig 8]])])]

def exDut : Dut := { top := exTop, width := fun _ => 8, val := fun i => if i ≤ 1 then 0xa5 else 0 }

/-- The block `blk` is an instance below a root whose path is empty nowhere: two levels. -/
def exLevels : List Level := [{ paths := some [[⟨"blk", []⟩], [⟨"alt", []⟩]] }, { paths := some [[⟨"top", []⟩]] }]

example : (blockPaths exLevels).1 = [[⟨"top", []⟩, ⟨"blk", []⟩], [⟨"top", []⟩, ⟨"alt", []⟩]] := by decide

example : Undefined [{ paths := some [] }, {}] ∧ (blockPaths [{ paths := some [] }, {}]).2 = 1 :=
  ⟨⟨[{ paths := some [] }], {}, [], rfl, by simp, rfl, rfl⟩, rfl⟩

example : (blockPaths exLevels).1.length = 2 := C145_number_of_paths exLevels (by simp [exLevels]) (by
  intro l hl
  simp only [exLevels, List.mem_cons, List.not_mem_nil, or_false] at hl
  rcases hl with rfl | rfl
  · exact ⟨rfl, _, rfl, by simp, by simp⟩
  · exact ⟨rfl, _, rfl, by simp, by simp⟩)

theorem ex_ctrl : Signal exDut [⟨"blk", []⟩, ⟨"ctrl", []⟩] 0 :=
  ⟨.child rfl (.here _) (.child rfl (.here _) (.here _)), by simp [Simple]⟩

theorem ex_shadow : Signal exDut [⟨"blk", []⟩, ⟨"shadow", []⟩] 1 :=
  ⟨.child rfl (.here _) (.child rfl (.here _) (.here _)), by simp [Simple]⟩

def exPaths : List (List Slice) := [[{ path := [⟨"blk", []⟩, ⟨"ctrl", []⟩] }], [{ path := [⟨"blk", []⟩, ⟨"shadow", []⟩] }]]

theorem ex_whole : Whole exDut exPaths [0, 1] := .cons ⟨_, rfl, ex_ctrl⟩ (.cons ⟨_, rfl, ex_shadow⟩ .nil)

/-- A register with a read/write field and one that is cleared by a read. -/
def rcReg : Reg := (build 8 [⟨0, configure [] 4 .RW false 0 true⟩, ⟨4, configure [] 4 .RC false 0 true⟩]).1

theorem rcReg_reachable : Reachable rcReg := by
  refine ⟨8, [⟨0, configure [] 4 .RW false 0 true⟩, ⟨4, configure [] 4 .RC false 0 true⟩], [], ?_, by decide, rfl⟩
  intro x hx
  simp at hx
  rcases hx with rfl | rfl
  · exact ⟨[], 4, .RW, false, 0, true, [], rfl⟩
  · exact ⟨[], 4, .RC, false, 0, true, [], rfl⟩

theorem rcReg_inside : RegAccess.Inside rcReg := by
  intro x hx
  have : rcReg.fields = [⟨0, configure [] 4 .RW false 0 true⟩, ⟨4, configure [] 4 .RC false 0 true⟩] := rfl
  rw [this] at hx
  simp at hx
  rcases hx with rfl | rfl <;> decide

/-- Writing 0x3c over 0xa5: the read/write field takes c, the read-only-like field keeps a; in both places, and in the mirror. -/
example : (regWrite exPaths .RW rcReg exDut 0x3c).map (fun o => (o.ok, o.dut.val 0, o.dut.val 1, o.dut.val 2, getMirrored o.reg)) = some (true, 0xac, 0xac, 0, 0xac) := by decide

example : ∃ o, regWrite exPaths .RW rcReg exDut 0x3c = some o ∧ o.ok = true ∧ getMirrored o.reg = o.dut.val 1 := by
  obtain ⟨o, h1, h2, _, h3, _⟩ := C147_write exDut exPaths 0 [1] ex_whole .RW rcReg rcReg_reachable rcReg_inside (by simp [exDut, rcReg, build, addField]; decide) (by decide) 0x3c
  exact ⟨o, h1, h2, h3 1 (by simp)⟩

/-- Reading 0xa5: the device keeps 5, the mirror takes a5. -/
example : (regRead exPaths rcReg exDut).map (fun o => (o.ok, o.value, o.dut.val 0, o.dut.val 1, getMirrored o.reg)) = some (true, 0xa5, 0x05, 0x05, 0xa5) := by decide

example : ∃ o, regRead exPaths rcReg exDut = some o ∧ o.ok = true ∧ (getMirrored o.reg).testBit 5 = true ∧ (o.dut.val 0).testBit 5 = false :=
  C149_cleared_field_fails exDut exPaths 0 [1] ex_whole rcReg rcReg_reachable (by simp [exDut, rcReg, build, addField]; decide) (by decide) 5 (by decide)
    ⟨4, configure [] 4 .RC false 0 true⟩ rfl rfl (by decide)

/-- `blk.ctl` does not exist: what is read is `blk` itself (an exception), but `blk.ctl.ctrl` is `blk.ctrl`. -/
example : hdlRead exDut [⟨"blk", []⟩, ⟨"ctl", []⟩, ⟨"ctrl", []⟩] = some 0xa5 := by decide

theorem ex_memory : Memory exDut [⟨"blk", []⟩, ⟨"mem", []⟩] [2, 3, 4] :=
  ⟨.child rfl (.here _) (.child rfl (.here _) (.here _)), by simp, by simp, by simp [Simple], rfl, by decide⟩

example : ((memPoke 8 [[{ path := [⟨"blk", []⟩, ⟨"mem", []⟩] }]] exDut 1 0x1ff).bind fun d => memPeek 8 [[{ path := [⟨"blk", []⟩, ⟨"mem", []⟩] }]] d 1) = some (true, 0xff) := by decide

/-- A row of the bank: the row itself is accessed, which raises. -/
example : memPeek 8 [[{ path := [⟨"blk", []⟩, ⟨"bank", [1]⟩] }]] exDut 0 = none := by decide

example : ∃ d', bdWrite [[{ path := [⟨"blk", []⟩, ⟨"ctrl", []⟩], offset := 0, size := 4 }, { path := [⟨"blk", []⟩, ⟨"shadow", []⟩], offset := 4, size := 4 }]] exDut 0x3c = some d' ∧
    d'.val 0 = 0xc ∧ d'.val 1 = 0x3 := ⟨_, rfl, by decide, by decide⟩

example : All2 (fun (s : Slice) k => Signal exDut s.path k ∧ 0 ≤ s.offset ∧ 0 ≤ s.size)
    [{ path := [⟨"blk", []⟩, ⟨"ctrl", []⟩], offset := 0, size := 4 }, { path := [⟨"blk", []⟩, ⟨"shadow", []⟩], offset := 4, size := 4 }] [0, 1] :=
  .cons ⟨ex_ctrl, by decide, by decide⟩ (.cons ⟨ex_shadow, by decide, by decide⟩ .nil)

end Verif.Hdl
