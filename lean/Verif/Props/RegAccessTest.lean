import Verif.Lemmas.RegAccessTest
import Verif.Props.RegTests
/-! # Properties of the register access test -/
namespace Verif.RegAccessTest
open Verif.Reg Verif.RegField Verif.RegAccess Verif.RegTests Verif.SvBits
open Verif.Hdl (Dut Whole fieldAt)

/-! ## C219: devices that are correct -/

/-- C219, violated: a register with a compared write-only bit whose desired value is 0 makes the test report an error, whatever the device does: the back-door read
masks the field to 0 and the check does not. -/
theorem C219_write_only_fails (paths : List (List Hdl.Slice)) (dflt : Rights) (r : Reg) (hr : Reg.Reachable r) (d : Dut) (i : Nat) (h : Whole d paths [i])
    (m : Via Dut) (hm : Open m) (hwr : ∀ d v, SameDesign d (m.dev.wr d v).1)
    (x : RF) (hx : x ∈ r.fields) (ha : x.f.access = .WO) (hc : x.f.check = true) (k : Nat) (hk : k < r.nBits) (hcov : Covers x k)
    (h0 : (Reg.get r).testBit k = false) (t : St Dut) (hrun : accessMap paths dflt ⟨r, d, 0⟩ m = some t) : 0 < t.errs := by
  have hG := reachable_good hr
  obtain ⟨w, d2, o, h4, hd2, ho, hh⟩ := accessMap_run dflt (t := ⟨r, d, 0⟩) hm h hwr
  have ht : Shaped r (⟨r, d, 0⟩ : St Dut) := ⟨hG, rfl, rfl⟩
  obtain ⟨hGw, hSw, hNw, hbit⟩ := wrote_bit ht hx hk hcov (.inr ha) (m := m) hm.2.2.2 h4
  rw [hrun] at hh
  have hb : doCheck (Hdl.after w (seen w (m.dev.wr d (compl r.nBits (Reg.get r))).1 i) .read) .backdoor (getMirrored w)
      (seen w (m.dev.wr d (compl r.nBits (Reg.get r))).1 i) = false := by
    by_cases q : doCheck (Hdl.after w (seen w (m.dev.wr d (compl r.nBits (Reg.get r))).1 i) .read) .backdoor (getMirrored w)
      (seen w (m.dev.wr d (compl r.nBits (Reg.get r))).1 i) = true
    · have hSB : shape (Hdl.after w (seen w (m.dev.wr d (compl r.nBits (Reg.get r))).1 i) .read) = shape r := by rw [shape_after, hSw]
      have b1 := (C58_mirror_check_iff _ _ _ _).1 q k (checked_shape hSB hG.disj hx hcov hc)
      rw [hbit, show (Reg.get (⟨r, d, 0⟩ : St Dut).reg).testBit k = false from h0] at b1
      exfalso
      unfold seen at b1
      rw [andNot_testBit, Hdl.woMask_testBit hGw.disj] at b1
      obtain ⟨y, hy, e1, e2, e3, _⟩ := shape_mem hSw hx
      have hcy : Covers y k := ⟨e1 ▸ hcov.1, by rw [e1, e2]; exact hcov.2⟩
      cases hf : fieldAt w k with
      | none => exact absurd hcy (fieldAt_none.1 hf y hy)
      | some z =>
        obtain ⟨hz, hcz⟩ := fieldAt_some hf
        have : z.f.access = .WO := by rw [cover_unique hGw.disj hz hy hcz hcy, e3, ha]
        rw [hf] at b1
        simp [this, doc] at b1
    · simpa using q
  simp only at hh
  split at hh
  · simp only [Option.some.injEq] at hh
    subst hh
    show 0 < 0 + (if _ then 0 else 1) + _
    rw [hb]
    simp only [Bool.false_eq_true, if_false]
    omega
  · cases hh

/-- C219, what holds: through any read/write maps, on any device that keeps the register in one signal and follows the documentation of the policies of
its fields, all of them readable, the test reports no error; the mirror agrees with the device afterwards. -/
theorem C219_accepts_correct_device_partial (paths : List (List Hdl.Slice)) (dflt : Rights) (view : Dut → List DF) (i : Nat) (hv : InSignal view i)
    (r : Reg) (hr : Reg.Reachable r) (hin : ∀ x ∈ r.fields, x.lsb + x.f.size ≤ r.nBits) (hread : ∀ x ∈ r.fields, Readable x.f.access)
    (d : Dut) (hw : r.nBits ≤ d.width i) (h : Whole d paths [i]) (hfree : ∀ b, b < r.nBits → (∀ x ∈ r.fields, ¬ Covers x b) → (d.val i).testBit b = false)
    (hA : Agrees r (view d)) (maps : List (Via Dut)) (hm : ∀ m ∈ maps, Open m ∧ FollowsDoc m.dev view ∧ Wired m.dev r i) :
    ∃ t, accessReg paths dflt maps r d = some t ∧ t.errs = 0 ∧ Agrees t.reg (view t.dev) := by
  obtain ⟨t, e, o, x⟩ := foldlM_inv (f := accessMap paths dflt) (P := fun u : St Dut => AccOk view r d i u ∧ u.errs = 0) maps (by
    intro u m hmem hu
    obtain ⟨hm1, hm2, hm3⟩ := hm m hmem
    obtain ⟨u', e, o, x⟩ := accessMap_clean dflt hv hin hread hw h hm1 hm2 hm3 hu.1
    exact ⟨u', e, o, by rw [x, hu.2]⟩) ⟨r, d, 0⟩ ⟨⟨⟨reachable_good hr, hA, rfl, rfl⟩, same_refl _, fun b h1 h2 => hfree b h1 (fieldAt_none.1 h2)⟩, rfl⟩
  exact ⟨t, e, x, o.ok.agrees⟩

/-! ## C220: devices that are not -/

/-- C220. Whatever the device does: if the test runs through all maps without an error, then for each map and each compared read/write bit a front-door write of
one value of the bit was seen in the signal, and the other value, put into the signal, was read through the front door. -/
theorem C220_seen_both_ways (paths : List (List Hdl.Slice)) (i : Nat) (r : Reg) (hr : Reg.Reachable r) (hin : ∀ x ∈ r.fields, x.lsb + x.f.size ≤ r.nBits)
    (d : Dut) (hw : r.nBits ≤ d.width i) (h : Whole d paths [i]) (maps : List (Via Dut))
    (hm : ∀ m ∈ maps, Open m ∧ (∀ d v, SameDesign d (m.dev.wr d v).1) ∧ ∀ d, SameDesign d (m.dev.rd d).1)
    (t : St Dut) (hrun : accessReg paths .RW maps r d = some t) (h0 : t.errs = 0) (m : Via Dut) (hmem : m ∈ maps) (k : Nat) (hT : TestedBit r k) :
    ∃ b : Bool,
      (∃ d1 W, W.testBit k = b ∧ ((m.dev.wr d1 W).1.val i).testBit k = b) ∧
      (∃ d2 F, F.testBit k = (!b) ∧ ((deposit d2 i F).val i).testBit k = (!b) ∧ (m.dev.rd (deposit d2 i F)).2.1.testBit k = (!b)) := by
  have key : ∀ (maps : List (Via Dut)), (∀ m ∈ maps, Open m ∧ (∀ d v, SameDesign d (m.dev.wr d v).1) ∧ ∀ d, SameDesign d (m.dev.rd d).1) →
      ∀ s : St Dut, Shaped r s → SameDesign d s.dev → maps.foldlM (accessMap paths .RW) s = some t →
      s.errs ≤ t.errs ∧ (t.errs = s.errs → m ∈ maps → ∃ b : Bool,
        (∃ d1 W, W.testBit k = b ∧ ((m.dev.wr d1 W).1.val i).testBit k = b) ∧
        (∃ d2 F, F.testBit k = (!b) ∧ ((deposit d2 i F).val i).testBit k = (!b) ∧ (m.dev.rd (deposit d2 i F)).2.1.testBit k = (!b))) := by
    intro maps
    induction maps with
    | nil =>
      intro _ s _ _ he
      simp only [List.foldlM_nil] at he
      cases he
      exact ⟨Nat.le_refl _, fun _ hmm => by simp at hmm⟩
    | cons n ns ih =>
      intro hms s hs hsd he
      rw [List.foldlM_cons] at he
      cases hn : accessMap paths .RW s n with
      | none => rw [hn] at he; cases he
      | some u =>
        rw [hn] at he
        obtain ⟨ho, hwr, hrd⟩ := hms n (by simp)
        obtain ⟨a1, a2, a3, a4⟩ := accessMap_tested (reachable_good hr).disj ho hwr hrd hs hin (by rw [hsd.2.1]; exact hw) (whole_same h hsd) hn
        obtain ⟨b1, b2⟩ := ih (fun m hm => hms m (by simp [hm])) u a1 (same_trans hsd a2) he
        refine ⟨Nat.le_trans a3 b1, fun hz hmm => ?_⟩
        rcases List.mem_cons.1 hmm with rfl | hmm
        · obtain ⟨c1, d2, F, c2, c3, c4⟩ := a4 k hT (by omega)
          refine ⟨!(Reg.get s.reg).testBit k, ⟨s.dev, _, ?_, c1⟩, d2, F, by simp [c2], by rw [c3, c2]; simp, by rw [c4, c2]; simp⟩
          exact compl_bit (by rw [hs.bits]; exact hT.1)
        · exact b2 (by omega) hmm
  exact (key maps hm ⟨r, d, 0⟩ ⟨reachable_good hr, rfl, rfl⟩ (same_refl _) hrun).2 h0 hmem

/-- C220. In particular: if front-door writes through the first map do not reach a bit of the signal, and the model agreed with the signal there, an error is reported. -/
theorem C220_finds_disconnected (paths : List (List Hdl.Slice)) (i : Nat) (r : Reg) (hr : Reg.Reachable r) (hin : ∀ x ∈ r.fields, x.lsb + x.f.size ≤ r.nBits)
    (d : Dut) (hw : r.nBits ≤ d.width i) (h : Whole d paths [i]) (m : Via Dut)
    (hm : Open m ∧ (∀ d v, SameDesign d (m.dev.wr d v).1) ∧ ∀ d, SameDesign d (m.dev.rd d).1) (k : Nat) (hT : TestedBit r k)
    (hag : (d.val i).testBit k = (Reg.get r).testBit k) (hno : ∀ v, ((m.dev.wr d v).1.val i).testBit k = (d.val i).testBit k)
    (t : St Dut) (hrun : accessReg paths .RW [m] r d = some t) : 0 < t.errs := by
  obtain ⟨ho, hwr, hrd⟩ := hm
  have hrun' : accessMap paths .RW ⟨r, d, 0⟩ m = some t := by
    simp only [accessReg, List.foldlM_cons, List.foldlM_nil] at hrun
    cases hn : accessMap paths .RW ⟨r, d, 0⟩ m with
    | none => rw [hn] at hrun; cases hrun
    | some u => rw [hn] at hrun; exact hrun
  obtain ⟨_, _, _, a4⟩ := accessMap_tested (t := ⟨r, d, 0⟩) (reachable_good hr).disj ho hwr hrd ⟨reachable_good hr, rfl, rfl⟩ hin hw h hrun'
  by_cases hz : t.errs = 0
  · have := (a4 k hT hz).1
    simp only at this
    rw [hno, hag] at this
    simp at this
  · omega

/-! ## C221: which registers are tested at all -/

/-- The number of fields that are RO in a map, if all are known. -/
theorem countRO_spec (rt : Rights) (fs : List RF) : ∀ n, (∀ x ∈ fs, predefined (getAccess x.f rt) = true) →
    ∃ k, countRO rt fs n = some (n + k) ∧ k ≤ fs.length ∧ (k = fs.length ↔ ∀ x ∈ fs, getAccess x.f rt = .RO) := by
  induction fs with
  | nil => intro n _; exact ⟨0, rfl, Nat.le_refl _, by simp⟩
  | cons x fs ih =>
    intro n h
    have hx := h x (by simp)
    by_cases hr : getAccess x.f rt = .RO
    · obtain ⟨k, e, l, q⟩ := ih (n + 1) (fun y hy => h y (by simp [hy]))
      refine ⟨k + 1, ?_, by simp; omega, ?_⟩
      · rw [countRO, if_neg (by simp [hx]), if_pos hr, e]; congr 1; omega
      · simp only [List.length_cons, Nat.add_right_cancel_iff, q, List.mem_cons, forall_eq_or_imp, hr, true_and]
    · obtain ⟨k, e, l, q⟩ := ih n (fun y hy => h y (by simp [hy]))
      refine ⟨k, ?_, by simp; omega, ?_⟩
      · rw [countRO, if_neg (by simp [hx]), if_neg hr, e]
      · simp only [List.length_cons, List.mem_cons, forall_eq_or_imp, hr, false_and, iff_false]; omega

theorem countRO_unknown (rt : Rights) (fs : List RF) (x : RF) (hx : x ∈ fs) (h : predefined (getAccess x.f rt) = false) : ∀ n, countRO rt fs n = none := by
  induction fs with
  | nil => simp at hx
  | cons y fs ih =>
    intro n
    rw [countRO]
    rcases List.mem_cons.1 hx with rfl | hx
    · rw [if_pos h]
    · split
      · rfl
      · exact ih hx _

/-- C221, violated: if the register is read-only or write-only in one of its maps, nothing is tested, through none of them, and no error is reported, whatever the device
does (a field of the register is a plain read/write field, a map gives the register all rights). -/
theorem C221_other_maps_fails (paths : List (List Hdl.Slice)) (dflt : Rights) (maps : List (Via Dut)) (r : Reg) (d : Dut)
    (hf : ∀ x ∈ r.fields, x.f.access = .RW) (hne : r.fields ≠ [])
    (m : Via Dut) (hm : m ∈ maps) (hr : m.rights = .RO ∨ m.rights = .WO) :
    ∃ k, body false true paths dflt maps r d = some (some k, ⟨r, d, 0⟩) ∧ (k = .onlyRO ∨ k = .unknownAccess) := by
  have key : ∀ l : List Rights, (.RO ∈ l ∨ .WO ∈ l) → ∃ k, skips r l = some k ∧ (k = .onlyRO ∨ k = .unknownAccess) := by
    intro l
    induction l with
    | nil => intro h; simp at h
    | cons rt l ih =>
      intro h
      rw [skips]
      cases hc : countRO rt r.fields 0 with
      | none => exact ⟨_, rfl, .inr rfl⟩
      | some n =>
        simp only
        split
        · exact ⟨_, rfl, .inl rfl⟩
        · next hn =>
          apply ih
          rcases h with h | h
          · rcases List.mem_cons.1 h with rfl | h
            · exfalso
              obtain ⟨k, e, _, q⟩ := countRO_spec .RO r.fields 0 (fun x hx => by simp [getAccess, hf x hx, predefined])
              rw [e] at hc
              have : k = r.fields.length := q.2 fun x hx => by simp [getAccess, hf x hx]
              simp only [Option.some.injEq] at hc
              omega
            · exact .inl h
          · rcases List.mem_cons.1 h with rfl | h
            · exfalso
              obtain ⟨x, hx⟩ := List.exists_mem_of_ne_nil _ hne
              rw [countRO_unknown .WO r.fields x hx (by simp [getAccess, predefined])] at hc
              cases hc
            · exact .inr h
  obtain ⟨k, e, hk⟩ := key (maps.map (·.rights)) (by
    rcases hr with hr | hr
    · exact .inl (List.mem_map.2 ⟨m, hm, hr⟩)
    · exact .inr (List.mem_map.2 ⟨m, hm, hr⟩))
  exact ⟨k, by simp [body, e], hk⟩

/-- C221. An excluded register is left alone, and nothing is reported; one without back door is left alone with one error. -/
theorem C221_left_alone (bd : Bool) (paths : List (List Hdl.Slice)) (dflt : Rights) (maps : List (Via Dut)) (r : Reg) (d : Dut) :
    body true bd paths dflt maps r d = some (some .excluded, ⟨r, d, 0⟩) ∧ body false false paths dflt maps r d = some (some .noBackdoor, ⟨r, d, 1⟩) := ⟨rfl, rfl⟩

/-- C221, what holds: a register with a back door that is not excluded, has all rights in all its maps, only predefined policies and a field that is not read-only, is
tested through all its maps. -/
theorem C221_tested_partial (paths : List (List Hdl.Slice)) (dflt : Rights) (maps : List (Via Dut)) (r : Reg) (d : Dut)
    (hf : ∀ x ∈ r.fields, predefined x.f.access = true) (x : RF) (hx : x ∈ r.fields) (hro : x.f.access ≠ .RO)
    (hm : ∀ m ∈ maps, m.rights = .RW) :
    body false true paths dflt maps r d = (accessReg paths dflt maps r d).map fun t => (none, t) := by
  have key : ∀ l : List Rights, (∀ rt ∈ l, rt = .RW) → skips r l = none := by
    intro l
    induction l with
    | nil => intro _; rfl
    | cons rt l ih =>
      intro h
      have hrt := h rt (by simp)
      subst hrt
      obtain ⟨k, e, _, q⟩ := countRO_spec .RW r.fields 0 (fun x hx => hf x hx)
      have : ¬ k = r.fields.length := fun hk => hro (q.1 hk x hx)
      rw [skips, e]
      simp only [Nat.zero_add, this, if_false]
      exact ih (fun rt hrt => h rt (by simp [hrt]))
  simp only [body, Bool.false_eq_true, if_false]
  rw [key _ (by
    intro rt hrt
    obtain ⟨m, hm', rfl⟩ := List.mem_map.1 hrt
    exact hm m hm')]
  rfl

theorem doBlock_bash (bd : Nat → Bool) : ∀ (n : Nat) (b : Blk),
    doBlock bd n b = (bashBlock n b).map fun l => (l.filter bd, l.filter fun r => !bd r) := by
  intro n
  induction n with
  | zero => intro b; rfl
  | succ n ih =>
    intro b
    rw [doBlock, bashBlock]
    split
    · rfl
    · have hm : ∀ l : List Blk, l.mapM (doBlock bd n) = (l.mapM (bashBlock n)).map fun ls => ls.map fun l => (l.filter bd, l.filter fun r => !bd r) := by
        intro l
        induction l with
        | nil => rfl
        | cons c l il =>
          rw [List.mapM_cons, List.mapM_cons, ih, il]
          cases bashBlock n c with
          | none => rfl
          | some a => cases l.mapM (bashBlock n) with
            | none => rfl
            | some as => rfl
      rw [hm]
      cases (below b).mapM (bashBlock n) with
      | none => rfl
      | some ls =>
        simp [List.filter_append, List.filter_flatten, List.map_map, Function.comp_def]

/-- C222. The registers the whole test starts the register test on are exactly those that are not excluded and have a back door, of the block and of the blocks
below it that are not excluded; the others of them that have no back door are warned about. -/
theorem C222_covers (bd : Nat → Bool) (n : Nat) (b : Blk) (hn : height b ≤ n) (hb : b.skip = false) :
    ∃ l w, doBlock bd n b = some (l, w) ∧ (∀ r, r ∈ l ↔ bd r = true ∧ ∃ c, In c b ∧ Listed c r) ∧
      ∀ r, r ∈ w ↔ bd r = false ∧ ∃ c, In c b ∧ Listed c r := by
  obtain ⟨l, e, h⟩ := C131_bit_bash_covers n b hn hb
  refine ⟨l.filter bd, l.filter fun r => !bd r, by rw [doBlock_bash, e]; rfl, ?_, ?_⟩
  · intro r; rw [List.mem_filter, h r]; exact And.comm
  · intro r; rw [List.mem_filter, h r]; simp [and_comm]

/-! ## Non-vacuity: a register with a read/write and a read-only field, kept in signal 0; signal 1 is set by the first write -/

def eg : Dut := { top := .scope [("blk", .scope [("ctrl", .sig 0), ("written", .sig 1)])], width := fun _ => 8, val := fun i => if i = 0 then 0x50 else 0 }
def egPaths : List (List Hdl.Slice) := [[{ path := [⟨"blk", []⟩, ⟨"ctrl", []⟩] }]]
theorem eg_whole : Whole eg egPaths [0] :=
  .cons ⟨_, rfl, .child rfl (.here _) (.child rfl (.here _) (.here _)), by simp [Hdl.Simple]⟩ .nil

def egFields : List RF := [⟨0, configure [] 4 .RW false 0 true⟩, ⟨4, configure [] 4 .RO false 5 true⟩]
/-- After the reset of the model. -/
def egReg : Reg := Reg.steps (build 8 egFields).1 [.reset "HARD"]

theorem egReg_reachable : Reg.Reachable egReg := by
  refine ⟨8, egFields, [.reset "HARD"], ?_, by decide, rfl⟩
  intro x hx
  simp [egFields] at hx
  rcases hx with rfl | rfl
  · exact ⟨[], 4, .RW, false, 0, true, [], rfl⟩
  · exact ⟨[], 4, .RO, false, 5, true, [], rfl⟩

def egView (d : Dut) : List DF :=
  [⟨0, 4, .RW, d.val 0 % 16, d.val 1 % 2 == 1⟩, ⟨4, 4, .RO, (d.val 0 >>> 4) % 16, d.val 1 % 2 == 1⟩]

/-- The front door: a bus that reaches the register. -/
def egDev : Dev Dut where
  wr d v := ({ d with val := fun j => if j = 0 then v % 16 + ((d.val 0 >>> 4) % 16) * 16 else if j = 1 then 1 else d.val j }, true)
  rd d := (d, d.val 0 % 16 + ((d.val 0 >>> 4) % 16) * 16, true)

def egVia : Via Dut := ⟨⟨.front .RW, true, false, fun _ => false⟩, .RW, egDev⟩

theorem egBits (a b i : Nat) (ha : a < 16) (hb : b < 16) : (a + b * 16).testBit i = if i < 4 then a.testBit i else b.testBit (i - 4) := by
  rw [Nat.add_comm, Nat.mul_comm, show 16 = 2 ^ 4 from rfl, Nat.testBit_two_pow_mul_add _ ha]

theorem egInSignal : InSignal egView 0 := by
  refine ⟨?_, ?_, ?_⟩
  · intro d x hx
    simp [egView] at hx
    rcases hx with rfl | rfl <;> simp <;> omega
  · intro d x hx b hb
    simp [egView] at hx
    rcases hx with rfl | rfl
    · simp [DF.covers] at hb
      rw [show 16 = 2 ^ 4 from rfl, Nat.testBit_mod_two_pow]; simp [hb]
    · simp [DF.covers] at hb
      rw [show 16 = 2 ^ 4 from rfl, Nat.testBit_mod_two_pow, Nat.testBit_shiftRight]
      have : b - 4 < 4 := by omega
      have h2 : 4 + (b - 4) = b := by omega
      simp only [this, decide_true, Bool.true_and, h2]
  · intro d v
    exact .cons ⟨rfl, rfl, rfl, rfl⟩ (.cons ⟨rfl, rfl, rfl, rfl⟩ .nil)

theorem egFollows : FollowsDoc egDev egView := by
  have lo : ∀ v : Nat, v % 16 < 16 := fun v => Nat.mod_lt _ (by omega)
  refine ⟨?_, ?_, ?_, ?_⟩
  · intro d v
    refine ⟨rfl, .cons ⟨rfl, rfl, rfl, rfl, ?_⟩ (.cons ⟨rfl, rfl, rfl, rfl, ?_⟩ .nil)⟩
    · refine ⟨lo _, fun i hi => ?_⟩
      simp only [egDev, if_true, doc, WEffect.bit, Nat.shiftRight_zero]
      rw [Nat.add_mul_mod_self_right, Nat.mod_mod, show 16 = 2 ^ 4 from rfl, Nat.testBit_mod_two_pow]
      have : i < 4 := hi
      simp [this]
    · refine ⟨lo _, fun i hi => ?_⟩
      have : ((v % 16 + ((d.val 0 >>> 4) % 16) * 16) >>> 4) % 16 = (d.val 0 >>> 4) % 16 := by
        rw [Nat.shiftRight_eq_div_pow]; have := lo v; have := lo (d.val 0 >>> 4); omega
      simp only [egDev, if_true, doc, WEffect.bit, this]
  · intro d
    exact ⟨rfl, .cons rfl (.cons rfl .nil)⟩
  · intro d x hx hr b hb
    simp only [egDev]
    rw [egBits _ _ _ (lo _) (lo _)]
    simp [egView] at hx
    rcases hx with rfl | rfl
    · simp [DF.covers] at hb
      simp [hb]
    · simp [DF.covers] at hb
      rw [if_neg (by omega)]
  · intro d b h
    simp only [egDev]
    rw [egBits _ _ _ (lo _) (lo _)]
    have h1 := h ⟨0, 4, .RW, d.val 0 % 16, d.val 1 % 2 == 1⟩ (by simp [egView]) (by simp [Readable, doc])
    have h2 := h ⟨4, 4, .RO, (d.val 0 >>> 4) % 16, d.val 1 % 2 == 1⟩ (by simp [egView]) (by simp [Readable, doc])
    simp [DF.covers] at h1 h2
    rw [if_neg (by omega), testBit_high (n := 4) (lo _) (by omega)]

theorem egWired : Wired egDev egReg 0 := by
  refine ⟨fun _ _ => ⟨rfl, rfl, rfl⟩, fun _ => ⟨rfl, rfl, rfl⟩, ?_, fun _ _ _ _ => rfl⟩
  intro d v b hb hf
  have hb : b < 8 := hb
  have : ∀ b < 8, (egReg.fields.any fun x => decide (Covers x b)) = true := by decide
  have h1 := this b hb
  rw [List.any_eq_true] at h1
  obtain ⟨x, hx, hc⟩ := h1
  exact absurd (by simpa using hc) (fieldAt_none.1 hf x hx)

/-- The test passes on this device, twice through its map. -/
example : ∃ t, accessReg egPaths .RW [egVia, egVia] egReg eg = some t ∧ t.errs = 0 ∧ Agrees t.reg (egView t.dev) :=
  C219_accepts_correct_device_partial egPaths .RW egView 0 egInSignal egReg egReg_reachable (by decide) (by
      intro x hx
      have : x.f.access = .RW ∨ x.f.access = .RO := by revert x; decide
      rcases this with h | h <;> simp [Readable, h, doc]) eg (by decide) eg_whole
    (by
      intro b hb hf
      have : ∀ b < 8, (egReg.fields.any fun x => decide (Covers x b)) = true := by decide
      have h1 := this b hb
      rw [List.any_eq_true] at h1
      obtain ⟨x, hx, hc⟩ := h1
      exact absurd (by simpa using hc) (hf x hx))
    (.cons ⟨rfl, rfl, rfl, rfl, rfl⟩ (.cons ⟨rfl, rfl, rfl, rfl, rfl⟩ .nil)) [egVia, egVia]
    (by
      intro m hm
      have : m = egVia := by simpa using hm
      subst this
      exact ⟨⟨rfl, rfl, rfl, fun _ => rfl⟩, egFollows, egWired⟩)

/-- A front door that writes next to the register: the test reports it. -/
def egBad : Dev Dut where
  wr d v := ({ d with val := fun j => if j = 2 then v else d.val j }, true)
  rd d := egDev.rd d

example : ∃ t, accessReg egPaths .RW [⟨⟨.front .RW, true, false, fun _ => false⟩, .RW, egBad⟩] egReg eg = some t ∧ 0 < t.errs := by
  have h : (accessReg egPaths .RW [⟨⟨.front .RW, true, false, fun _ => false⟩, .RW, egBad⟩] egReg eg).isSome = true := by decide
  obtain ⟨t, ht⟩ := Option.isSome_iff_exists.1 h
  exact ⟨t, ht, C220_finds_disconnected egPaths 0 egReg egReg_reachable (by decide) eg (by decide) eg_whole _
    ⟨⟨rfl, rfl, rfl, fun _ => rfl⟩, fun _ _ => ⟨rfl, rfl, rfl⟩, fun _ => ⟨rfl, rfl, rfl⟩⟩ 2 ⟨by decide, _, List.mem_cons_self, by decide, by decide, by decide⟩
    (by decide) (fun v => rfl) t ht⟩

/-- The clean run above has seen bit 2 both ways. -/
example : ∃ t, accessReg egPaths .RW [egVia] egReg eg = some t ∧ t.errs = 0 ∧ TestedBit egReg 2 := by
  have h : ((accessReg egPaths .RW [egVia] egReg eg).map (·.errs)) = some 0 := by decide
  obtain ⟨t, ht, he⟩ := Option.map_eq_some_iff.1 h
  exact ⟨t, ht, he, by decide, _, List.mem_cons_self, by decide, by decide, by decide⟩

/-- A register with a write-only field, on a device that keeps it. -/
def woReg : Reg := Reg.steps (build 8 [⟨0, configure [] 8 .WO false 0 true⟩]).1 [.reset "HARD"]
theorem woReg_reachable : Reg.Reachable woReg := by
  refine ⟨8, [⟨0, configure [] 8 .WO false 0 true⟩], [.reset "HARD"], ?_, by decide, rfl⟩
  intro x hx
  simp at hx
  subst hx
  exact ⟨[], 8, .WO, false, 0, true, [], rfl⟩
def woDev : Dev Dut where
  wr d v := ({ d with val := fun j => if j = 0 then v % 256 else d.val j }, true)
  rd d := (d, 0, true)

example : ∃ t, accessMap egPaths .RW ⟨woReg, eg, 0⟩ ⟨⟨.front .RW, true, false, fun _ => false⟩, .RW, woDev⟩ = some t ∧ 0 < t.errs := by
  have h : (accessMap egPaths .RW ⟨woReg, eg, 0⟩ ⟨⟨.front .RW, true, false, fun _ => false⟩, .RW, woDev⟩).isSome = true := by decide
  obtain ⟨t, ht⟩ := Option.isSome_iff_exists.1 h
  exact ⟨t, ht, C219_write_only_fails egPaths .RW woReg woReg_reachable _ 0 eg_whole _ ⟨rfl, rfl, rfl, fun _ => rfl⟩ (fun _ _ => ⟨rfl, rfl, rfl⟩)
    _ List.mem_cons_self (by decide) (by decide) 3 (by decide) (by decide) (by decide) t ht⟩

/-- Two maps, read-only in the second: nothing is tested. -/
example : body false true egPaths .RW [egVia, { egVia with rights := .RO }] (Reg.steps (build 8 [⟨0, configure [] 8 .RW false 0 true⟩]).1 []) eg =
    some (some .onlyRO, ⟨Reg.steps (build 8 [⟨0, configure [] 8 .RW false 0 true⟩]).1 [], eg, 0⟩) := rfl

example : skips egReg [.RW, .RW] = none ∧ skips egReg [.RW, .WO] = some .unknownAccess := by decide

example : doBlock (fun r => r != 5) 4 exBlk = some ([1, 4], [5]) := by decide

end Verif.RegAccessTest
