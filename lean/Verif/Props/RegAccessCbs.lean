import Verif.Props.RegAccess
/-!
# C80: hooks and callbacks of register accesses

Every overridable method and every registered callback is called exactly once per access, in the documented order, may change the
value written and may refuse the access.
-/
namespace Verif.RegAccess
open Verif.Reg Verif.RegField Verif.SvBits

/-- The documented calls for the fields: method, then callbacks, field by field. -/
def fieldCalls (h : Hooks) (n : Nat) : List Who :=
  (List.range n).flatMap fun i => .fieldHook i :: (List.range (h.fieldCbs i).length).map (.fieldCb i)

/-- The documented calls before a write: the fields, then the register's method and callbacks. -/
def documentedCalls (h : Hooks) (n : Nat) : List Who :=
  fieldCalls h n ++ .regHook :: (List.range h.regCbs.length).map .regCb

theorem flatMap_zipIdx {α β : Type} (l : List α) (g : Nat → List β) (k : Nat) :
    (l.zipIdx k).flatMap (fun p => g p.2) = (List.range' k l.length).flatMap g := by
  induction l generalizing k with
  | nil => rfl
  | cons a l ih => simp [List.zipIdx_cons, List.range'_succ, ih]

theorem preWrite_log (h : Hooks) (r : Reg) (v : Nat) :
    (preWrite h r v).2 = fieldCalls h r.fields.length ++ .regHook ::
      (List.range (lastCbs h r.fields.length).2.length).map (lastCbs h r.fields.length).1 := by
  have hf : ∀ (l : List (RF × Nat)) (s : Item × List Who), (l.foldl (preWriteField h) s).2 =
      s.2 ++ l.flatMap fun p => .fieldHook p.2 :: (List.range (h.fieldCbs p.2).length).map (.fieldCb p.2) := by
    intro l
    induction l with
    | nil => intro s; simp
    | cons p l ih =>
      intro s
      rw [List.foldl_cons, ih, List.flatMap_cons]
      simp [preWriteField, callAll_log, call]
  simp only [preWrite, callAll_log, call, hf]
  rw [flatMap_zipIdx r.fields (fun i => Who.fieldHook i :: (List.range (h.fieldCbs i).length).map (Who.fieldCb i)) 0, fieldCalls, ← List.range_eq_range']
  simp

/-- C80. Before a write: the calls are the documented ones, provided the register has no callbacks and the last field has none either. -/
theorem C80_write_calls_partial (h : Hooks) (r : Reg) (v : Nat) (hreg : h.regCbs = []) (hlast : h.fieldCbs (r.fields.length - 1) = []) :
    (preWrite h r v).2 = documentedCalls h r.fields.length := by
  rw [preWrite_log, documentedCalls, hreg]
  cases hn : r.fields.length with
  | zero => simp [lastCbs, hreg]
  | succ n => rw [hn] at hlast; simp [lastCbs, show h.fieldCbs n = [] from hlast]

theorem mem_fieldCalls {h : Hooks} {n : Nat} {w : Who} :
    w ∈ fieldCalls h n ↔ ∃ i < n, w = .fieldHook i ∨ ∃ j < (h.fieldCbs i).length, w = .fieldCb i j := by
  simp [fieldCalls, eq_comm]

/-- C80 fails for the register's callbacks: in a register with fields none is ever called before a write, whatever is registered. -/
theorem C80_register_callbacks_never_called_fails (h : Hooks) (r : Reg) (v : Nat) (hne : r.fields ≠ []) (j : Nat) :
    Who.regCb j ∉ (preWrite h r v).2 := by
  rw [preWrite_log]
  cases hn : r.fields.length with
  | zero => exact absurd (List.length_eq_zero_iff.1 hn) hne
  | succ n => simp [mem_fieldCalls, lastCbs]

theorem count_flatMap_range (f : Nat → List Who) (w : Who) (n i : Nat) (hi : i < n) (hk : ∀ k, k ≠ i → w ∉ f k) :
    ((List.range n).flatMap f).count w = (f i).count w := by
  induction n with
  | zero => omega
  | succ n ih =>
    rw [List.range_succ, List.flatMap_append, List.count_append]
    simp only [List.flatMap_cons, List.flatMap_nil, List.append_nil]
    by_cases hin : i = n
    · subst hin
      rw [List.count_eq_zero.2 ?_, Nat.zero_add]
      intro hm
      obtain ⟨k, hkr, hw⟩ := List.mem_flatMap.1 hm
      exact hk k (by simp at hkr; omega) hw
    · rw [ih (by omega), List.count_eq_zero.2 (hk n (Ne.symm hin)), Nat.add_zero]

theorem count_map_range (g : Nat → Who) (hg : ∀ a b, g a = g b → a = b) (n j : Nat) (hj : j < n) : ((List.range n).map g).count (g j) = 1 := by
  induction n with
  | zero => omega
  | succ n ih =>
    rw [List.range_succ, List.map_append, List.count_append]
    by_cases hjn : j = n
    · subst hjn
      rw [List.count_eq_zero.2 ?_]
      · simp
      · intro hm
        obtain ⟨k, hkr, hw⟩ := List.mem_map.1 hm
        have := hg _ _ hw; simp at hkr; omega
    · rw [ih (by omega), List.count_eq_zero.2]
      simp; exact fun h => hjn (hg _ _ h.symm).symm

theorem fieldCb_count (h : Hooks) (n i j : Nat) (hi : i < n) (hj : j < (h.fieldCbs i).length) : (fieldCalls h n).count (.fieldCb i j) = 1 := by
  rw [fieldCalls, count_flatMap_range _ _ n i hi]
  · rw [List.count_cons, count_map_range (.fieldCb i) (fun a b h => by simpa using h) _ j hj]; simp
  · intro k hk; simp; exact fun _ => hk

theorem fieldHook_count (h : Hooks) (n i : Nat) (hi : i < n) : (fieldCalls h n).count (.fieldHook i) = 1 := by
  rw [fieldCalls, count_flatMap_range _ _ n i hi]
  · rw [List.count_cons, List.count_eq_zero.2 (by simp)]; simp
  · intro k hk; simp; omega

/-- C80. Before a write, every field's method and the register's method are called exactly once, and so is every callback of every
field but the last. -/
theorem C80_write_each_once_partial (h : Hooks) (r : Reg) (v : Nat) :
    (∀ i < r.fields.length, (preWrite h r v).2.count (.fieldHook i) = 1) ∧
    (preWrite h r v).2.count .regHook = 1 ∧
    (∀ i j, i + 1 < r.fields.length → j < (h.fieldCbs i).length → (preWrite h r v).2.count (.fieldCb i j) = 1) := by
  rw [preWrite_log]
  refine ⟨fun i hi => ?_, ?_, fun i j hi hj => ?_⟩
  · rw [List.count_append, fieldHook_count h _ i hi, List.count_cons, List.count_eq_zero.2]
    · simp
    · cases hn : r.fields.length <;> simp [lastCbs]
  · rw [List.count_append, List.count_eq_zero.2, List.count_cons, List.count_eq_zero.2]
    · simp
    · cases hn : r.fields.length <;> simp [lastCbs]
    · simp [mem_fieldCalls]
  · rw [List.count_append, fieldCb_count h _ i j (by omega) hj, List.count_cons, List.count_eq_zero.2]
    · simp
    · cases hn : r.fields.length with
      | zero => omega
      | succ n => simp [lastCbs]; omega

/-- C80 fails for the last field: each of its callbacks is called twice before a write (the second time with the value of the
whole register). -/
theorem C80_last_field_twice_fails (h : Hooks) (r : Reg) (v : Nat) (n : Nat) (hn : r.fields.length = n + 1) (j : Nat)
    (hj : j < (h.fieldCbs n).length) : (preWrite h r v).2.count (.fieldCb n j) = 2 := by
  rw [preWrite_log, hn]
  rw [List.count_append, fieldCb_count h _ n j (by omega) hj, List.count_cons]
  simp only [lastCbs]
  rw [count_map_range (.fieldCb n) (fun a b h => by simpa using h) _ j hj]; simp

/-- What the hooks of field `k` make of an item. -/
def fieldFun (h : Hooks) (k : Nat) (it : Item) : Item := (h.fieldCbs k).foldl (fun x f => f x) (h.field k it)

theorem callAll_item (w : Nat → Who) (fs : List (Item → Item)) (s : Item × List Who) : (callAll w fs s).1 = fs.foldl (fun x f => f x) s.1 := by
  unfold callAll
  have : ∀ (fs : List (Item → Item)) (k : Nat) (s : Item × List Who),
      ((fs.zipIdx k).foldl (fun s p => call (w p.2) p.1 s) s).1 = fs.foldl (fun x f => f x) s.1 := by
    intro fs
    induction fs with
    | nil => intro k s; rfl
    | cons f fs ih => intro k s; rw [List.zipIdx_cons, List.foldl_cons, ih]; rfl
  exact this fs 0 s

theorem preWriteField_item (h : Hooks) (s : Item × List Who) (x : RF) (k : Nat) :
    (preWriteField h s (x, k)).1 = ⟨andNot s.1.value ((2 ^ x.f.size - 1) <<< x.lsb) |||
      ((fieldFun h k ⟨(s.1.value >>> x.lsb) % 2 ^ x.f.size, s.1.ok⟩).value <<< x.lsb),
      (fieldFun h k ⟨(s.1.value >>> x.lsb) % 2 ^ x.f.size, s.1.ok⟩).ok⟩ := by
  have e : (s.1.value &&& ((2 ^ x.f.size - 1) <<< x.lsb)) >>> x.lsb = (s.1.value >>> x.lsb) % 2 ^ x.f.size := by
    apply Nat.eq_of_testBit_eq
    intro i
    rw [Nat.testBit_shiftRight, Nat.testBit_and, Nat.testBit_shiftLeft, Nat.testBit_mod_two_pow, Nat.testBit_shiftRight,
      Nat.testBit_two_pow_sub_one]
    simp [Bool.and_comm]
  simp only [preWriteField, callAll_item, call, fieldFun, e]

/-- The field loop, when every field's hooks keep the value inside the field and do not refuse. -/
theorem preWrite_loop (h : Hooks) (fs : List RF) (hd : NoOverlap fs) (k : Nat)
    (hin : ∀ j (hj : j < fs.length) (u : Nat), (fieldFun h (k + j) ⟨u, true⟩).ok = true ∧ (fieldFun h (k + j) ⟨u, true⟩).value < 2 ^ fs[j].f.size)
    (s : Item × List Who) (hs : s.1.ok = true) :
    ((fs.zipIdx k).foldl (preWriteField h) s).1.ok = true ∧
    (∀ i, (∀ x ∈ fs, ¬ Covers x i) → ((fs.zipIdx k).foldl (preWriteField h) s).1.value.testBit i = s.1.value.testBit i) ∧
    (∀ j (hj : j < fs.length) i, Covers fs[j] i → ((fs.zipIdx k).foldl (preWriteField h) s).1.value.testBit i =
      (fieldFun h (k + j) ⟨(s.1.value >>> fs[j].lsb) % 2 ^ fs[j].f.size, true⟩).value.testBit (i - fs[j].lsb)) := by
  induction fs generalizing k s with
  | nil => exact ⟨hs, fun _ _ => rfl, fun j hj => absurd hj (by simp)⟩
  | cons x fs ih =>
    obtain ⟨hx, hd'⟩ := List.pairwise_cons.1 hd
    have h0 := hin 0 (by simp)
    simp only [Nat.add_zero, List.getElem_cons_zero] at h0
    have hone := preWriteField_item h s x k
    rw [hs] at hone
    have hok : (preWriteField h s (x, k)).1.ok = true := by rw [hone]; exact (h0 _).1
    -- bits after the first field
    have hbit : ∀ i, (preWriteField h s (x, k)).1.value.testBit i =
        if Covers x i then (fieldFun h k ⟨(s.1.value >>> x.lsb) % 2 ^ x.f.size, true⟩).value.testBit (i - x.lsb) else s.1.value.testBit i := by
      intro i
      rw [hone, Nat.testBit_or, andNot_testBit, shift_testBit_covers x _ (h0 _).2]
      have hm : ((2 ^ x.f.size - 1) <<< x.lsb).testBit i = decide (Covers x i) := by
        rw [shift_testBit_covers x _ (by have := Nat.two_pow_pos x.f.size; omega), Nat.testBit_two_pow_sub_one]
        by_cases hc : Covers x i
        · have : i - x.lsb < x.f.size := by have := hc.1; have := hc.2; omega
          simp [hc, this]
        · simp [hc]
      rw [hm]
      by_cases hc : Covers x i <;> simp [hc]
    obtain ⟨g1, g2, g3⟩ := ih hd' (k + 1) (fun j hj u => by
      have := hin (j + 1) (by simp; omega) u
      rw [show k + 1 + j = k + (j + 1) by omega]; exact this) (preWriteField h s (x, k)) hok
    rw [List.zipIdx_cons, List.foldl_cons]
    refine ⟨g1, fun i hi => ?_, fun j hj i hc => ?_⟩
    · rw [g2 i fun y hy => hi y (by simp [hy]), hbit i, if_neg (hi x (by simp))]
    · cases j with
      | zero =>
        have hc : Covers x i := hc
        rw [g2 i fun y hy hcy => hx y hy ⟨i, hc, hcy⟩, hbit i, if_pos hc]; rfl
      | succ j =>
        rw [g3 j (by simp at hj; omega) i hc]
        simp only [List.getElem_cons_succ]
        rw [show k + 1 + j = k + (j + 1) by omega]
        have hmem : fs[j]'(by simp at hj; omega) ∈ fs := List.getElem_mem _
        have : ((preWriteField h s (x, k)).1.value >>> (fs[j]'(by simp at hj; omega)).lsb) % 2 ^ (fs[j]'(by simp at hj; omega)).f.size =
            (s.1.value >>> (fs[j]'(by simp at hj; omega)).lsb) % 2 ^ (fs[j]'(by simp at hj; omega)).f.size := by
          apply Nat.eq_of_testBit_eq
          intro b
          rw [Nat.testBit_mod_two_pow, Nat.testBit_mod_two_pow, Nat.testBit_shiftRight, Nat.testBit_shiftRight, hbit]
          by_cases hb : b < (fs[j]'(by simp at hj; omega)).f.size
          · rw [if_neg fun hcx => hx _ hmem ⟨_, hcx, by omega, by omega⟩]
          · simp [hb]
        rw [this]

/-- C80. What is written: bit by bit the value the hooks of the field at that position made of the field's part of the caller's value, and
the caller's bits where there is no field. (Provided the hooks keep the value inside the field, nobody refuses, the register's own method
leaves the value alone, and the last field has no callbacks, which would be called again.) -/
theorem C80_hooks_shape_value_partial (h : Hooks) (r : Reg) (hreach : Reachable r) (v : Nat) (hreg : ∀ x, h.reg x = x)
    (hlast : (lastCbs h r.fields.length).2 = [])
    (hin : ∀ j (hj : j < r.fields.length) (u : Nat),
      (fieldFun h j ⟨u, true⟩).ok = true ∧ (fieldFun h j ⟨u, true⟩).value < 2 ^ r.fields[j].f.size) :
    (preWrite h r v).1.ok = true ∧
    (∀ i, (∀ x ∈ r.fields, ¬ Covers x i) → (preWrite h r v).1.value.testBit i = (v % 2 ^ r.nBits).testBit i) ∧
    (∀ j (hj : j < r.fields.length) i, Covers r.fields[j] i → (preWrite h r v).1.value.testBit i =
      (fieldFun h j ⟨((v % 2 ^ r.nBits) >>> r.fields[j].lsb) % 2 ^ r.fields[j].f.size, true⟩).value.testBit (i - r.fields[j].lsb)) := by
  have hG := reachable_good hreach
  have hl := preWrite_loop h r.fields hG.disj 0 (fun j hj u => by rw [Nat.zero_add]; exact hin j hj u) (⟨v % 2 ^ r.nBits, true⟩, []) rfl
  simp only [Nat.zero_add] at hl
  have e : (preWrite h r v).1 = (r.fields.zipIdx.foldl (preWriteField h) (⟨v % 2 ^ r.nBits, true⟩, [])).1 := by
    simp [preWrite, callAll_item, hlast, call, hreg]
  rw [e]; exact hl

/-- C80. A write refused by a hook never reaches the device nor the mirror, no hook after the bus is called, and the status says so. -/
theorem C80_refused_write {σ} (c : Cfg) (rt : Rights) (hr : c.route = .front rt) (dflt : Rights) (d : Dev σ) (pre post : Hooks) (r : Reg)
    (s : σ) (v : Nat) (h : (preWrite pre (Reg.set r v) v).1.ok = false) :
    ∃ o, write c dflt d pre post r s v = some o ∧ o.dev = s ∧ o.ok = false ∧ getMirrored o.reg = getMirrored r ∧ o.post = [] :=
  ⟨⟨Reg.set r v, s, false, (preWrite pre (Reg.set r v) v).2, []⟩, by simp [write, doWrite, hr, h], rfl, rfl, getMirrored_set r v, rfl⟩

/-- C80. A read refused by a hook never reaches the device and changes nothing. -/
theorem C80_refused_read {σ} (c : Cfg) (rt : Rights) (hr : c.route = .front rt) (d : Dev σ) (pre post : Hooks) (r : Reg)
    (s : σ) (h : (preRead pre r).1.ok = false) :
    ∃ o, read c d pre post r s = some o ∧ o.dev = s ∧ o.ok = false ∧ o.reg = r ∧ o.post = [] :=
  ⟨⟨r, s, false, (preRead pre r).1.value, false, (preRead pre r).2, []⟩, by simp [read, doRead, hr, h], rfl, rfl, rfl, rfl⟩

/-- C80. What the device is written with is what the hooks left (and the status the caller sees is the bus's unless a later hook changes it). -/
theorem C80_device_gets_shaped_value {σ} (c : Cfg) (rt : Rights) (hr : c.route = .front rt) (hb : ∀ i, c.bare i = false) (dflt : Rights)
    (d : Dev σ) (pre post : Hooks) (hq : Quiet post) (r : Reg) (s : σ) (v : Nat) (hok : (preWrite pre (Reg.set r v) v).1.ok = true) :
    ∃ o, write c dflt d pre post r s v = some o ∧ (o.dev, o.ok) = d.wr s (preWrite pre (Reg.set r v) v).1.value := by
  cases ha : c.auto <;> simp [write, doWrite, hr, hok, ha, predict_front hb, postWrite_quiet hq]

/-- C80 fails after a write: no callback of any field but the last, nor of the register, is called. -/
theorem C80_post_write_callbacks_fails (h : Hooks) (r : Reg) (it : Item) (n : Nat) (hn : r.fields.length = n + 1) :
    (∀ i j, i ≠ n → Who.fieldCb i j ∉ (postWrite h r it).2) ∧ (∀ j, Who.regCb j ∉ (postWrite h r it).2) := by
  have hf : ∀ (w : Who) (l : List (RF × Nat)) (s : Item × List Who), (∀ i, w ≠ .fieldHook i) → w ∉ s.2 →
      w ∉ (l.foldl (fun s p => call (.fieldHook p.2) (h.field p.2)
        (⟨(it.value >>> p.1.lsb) &&& (2 ^ p.1.f.size - 1), s.1.ok⟩, s.2)) s).2 := by
    intro w l
    induction l with
    | nil => intro s _ hs; exact hs
    | cons p l ih =>
      intro s hw hs
      refine ih _ hw ?_
      simp only [call, List.mem_append, List.mem_singleton, not_or]
      exact ⟨hs, hw p.2⟩
  refine ⟨fun i j hi => ?_, fun j => ?_⟩
  · refine hf _ _ _ (by simp) ?_
    simp [call, callAll_log, lastCbs, hn]; omega
  · refine hf _ _ _ (by simp) ?_
    simp [call, callAll_log, lastCbs, hn]

theorem preRead_log (h : Hooks) (r : Reg) : (preRead h r).2 = fieldCalls h r.fields.length ++ [.regHook] := by
  have hf : ∀ (l : List (RF × Nat)) (s : Item × List Who),
      (l.foldl (fun s p => callAll (.fieldCb p.2) (h.fieldCbs p.2) (call (.fieldHook p.2) (h.field p.2) s)) s).2 =
      s.2 ++ l.flatMap fun p => .fieldHook p.2 :: (List.range (h.fieldCbs p.2).length).map (.fieldCb p.2) := by
    intro l
    induction l with
    | nil => intro s; simp
    | cons p l ih => intro s; rw [List.foldl_cons, ih, List.flatMap_cons]; simp [callAll_log, call]
  refine (congrArg (· ++ [Who.regHook]) (hf _ _)).trans ?_
  rw [flatMap_zipIdx r.fields (fun i => Who.fieldHook i :: (List.range (h.fieldCbs i).length).map (Who.fieldCb i)) 0, fieldCalls, ← List.range_eq_range']
  simp

/-- C80. Before a read the calls are the documented ones, except that the register's callbacks are missing. -/
theorem C80_read_calls_partial (h : Hooks) (r : Reg) (hreg : h.regCbs = []) : (preRead h r).2 = documentedCalls h r.fields.length := by
  rw [preRead_log, documentedCalls, hreg]; rfl

/-- C80 fails before a read: the register's callbacks are never called. -/
theorem C80_read_register_callbacks_fails (h : Hooks) (r : Reg) (j : Nat) : Who.regCb j ∉ (preRead h r).2 := by
  rw [preRead_log]; simp [mem_fieldCalls]

/-- C80. After a read everybody is called once: the register's callbacks and method, then callbacks and method of each field. -/
theorem C80_post_read_calls (h : Hooks) (r : Reg) (it : Item) :
    (postRead h r it).2 = (List.range h.regCbs.length).map .regCb ++ .regHook ::
      (List.range r.fields.length).flatMap fun i => (List.range (h.fieldCbs i).length).map (.fieldCb i) ++ [.fieldHook i] := by
  have hf : ∀ (l : List (RF × Nat)) (s : Item × List Who),
      (l.foldl (fun s p => call (.fieldHook p.2) (h.field p.2) (callAll (.fieldCb p.2) (h.fieldCbs p.2)
        (⟨(it.value >>> p.1.lsb) &&& (2 ^ p.1.f.size - 1), s.1.ok⟩, s.2))) s).2 =
      s.2 ++ l.flatMap fun p => (List.range (h.fieldCbs p.2).length).map (.fieldCb p.2) ++ [.fieldHook p.2] := by
    intro l
    induction l with
    | nil => intro s; simp
    | cons p l ih => intro s; rw [List.foldl_cons, ih, List.flatMap_cons]; simp [callAll_log, call]
  unfold postRead
  simp only [hf]
  rw [flatMap_zipIdx r.fields (fun i => (List.range (h.fieldCbs i).length).map (Who.fieldCb i) ++ [Who.fieldHook i]) 0, ← List.range_eq_range']
  simp [call, callAll_log]

/-- C80 fails for the value of a read: whatever the hooks called after the read make of it, the caller gets the value of the bus. -/
theorem C80_post_read_value_fails {σ} (c : Cfg) (rt : Rights) (hr : c.route = .front rt) (hb : ∀ i, c.bare i = false) (d : Dev σ)
    (pre post : Hooks) (r : Reg) (s : σ) (hok : (preRead pre r).1.ok = true) :
    ∃ o, read c d pre post r s = some o ∧ o.value = (d.rd s).2.1 := by
  cases ha : c.auto <;> simp [read, doRead, hr, hok, ha, predict_front hb]

/-- C80 fails for callbacks that only define what they need: with prediction on, a write to a register one of whose fields has a
callback without `post_predict` raises an exception, whatever the value, the device and the hooks (unless refused). -/
theorem C80_bare_callback_fails {σ} (c : Cfg) (rt : Rights) (hr : c.route = .front rt) (ha : c.auto = true) (dflt : Rights) (d : Dev σ)
    (pre post : Hooks) (r : Reg) (s : σ) (v : Nat) (i : Nat) (hi : i < r.fields.length) (hb : c.bare i = true)
    (hok : (preWrite pre (Reg.set r v) v).1.ok = true) : write c dflt d pre post r s v = none := by
  have h1 : ((Reg.set r v).fields.zipIdx.any fun q => c.bare q.2 && reachesCbs .write .front rt q.1) = true := by
    rw [List.any_eq_true]
    have hl : i < (Reg.set r v).fields.length := by simpa [Reg.set] using hi
    refine ⟨((Reg.set r v).fields[i], i), ?_, by simp [hb, reachesCbs]⟩
    rw [List.mem_zipIdx_iff_getElem?]; simp [hl]
  simp [write, doWrite, hr, hok, ha, predict, h1]

/-- and so does a read, unless the field cannot be read. -/
theorem C80_bare_callback_read_fails {σ} (c : Cfg) (rt : Rights) (hr : c.route = .front rt) (ha : c.auto = true) (d : Dev σ)
    (pre post : Hooks) (r : Reg) (s : σ) (i : Nat) (x : RF) (hi : r.fields[i]? = some x) (hb : c.bare i = true)
    (hx : getAccess x.f rt ∉ [Acc.WO, .WOC, .WOS, .WO1, .NOACCESS]) (hok : (preRead pre r).1.ok = true) : read c d pre post r s = none := by
  have h1 : (r.fields.zipIdx.any fun q => c.bare q.2 && reachesCbs .read .front rt q.1) = true := by
    rw [List.any_eq_true]
    refine ⟨(x, i), ?_, ?_⟩
    · rw [List.mem_zipIdx_iff_getElem?]; simp [hi]
    · simp only [hb, Bool.true_and, reachesCbs]
      generalize getAccess x.f rt = a at hx
      cases a <;> first | rfl | exact absurd (by decide) hx
  simp [read, doRead, hr, hok, ha, predict, h1]

-- Non-vacuity: two fields with hooks; field 0 adds 1 to what is written, field 1 inverts; field 0 has one callback.
def shapeHooks : Hooks where
  field i x := if i = 0 then ⟨(x.value + 1) % 16, x.ok⟩ else ⟨x.value ^^^ 15, x.ok⟩
  fieldCbs i := if i = 0 then [fun x => ⟨x.value / 2, x.ok⟩] else []

example : preWrite shapeHooks wcReg 0x37 = (⟨0xc4, true⟩, [.fieldHook 0, .fieldCb 0 0, .fieldHook 1, .regHook]) := by decide

example : (∀ x, shapeHooks.reg x = x) ∧ (lastCbs shapeHooks wcReg.fields.length).2 = [] := ⟨fun _ => rfl, by decide⟩

example : (preWrite { fieldCbs := fun _ => [fun x => ⟨x.value + 1, x.ok⟩] } wcReg 0x37).1 = ⟨0x49, true⟩ := by decide

example : (preWrite { field := fun i x => if i = 1 then ⟨x.value, false⟩ else x } (Reg.set wcReg 1) 1).1.ok = false := by decide

example : (preRead { field := fun i x => if i = 1 then ⟨x.value, false⟩ else x } wcReg).1.ok = false := by decide

end Verif.RegAccess
