import Verif.Model.RegFifo
import Verif.Spec.RegFifo
import Verif.Lemmas.Reg
namespace Verif.RegFifo
open Verif.RegField (maskInt Rights PKind Path mask Field)
open Verif.Reg (Reg RF)

/-- The register has its single RW field over all the bits, and is idle. -/
structure Shape (s : Fifo) : Prop where
  busy : s.reg.busy = false
  field : ∃ f, s.reg.fields = [⟨0, f⟩] ∧ f.size = s.reg.nBits ∧ f.access = .RW ∧ RegField.Fits f
  value : val s.reg < 2 ^ s.reg.nBits
  room : s.fifo.length ≤ s.cap
  fits : ∀ v ∈ s.fifo, v < 2 ^ s.reg.nBits

theorem slice_zero (v : Int) (n : Nat) : Reg.slice v 0 n = maskInt n v := by
  simp [Reg.slice]

theorem maskInt_idem (n : Nat) (v : Int) : maskInt n ((maskInt n v : Nat) : Int) = maskInt n v :=
  RegField.maskInt_of_lt (RegField.maskInt_lt n v)

/-- What the inherited `set` does to the register of a FIFO. -/
theorem regSet (r : Reg) (f : Field) (h : r.fields = [⟨0, f⟩]) (hs : f.size = r.nBits) (ha : f.access = .RW)
    (hF : RegField.Fits f) (v : Int) :
    ∃ f', (Reg.set r v).fields = [⟨0, f'⟩] ∧ f'.size = r.nBits ∧ f'.access = .RW ∧ RegField.Fits f' ∧ (Reg.set r v).nBits = r.nBits ∧
      (Reg.set r v).busy = r.busy ∧ val (Reg.set r v) = maskInt r.nBits v := by
  have hv := RegField.maskInt_lt f.size v
  have hm : (if ((maskInt f.size v : Nat) : Int) / (2 ^ f.size : Nat) ≠ 0 then maskInt f.size ((maskInt f.size v : Nat) : Int)
      else ((maskInt f.size v : Nat) : Int).toNat) = maskInt f.size v := by
    split
    · exact RegField.maskInt_of_lt hv
    · rfl
  refine ⟨RegField.set f (Reg.slice v 0 f.size), ?_, ?_, ?_, (RegField.fits_step hF (.set _)).1, rfl, rfl, ?_⟩
  · simp [Reg.set, h]
  · simp [RegField.set, hs]
  · simp [RegField.set, ha]
  · simp only [Reg.set, h, List.map_cons, List.map_nil, val, RegField.set, ha, slice_zero, hm]
    rw [hs]

/-- What the inherited `do_predict` does to the register of a FIFO that is idle. -/
theorem regPredict (r : Reg) (f : Field) (h : r.fields = [⟨0, f⟩]) (hs : f.size = r.nBits) (ha : f.access = .RW)
    (hb : r.busy = false) (hF : RegField.Fits f) (v : Int) (k : PKind) (p : Path) (rt : Rights) :
    ∃ r' f', Reg.doPredict r v k p rt (-1) = some (r', true) ∧ r'.fields = [⟨0, f'⟩] ∧ f'.size = r.nBits ∧ f'.access = .RW ∧
      RegField.Fits f' ∧ r'.nBits = r.nBits ∧ r'.busy = false ∧ f'.value < 2 ^ r.nBits ∧
      (k ≠ .read → (rt = .RW ∨ p = .other ∨ k = .direct) → f'.value = maskInt r.nBits v) := by
  have hf : f.value < 2 ^ r.nBits := by rw [← hs]; exact hF.value
  have hv := RegField.maskInt_lt f.size v
  have hi := maskInt_idem f.size v
  have hand : ∀ x, x &&& mask f < 2 ^ r.nBits := by
    intro x; rw [← hs]; exact RegField.and_mask_lt _ _
  have hand2 : maskInt f.size v &&& mask f = maskInt f.size v := by
    rw [mask, Nat.and_two_pow_sub_one_eq_mod, Nat.mod_eq_of_lt hv]
  have hbe : ((-1 : Int) / ((2 ^ (0 / 8) : Nat) : Int) % 2 == 1) = true := by decide
  have key : ∃ f' b, RegField.doPredict f (maskInt f.size v) k p rt true false = some (f', b) ∧ f'.size = r.nBits ∧ f'.access = .RW ∧
      f'.value < 2 ^ r.nBits ∧ (k ≠ .read → (rt = .RW ∨ p = .other ∨ k = .direct) → f'.value = maskInt r.nBits v) := by
    cases k with
    | direct =>
      refine ⟨_, _, rfl, hs, ha, ?_, ?_⟩
      · simp only [hi]; rw [← hs]; exact hv
      · intro _ _; simp only [hi]; rw [hs]
    | write =>
      refine ⟨_, _, rfl, hs, ha, hand _, ?_⟩
      intro _ hc
      simp only [hi]
      cases p with
      | other => simp [hs]; rw [← hs]; exact hand2
      | front =>
        rcases hc with rfl | h | h
        · simp [RegField.xpredict, RegField.getAccess, ha, hs]; rw [← hs]; exact hand2
        · cases h
        · cases h
    | read =>
      cases p with
      | other => exact ⟨_, _, rfl, hs, ha, hand _, fun h => absurd rfl h⟩
      | front =>
        have hg : RegField.getAccess f rt = .RW ∨ RegField.getAccess f rt = .RO ∨ RegField.getAccess f rt = .NOACCESS := by
          cases rt <;> simp [RegField.getAccess, ha]
        have hu : ∀ g : RegField.Acc, g = RegField.getAccess f rt → (g = .RW ∨ g = .RO ∨ g = .NOACCESS) →
          ∃ f' b, RegField.doPredict f (maskInt f.size v) .read .front rt true false = some (f', b) ∧ f'.size = r.nBits ∧ f'.access = .RW ∧
            f'.value < 2 ^ r.nBits := by
          intro g hg h
          rcases h with rfl | rfl | rfl <;> simp only [RegField.doPredict, if_true, ← hg, Bool.true_eq_false, if_false] <;>
            refine ⟨_, _, rfl, hs, ha, ?_⟩
          · exact hand _
          · exact hand _
          · exact hf
        obtain ⟨f', b, h1, h2, h3, h4⟩ := hu _ rfl hg
        exact ⟨f', b, h1, h2, h3, h4, fun h => absurd rfl h⟩
  obtain ⟨f', b, h1, h2, h3, h4, h5⟩ := key
  refine ⟨{ r with fields := [⟨0, f'⟩] }, f', ?_, rfl, h2, h3, (RegField.fits_doPredict hF h1).1, rfl, hb, h4, h5⟩
  simp only [Reg.doPredict, hb, h, Bool.false_eq_true, false_and, if_false, List.mapM_cons, List.mapM_nil, Reg.predictField,
    slice_zero, hbe, h1]
  rfl

theorem shape_new (cap n : Nat) : Shape (new cap n) := by
  constructor
  · rfl
  · refine ⟨RegField.configure [] (if n = 0 then 1 else n) .RW false 0 true, rfl, ?_, ?_, RegField.fits_configure _ _ _ _ _ _⟩
    · simp only [RegField.configure, RegField.setReset, RegField.known, new, Reg.addField, Reg.new]
      by_cases h : n = 0 <;> simp [h, Reg.insertAt]
    · simp [RegField.configure, RegField.setReset, RegField.known]
  · show (0 : Nat) < 2 ^ _
    exact Nat.two_pow_pos _
  · exact Nat.zero_le _
  · intro v h; cases h

/-- The parts of the state that accesses never change. -/
def Same (s t : Fifo) : Prop := t.cap = s.cap ∧ t.reg.nBits = s.reg.nBits ∧ t.updating = s.updating

theorem set_spec {s : Fifo} (h : Shape s) (v : Int) :
    Shape (set s v) ∧ Same s (set s v) ∧
    (set s v).fifo = (if s.fifo.length = s.cap then s.fifo else s.fifo ++ [maskInt s.reg.nBits v]) ∧
    (set s v).setCnt = (if s.fifo.length = s.cap then s.setCnt else s.setCnt + 1) := by
  by_cases hf : s.fifo.length = s.cap
  · simp only [set, hf, if_true]
    exact ⟨h, ⟨rfl, rfl, rfl⟩, trivial, trivial⟩
  · obtain ⟨f, h1, h2, h3, hF⟩ := h.field
    obtain ⟨f', g1, g2, g3, gF, g4, g5, g6⟩ := regSet s.reg f h1 h2 h3 hF (maskInt s.reg.nBits v)
    have hv := RegField.maskInt_lt s.reg.nBits v
    rw [maskInt_idem] at g6
    simp only [set, hf, if_false]
    refine ⟨⟨g5.trans h.busy, ⟨f', g1, g2.trans g4.symm, g3, gF⟩, ?_, ?_, ?_⟩, ⟨rfl, g4, rfl⟩, ?_, trivial⟩
    · rw [g6, g4]; exact hv
    · have := h.room; simp only [List.length_append, List.length_cons, List.length_nil]; omega
    · intro x hx
      simp only [List.mem_append, List.mem_singleton] at hx
      simp only [g4]
      rcases hx with hx | hx
      · exact h.fits x hx
      · rw [hx, g6]; exact hv
    · simp only [g6]

/-- The access a prediction stands for. -/
def evOf (v : Int) : PKind → Spec.RegFifo.Ev
  | .read => .take
  | _ => .put v

theorem predict_spec {s : Fifo} (h : Shape s) (v : Int) (k : PKind) (p : Path) (rt : Rights) (ok : Bool) :
    ∃ s', doPredict s v k p rt ok = some (s', ok) ∧ Shape s' ∧ Same s s' ∧ s'.setCnt = s.setCnt ∧
      (ok = false → s'.fifo = s.fifo) ∧
      (s.updating = true → k ≠ .read → s'.fifo = s.fifo) ∧
      (ok = true → s.updating = false → (rt = .RW ∨ p = .other ∨ k ≠ .write) →
        s'.fifo = Spec.RegFifo.after s.cap s.reg.nBits s.fifo (evOf v k)) := by
  obtain ⟨f, h1, h2, h3, hF⟩ := h.field
  obtain ⟨r', f', g1, g2, g3, g4, gF, g5, g6, g7, g8⟩ := regPredict s.reg f h1 h2 h3 h.busy hF v k p rt
  have hval : val r' = f'.value := by rw [val, g2]
  have base : Shape { s with reg := r' } :=
    ⟨g6, ⟨f', g2, g3.trans g5.symm, g4, gF⟩, by simp only [hval, g5]; exact g7, h.room, by simp only [g5]; exact h.fits⟩
  have same : Same s { s with reg := r' } := ⟨rfl, g5, rfl⟩
  cases ok with
  | false =>
    refine ⟨{ s with reg := r' }, by simp [doPredict, g1], base, same, rfl, fun _ => rfl, fun _ _ => rfl, nofun⟩
  | true =>
    by_cases hk : k = .read
    · subst hk
      cases hl : s.fifo with
      | nil =>
        refine ⟨{ s with reg := r' }, by simp [doPredict, g1, hl], base, same, rfl, nofun, fun _ h => absurd rfl h, ?_⟩
        intro _ _ _
        simp [Spec.RegFifo.after, evOf, hl]
      | cons a l =>
        refine ⟨{ s with reg := r', fifo := l }, by simp [doPredict, g1, hl], ?_, ⟨rfl, g5, rfl⟩, rfl, nofun, fun _ h => absurd rfl h, ?_⟩
        · refine ⟨base.busy, base.field, base.value, ?_, ?_⟩
          · have := h.room; rw [hl] at this; simp only [List.length_cons] at this ⊢; omega
          · intro x hx; exact base.fits x (by rw [hl]; exact List.mem_cons_of_mem _ hx)
        · intro _ _ _
          simp [Spec.RegFifo.after, evOf]
    · by_cases hc : s.fifo.length ≠ s.cap ∧ s.updating = false
      · have he : doPredict s v k p rt true = some ({ s with reg := r', fifo := s.fifo ++ [val r'] }, true) := by
          cases k with
          | read => exact absurd rfl hk
          | write => simp [doPredict, g1, hc]
          | direct => simp [doPredict, g1, hc]
        refine ⟨_, he, ?_, ⟨rfl, g5, rfl⟩, rfl, nofun, fun h => (by rw [hc.2] at h; cases h), ?_⟩
        · refine ⟨base.busy, base.field, base.value, ?_, ?_⟩
          · have := h.room; simp only [List.length_append, List.length_cons, List.length_nil]; omega
          · intro x hx
            simp only [List.mem_append, List.mem_singleton] at hx
            rcases hx with hx | hx
            · exact base.fits x hx
            · rw [hx]; exact base.value
        · intro _ _ hr
          have hlt : s.fifo.length < s.cap := by have := h.room; omega
          have hev : evOf v k = .put v := by cases k <;> first | rfl | exact absurd rfl hk
          have hr' : rt = .RW ∨ p = .other ∨ k = .direct := by
            rcases hr with h | h | h
            · exact .inl h
            · exact .inr (.inl h)
            · cases k with
              | read => exact absurd rfl hk
              | write => exact absurd rfl h
              | direct => exact .inr (.inr rfl)
          rw [hev]
          simp only [Spec.RegFifo.after, hlt, if_true, hval, g8 hk hr', Spec.RegFifo.low, maskInt]
          simp
      · have he : doPredict s v k p rt true = some ({ s with reg := r' }, true) := by
          cases k with
          | read => exact absurd rfl hk
          | write => simp only [doPredict, g1, Bool.and_self, Bool.true_eq_false, if_false]; rw [if_neg hc]
          | direct => simp only [doPredict, g1, Bool.and_self, Bool.true_eq_false, if_false]; rw [if_neg hc]
        refine ⟨_, he, base, same, rfl, nofun, fun _ _ => rfl, ?_⟩
        intro _ hu _
        have hlt : ¬ s.fifo.length < s.cap := by
          intro hlt; exact hc ⟨by omega, hu⟩
        have hev : evOf v k = .put v := by cases k <;> first | rfl | exact absurd rfl hk
        rw [hev]
        simp [Spec.RegFifo.after, hlt]

/-- A write outside `update` is refused. -/
theorem write_idle {s : Fifo} (h : Shape s) (hu : s.updating = false) (v : Int) (rt : Rights) (b a : Bool) :
    write s v rt b a = (set s v, [], false) := by
  obtain ⟨_, ⟨g1, _, g3⟩, g4, g5⟩ := set_spec h v
  have : preWrite (set s v) = false := by
    simp only [preWrite, g3, hu, g4, g5, g1]
    by_cases hf : s.fifo.length = s.cap <;> simp [hf]
  simp [write, this]

/-- A write within `update` reaches the bus. -/
theorem write_updating {s : Fifo} (h : Shape s) (hu : s.updating = true) (v : Nat) (hv : v < 2 ^ s.reg.nBits) (rt : Rights) (b a : Bool) :
    ∃ s', write s v rt b a = (s', [v], b) ∧ Shape s' ∧ Same s s' ∧ s'.fifo = (set s v).fifo ∧ s'.setCnt = (set s v).setCnt := by
  obtain ⟨g0, ⟨g1, g2, g3⟩, g4, g5⟩ := set_spec h v
  have hp : preWrite (set s v) = true := by simp [preWrite, g3, hu]
  have hm : maskInt (set s v).reg.nBits ((v : Nat) : Int) = v := by rw [g2]; exact RegField.maskInt_of_lt hv
  cases a with
  | false => exact ⟨set s v, by simp [write, hp, hm], g0, ⟨g1, g2, g3⟩, rfl, rfl⟩
  | true =>
    obtain ⟨s', p1, p2, p3, p4, _, p6, _⟩ := predict_spec g0 (v : Int) .write .front rt b
    refine ⟨s', by simp [write, hp, hm, p1], p2, ?_, p6 (g3.trans hu) (by simp), p4⟩
    exact ⟨p3.1.trans g1, p3.2.1.trans g2, p3.2.2.trans g3⟩

theorem read_spec {s : Fifo} (h : Shape s) (rv : Nat) (rt : Rights) (b a : Bool) :
    Shape (read s rv rt b a).1 ∧ Same s (read s rv rt b a).1 ∧ (read s rv rt b a).1.setCnt = s.setCnt ∧
    (read s rv rt b a).2.1 = decide (s.fifo ≠ []) ∧ (read s rv rt b a).2.2.2 = (decide (s.fifo ≠ []) && b) ∧
    (s.fifo ≠ [] → (read s rv rt b a).2.2.1 = rv) ∧
    (s.updating = false → (read s rv rt b a).1.fifo = if b && a then s.fifo.drop 1 else s.fifo) := by
  cases hl : s.fifo with
  | nil =>
    have he : read s rv rt b a = (s, false, 0, false) := by simp [read, preRead, hl]
    rw [he]
    exact ⟨h, ⟨rfl, rfl, rfl⟩, rfl, by simp, by simp, fun h => absurd rfl h, fun _ => by simp [hl]⟩
  | cons x l =>
    have hp : preRead s = true := by simp [preRead, hl]
    cases a with
    | false =>
      have he : read s rv rt b false = (s, true, rv, b) := by simp [read, hp]
      rw [he]
      exact ⟨h, ⟨rfl, rfl, rfl⟩, rfl, by simp, by simp, fun _ => rfl, fun _ => by simp [hl]⟩
    | true =>
      obtain ⟨s', p1, p2, p3, p4, p5, _, p7⟩ := predict_spec h (rv : Int) .read .front rt b
      have he : read s rv rt b true = (s', true, rv, b) := by simp [read, hp, p1]
      rw [he]
      refine ⟨p2, p3, p4, by simp, by simp, fun _ => rfl, fun hu => ?_⟩
      cases b with
      | false => simp [p5 rfl, hl]
      | true => simp [p7 rfl hu (.inr (.inr (by simp))), Spec.RegFifo.after, evOf, hl]

/-- The loop of `update`: it ends, writes the words from index `i` on, repeating them until the queue is full. -/
theorem updateLoop_spec (rt : Rights) (b a : Bool) : ∀ (n : Nat) (s : Fifo) (i : Int), Shape s → s.updating = true →
    i = (s.fifo.length : Int) - s.setCnt → (s.cap - s.fifo.length) + s.setCnt ≤ n →
    ∃ s' ws, updateLoop rt b a n s i = some (s', ws) ∧ Shape s' ∧ Same s s' ∧ s'.setCnt = 0 ∧
      (∃ more, s'.fifo = s.fifo ++ more) ∧ ws = s'.fifo.drop i.toNat ∧
      (0 < s.setCnt → s.fifo ≠ [] → s'.fifo.length = s.cap) ∧ (s.setCnt = 0 → s'.fifo = s.fifo) := by
  intro n
  induction n with
  | zero =>
    intro s i h hu hi hn
    have h0 : s.setCnt = 0 := by omega
    refine ⟨s, [], by simp [updateLoop, h0], h, ⟨rfl, rfl, rfl⟩, h0, ⟨[], by simp⟩, ?_, fun h => by omega, fun _ => rfl⟩
    rw [hi, h0]; simp
  | succ n ih =>
    intro s i h hu hi hn
    by_cases hc : s.setCnt > 0
    · by_cases hp : i ≥ 0
      · have hil : i.toNat < s.fifo.length := by omega
        have hv : s.fifo[i.toNat] < 2 ^ s.reg.nBits := h.fits _ (List.getElem_mem hil)
        obtain ⟨t, t1, t2, t3, t4, t5⟩ := write_updating h hu (s.fifo[i.toNat]) hv rt b a
        obtain ⟨_, _, g4, g5⟩ := set_spec h (s.fifo[i.toNat] : Nat)
        have ht : Shape { t with setCnt := t.setCnt - 1 } := ⟨t2.busy, t2.field, t2.value, t2.room, t2.fits⟩
        rw [g4] at t4
        rw [g5] at t5
        have hroom := h.room
        have hm := RegField.maskInt_of_lt hv
        rw [hm] at t4
        obtain ⟨s', ws, q1, q2, q3, q4, ⟨more, q5⟩, q6, q7, q8⟩ := ih { t with setCnt := t.setCnt - 1 } (i + 1) ht (t3.2.2.trans hu)
          (by by_cases hf : s.fifo.length = s.cap
              · simp only [t4, t5, hf, if_true]; omega
              · simp only [t4, t5, hf, if_false, List.length_append, List.length_cons, List.length_nil]; omega)
          (by by_cases hf : s.fifo.length = s.cap
              · simp only [t4, t5, hf, if_true, t3.1]; omega
              · simp only [t4, t5, hf, if_false, t3.1, List.length_append, List.length_cons, List.length_nil]; omega)
        simp only at q5 q6 q7 q8
        have hpre : ∃ more, s'.fifo = s.fifo ++ more := by
          rw [q5, t4]
          by_cases hf : s.fifo.length = s.cap
          · exact ⟨more, by simp [hf]⟩
          · exact ⟨s.fifo[i.toNat] :: more, by simp [hf]⟩
        refine ⟨s', s.fifo[i.toNat] :: ws, ?_, q2, ⟨q3.1.trans t3.1, q3.2.1.trans t3.2.1, q3.2.2.trans t3.2.2⟩, q4, hpre, ?_, ?_, fun h => by omega⟩
        · simp only [updateLoop, hc, if_true, hp, List.getElem?_eq_getElem hil, t1, q1]
          rfl
        · obtain ⟨m, hm⟩ := hpre
          have : i.toNat < s'.fifo.length := by rw [hm, List.length_append]; omega
          rw [q6, List.drop_eq_getElem_cons this]
          congr 1
          · simp only [hm, List.getElem_append_left hil]
          · congr 1; omega
        · intro _ hne
          by_cases hf : s.fifo.length = s.cap
          · simp only [hf, if_true] at t4 t5
            by_cases h1 : s.setCnt = 1
            · rw [q8 (by omega), t4]; exact hf
            · rw [q7 (by omega) (by rw [t4]; exact hne)]; exact t3.1
          · simp only [hf, if_false] at t4 t5
            rw [q7 (by omega) (by rw [t4]; simp)]; exact t3.1
      · have ht : Shape { s with setCnt := s.setCnt - 1 } := ⟨h.busy, h.field, h.value, h.room, h.fits⟩
        obtain ⟨s', ws, q1, q2, q3, q4, q5, q6, q7, q8⟩ := ih { s with setCnt := s.setCnt - 1 } (i + 1) ht hu
          (by simp only; omega) (by simp only; omega)
        simp only at q5 q6 q7 q8
        refine ⟨s', ws, ?_, q2, q3, q4, q5, ?_, ?_, fun h => by omega⟩
        · simp only [updateLoop, hc, if_true, hp, if_false, q1]
        · rw [q6]; congr 1; omega
        · intro _ hne
          have : 0 < s.fifo.length := List.length_pos_iff.mpr hne
          exact q7 (by omega) hne
    · have h0 : s.setCnt = 0 := by omega
      refine ⟨s, [], by simp [updateLoop, h0], h, ⟨rfl, rfl, rfl⟩, h0, ⟨[], by simp⟩, ?_, fun h => by omega, fun _ => rfl⟩
      rw [hi, h0]; simp

theorem update_spec {s : Fifo} (h : Shape s) (hu : s.updating = false) (rt : Rights) (b a : Bool) :
    ∃ s' ws, update s rt b a = some (s', ws) ∧ Shape s' ∧ Same s s' ∧
      (s.setCnt = 0 ∨ s.fifo = [] → s' = s ∧ ws = []) ∧
      (0 < s.setCnt → s.fifo ≠ [] → s'.setCnt = 0 ∧ (∃ more, s'.fifo = s.fifo ++ more) ∧
        ws = s'.fifo.drop (s.fifo.length - s.setCnt) ∧ s'.fifo.length = s.cap) := by
  by_cases hc : s.setCnt = 0 ∨ s.fifo.length = 0
  · refine ⟨s, [], by simp only [update, hc, if_true], h, ⟨rfl, rfl, rfl⟩, fun _ => ⟨rfl, rfl⟩, fun h1 h2 => ?_⟩
    have : 0 < s.fifo.length := List.length_pos_iff.mpr h2
    omega
  · have hs : Shape { s with updating := true } := ⟨h.busy, h.field, h.value, h.room, h.fits⟩
    have hroom := h.room
    obtain ⟨s', ws, q1, q2, q3, q4, q5, q6, q7, q8⟩ := updateLoop_spec rt b a (s.cap + s.setCnt) { s with updating := true }
      ((s.fifo.length : Int) - s.setCnt) hs rfl rfl (by simp only; omega)
    refine ⟨{ s' with updating := false }, ws, by simp only [update, hc, if_false, q1], ⟨q2.busy, q2.field, q2.value, q2.room, q2.fits⟩,
      ⟨q3.1, q3.2.1, hu.symm⟩, fun h => ?_, fun h1 h2 => ⟨q4, q5, ?_, q7 h1 h2⟩⟩
    · exfalso; apply hc
      rcases h with h | h
      · exact .inl h
      · exact .inr (by simp [h])
    · rw [q6]; congr 1; omega

/-- Every operation keeps the shape. -/
theorem shape_step {s : Fifo} (h : Shape s) (hu : s.updating = false) (op : Op) : Shape (step s op) ∧ Same s (step s op) := by
  cases op with
  | set v => exact ⟨(set_spec h v).1, (set_spec h v).2.1⟩
  | predict v k p rt ok =>
    obtain ⟨s', p1, p2, p3, _⟩ := predict_spec h v k p rt ok
    simp only [step, p1]; exact ⟨p2, p3⟩
  | write v rt b a =>
    simp only [step, write_idle h hu]
    exact ⟨(set_spec h v).1, (set_spec h v).2.1⟩
  | read rv rt b a => exact ⟨(read_spec h rv rt b a).1, (read_spec h rv rt b a).2.1⟩
  | update rt b a =>
    obtain ⟨s', ws, p1, p2, p3, _⟩ := update_spec h hu rt b a
    simp only [step, p1]; exact ⟨p2, p3⟩
  | randomize => exact ⟨⟨h.busy, h.field, h.value, h.room, h.fits⟩, ⟨rfl, rfl, rfl⟩⟩
  | reset k =>
    obtain ⟨f, h1, h2, h3, hF⟩ := h.field
    have hr := RegField.fits_step hF (.reset k)
    have ha : (RegField.reset f k).access = .RW := by
      simp only [RegField.reset]
      cases f.reset k with
      | none => exact h3
      | some v => simp only; split <;> exact h3
    have hsz : (RegField.reset f k).size = s.reg.nBits := hr.2.trans h2
    have hfl : (step s (.reset k)).reg.fields = [⟨0, RegField.reset f k⟩] := by simp [step, Reg.reset, h1]
    refine ⟨⟨rfl, ⟨RegField.reset f k, hfl, hsz, ha, hr.1⟩, ?_, h.room, h.fits⟩, ⟨rfl, rfl, rfl⟩⟩
    rw [val, hfl]
    show (RegField.reset f k).value < 2 ^ s.reg.nBits
    rw [← hsz]; exact hr.1.value

theorem shape_run (ops : List Op) : ∀ {s : Fifo}, Shape s → s.updating = false → Shape (run s ops) ∧ Same s (run s ops) := by
  induction ops with
  | nil => intro s h hu; exact ⟨h, rfl, rfl, rfl⟩
  | cons op ops ih =>
    intro s h hu
    obtain ⟨h1, h2, h3, h4⟩ := shape_step h hu op
    obtain ⟨g1, g2, g3, g4⟩ := ih h1 (h4.trans hu)
    exact ⟨g1, g2.trans h2, g3.trans h3, g4.trans h4⟩

end Verif.RegFifo
