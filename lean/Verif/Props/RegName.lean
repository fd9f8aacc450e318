import Verif.Spec.RegName
import Verif.Props.Reg
import Verif.Props.RegText
/-! # C370, C371: fields by name, texts of HDL paths -/
namespace Verif.RegName
open Verif.Text (Str)
open Verif.RegText (dec dec_inj)

theorem fieldByName_none (nm : Reg.RF → Str) (name : Str) (l : List Reg.RF) (h : ∀ x ∈ l, nm x ≠ name) : fieldByName nm name l = (none, true) := by
  induction l with
  | nil => rfl
  | cons x l ih =>
    simp only [fieldByName, if_neg (h x (by simp))]
    exact ih (fun y hy => h y (by simp [hy]))

theorem fieldByName_some (nm : Reg.RF → Str) (name : Str) (pre post : List Reg.RF) (x : Reg.RF) (hx : nm x = name) (h : ∀ y ∈ pre, nm y ≠ name) :
    fieldByName nm name (pre ++ x :: post) = (some x, false) := by
  induction pre with
  | nil => simp [fieldByName, hx]
  | cons y l ih =>
    simp only [List.cons_append, fieldByName, if_neg (h y (by simp))]
    exact ih (fun z hz => h z (by simp [hz]))

/-- C370.  In a register with any fields, added in any order, `get_field_by_name` gives a field of that name, the lowest of them, if there is one, without a warning; and otherwise nothing
and a warning. -/
theorem C370_field_by_name (n : Nat) (xs : List Reg.RF) (hx : ∀ x ∈ xs, 1 ≤ x.f.size) (nm : Reg.RF → Str) (name : Str) :
    (∀ x, (fieldByName nm name (Reg.build n xs).1.fields).1 = some x → x ∈ xs ∧ nm x = name ∧ ∀ y ∈ xs, nm y = name → x.lsb ≤ y.lsb) ∧
    ((fieldByName nm name (Reg.build n xs).1.fields).1 = none ↔ ∀ x ∈ xs, nm x ≠ name) ∧
    ((fieldByName nm name (Reg.build n xs).1.fields).2 = true ↔ ∀ x ∈ xs, nm x ≠ name) := by
  obtain ⟨hs, hp, _⟩ := Reg.C16_fields_ordered_and_overlaps_reported n xs hx
  by_cases h : ∀ x ∈ (Reg.build n xs).1.fields, nm x ≠ name
  · rw [fieldByName_none nm name _ h]
    have h' : ∀ x ∈ xs, nm x ≠ name := fun x hx => h x (hp.symm.subset hx)
    exact ⟨fun x e => (nomatch e), ⟨fun _ => h', fun _ => rfl⟩, ⟨fun _ => h', fun _ => rfl⟩⟩
  · generalize (Reg.build n xs).1.fields = fs at *
    have hex : ∃ pre x post, fs = pre ++ x :: post ∧ nm x = name ∧ ∀ y ∈ pre, nm y ≠ name := by
      clear hs hp
      induction fs with
      | nil => exact absurd (by simp) h
      | cons x l ih =>
        by_cases e : nm x = name
        · exact ⟨[], x, l, rfl, e, by simp⟩
        · obtain ⟨pre, y, post, rfl, h1, h2⟩ := ih (fun hl => h (fun z hz => by
            rcases List.mem_cons.1 hz with rfl | hz
            · exact e
            · exact hl z hz))
          exact ⟨x :: pre, y, post, rfl, h1, fun z hz => by
            rcases List.mem_cons.1 hz with rfl | hz
            · exact e
            · exact h2 z hz⟩
    obtain ⟨pre, x, post, rfl, h1, h2⟩ := hex
    rw [fieldByName_some nm name pre post x h1 h2]
    have hm : x ∈ xs := hp.subset (by simp)
    refine ⟨fun y e => ?_, ⟨fun e => (nomatch e), fun e => absurd h1 (e x hm)⟩, ⟨fun e => (nomatch e), fun e => absurd h1 (e x hm)⟩⟩
    obtain rfl : x = y := by simpa using e
    refine ⟨hm, h1, fun z hz hn => ?_⟩
    have hz' := hp.symm.subset hz
    rcases List.mem_append.1 hz' with hz' | hz'
    · exact absurd hn (h2 z hz')
    · rcases List.mem_cons.1 hz' with rfl | hz'
      · exact Nat.le_refl _
      · exact (List.pairwise_cons.1 (List.pairwise_append.1 hs).2.1).1 z hz'

/-- Three fields, two with the same name, added from high to low. -/
def exFields : List Reg.RF := [⟨8, RegField.configure [] 4 .RW false 0 true⟩, ⟨4, RegField.configure [] 4 .RW false 0 true⟩, ⟨0, RegField.configure [] 4 .RW false 0 true⟩]

def exName (x : Reg.RF) : Str := if x.lsb = 0 then ['b'] else ['a']

example : ∀ x ∈ exFields, 1 ≤ x.f.size := by decide
example : (fieldByName exName ['a'] (Reg.build 16 exFields).1.fields).1.map (·.lsb) = some 4 := by decide
example : (fieldByName exName ['c'] (Reg.build 16 exFields).1.fields).2 = true := by decide

/-! ## Texts of HDL paths -/

/-- Two texts that agree up to the first occurrence of a character. -/
theorem cutAt {c : Char} : ∀ {x y u v : Str}, c ∉ x → c ∉ y → x ++ c :: u = y ++ c :: v → x = y ∧ u = v
  | [], [], u, v, _, _, h => by simp at h; exact ⟨rfl, h⟩
  | [], b :: y, u, v, _, hy, h => by simp at h; exact absurd (by simp [h.1]) hy
  | a :: x, [], u, v, hx, _, h => by simp at h; exact absurd (by simp [h.1]) hx
  | a :: x, b :: y, u, v, hx, hy, h => by
    simp only [List.cons_append, List.cons.injEq] at h
    have := cutAt (fun m => hx (by simp [m])) (fun m => hy (by simp [m])) h.2
    exact ⟨by rw [h.1, this.1], this.2⟩

theorem dec_char {n : Nat} {c : Char} (h : c ∈ dec n) : c.isDigit = true := Nat.isDigit_of_mem_toDigits (by decide) (by decide) h

theorem dec_ne {n : Nat} {c : Char} (hc : c.isDigit = false) : c ∉ dec n := fun h => by rw [dec_char h] at hc; cases hc

theorem int_nonneg {i : Int} (h : 0 ≤ i) : int i = dec i.natAbs := by
  unfold int; rw [if_neg (by omega)]

theorem sliceText_inj {s t : Slice} (hs : Proper s) (ht : Proper t) (h : sliceText s = sliceText t) : s = t := by
  obtain ⟨p, o, z⟩ := s
  obtain ⟨p', o', z'⟩ := t
  have hp := hs.plain.2.1
  have hp' := ht.plain.2.1
  simp only [sliceText] at h hp hp'
  rcases hs.bits with ⟨rfl, rfl⟩ | ⟨h1, h2⟩ <;> rcases ht.bits with ⟨rfl, rfl⟩ | ⟨h3, h4⟩
  · simp at h; rw [h]
  · simp only at h3 h4
    rw [if_neg (by decide), if_pos h3] at h
    exact absurd (by rw [List.append_nil] at h; rw [h]; simp) hp
  · simp only at h1 h2
    rw [if_pos h1, if_neg (by decide)] at h
    exact absurd (by rw [List.append_nil] at h; rw [← h]; simp) hp'
  · simp only at h1 h2 h3 h4
    rw [if_pos h1, if_pos h3] at h
    obtain ⟨ep, h'⟩ := cutAt hp hp' h
    subst ep
    replace h := (List.cons.inj h').2
    rw [int_nonneg h1, int_nonneg h2, int_nonneg h3, int_nonneg h4] at h
    obtain ⟨e1, h⟩ := cutAt (c := ' ') (dec_ne (by decide)) (dec_ne (by decide)) (u := '+' :: ':' :: ' ' :: (dec z.natAbs ++ [']']))
      (v := '+' :: ':' :: ' ' :: (dec z'.natAbs ++ [']'])) h
    simp only [List.cons.injEq, true_and] at h
    have e2 := List.append_cancel_right h
    have := dec_inj e1
    have := dec_inj e2
    have : o = o' := by omega
    have : z = z' := by omega
    subst o z; rfl

theorem int_char {i : Int} {c : Char} (hc : c.isDigit = false) (hd : c ≠ '-') : c ∉ int i := by
  unfold int
  split
  · intro h
    rcases List.mem_cons.1 h with h | h
    · exact hd h
    · exact dec_ne hc h
  · exact dec_ne hc

theorem sliceText_plain {s : Slice} (hs : Proper s) : ',' ∉ sliceText s ∧ '}' ∉ sliceText s := by
  obtain ⟨h1, h2, h3, h4⟩ := hs.plain
  unfold sliceText
  split
  · simp only [List.mem_append, List.mem_cons, List.not_mem_nil, or_false, not_or]
    refine ⟨⟨h1, by decide, by decide, int_char (by decide) (by decide), by decide, int_char (by decide) (by decide), by decide⟩,
      ⟨h4, by decide, by decide, int_char (by decide) (by decide), by decide, int_char (by decide) (by decide), by decide⟩⟩
  · simp [h1, h4]

theorem sliceText_ne {s : Slice} (hs : Proper s) : sliceText s ≠ [] := by
  intro h
  exact hs.nonempty (List.append_eq_nil_iff.1 h).1

theorem slicesText_inj : ∀ {l m : List Slice}, (∀ s ∈ l, Proper s) → (∀ s ∈ m, Proper s) → slicesText l = slicesText m → l = m
  | [], [], _, _, _ => rfl
  | [], [t], _, hm, h => absurd h.symm (sliceText_ne (hm t (by simp)))
  | [], t :: t' :: m, _, hm, h => by simp [slicesText] at h
  | [s], [], hl, _, h => absurd h (sliceText_ne (hl s (by simp)))
  | s :: s' :: l, [], _, _, h => by simp [slicesText] at h
  | [s], [t], hl, hm, h => by rw [sliceText_inj (hl s (by simp)) (hm t (by simp)) h]
  | [s], t :: t' :: m, hl, _, h => by
    simp only [slicesText] at h
    exact absurd (by rw [h]; simp) (sliceText_plain (hl s (by simp))).1
  | s :: s' :: l, [t], _, hm, h => by
    simp only [slicesText] at h
    exact absurd (by rw [← h]; simp) (sliceText_plain (hm t (by simp))).1
  | s :: s' :: l, t :: t' :: m, hl, hm, h => by
    simp only [slicesText] at h
    obtain ⟨e1, e2⟩ := cutAt (sliceText_plain (hl s (by simp))).1 (sliceText_plain (hm t (by simp))).1 h
    simp only [List.cons.injEq, true_and] at e2
    rw [sliceText_inj (hl s (by simp)) (hm t (by simp)) e1,
      slicesText_inj (l := s' :: l) (m := t' :: m) (fun x hx => hl x (by simp [List.mem_cons.1 hx])) (fun x hx => hm x (by simp [List.mem_cons.1 hx])) e2]

/-- One whole signal is shown as its path, anything else in braces. -/
theorem concatText_cases (l : List Slice) : (∃ s, l = [s] ∧ (s.offset = -1 ∧ s.size = -1) ∧ concatText l = s.path) ∨ concatText l = '{' :: (slicesText l ++ ['}']) := by
  unfold concatText
  split
  · next s =>
    split
    · next h => exact .inl ⟨s, rfl, h, rfl⟩
    · exact .inr rfl
  · exact .inr rfl

/-- C371.  Different concatenations of proper slices have different texts: the text that `uvm_hdl_concat2string` gives tells the whole HDL path. -/
theorem C371_tells_path (l m : List Slice) (hl : ∀ s ∈ l, Proper s) (hm : ∀ s ∈ m, Proper s) (h : concatText l = concatText m) : l = m := by
  have whole : ∀ (s t : Slice), (s.offset = -1 ∧ s.size = -1) → (t.offset = -1 ∧ t.size = -1) → s.path = t.path → s = t := by
    rintro ⟨p, o, z⟩ ⟨p', o', z'⟩ ⟨rfl, rfl⟩ ⟨rfl, rfl⟩ rfl
    rfl
  rcases concatText_cases l with ⟨s, rfl, hs, e⟩ | e <;> rcases concatText_cases m with ⟨t, rfl, ht, e'⟩ | e' <;> rw [e, e'] at h
  · rw [whole s t hs ht h]
  · exact absurd (by rw [h]; simp) (hl s (by simp)).plain.2.2.1
  · exact absurd (by rw [← h]; simp) (hm t (by simp)).plain.2.2.1
  · simp only [List.cons.injEq, true_and] at h
    exact slicesText_inj hl hm (List.append_cancel_right h)

/-- C371.  A single whole signal is shown as its path and nothing else. -/
theorem C371_whole (p : Str) : concatText [⟨p, -1, -1⟩] = p := by simp [concatText]

example : concatText [⟨"a.b".toList, 3, 4⟩, ⟨"c".toList, -1, -1⟩] = "{a.b@[3 +: 4], c}".toList := by decide
example : (∀ s ∈ [(⟨"a.b".toList, 3, 4⟩ : Slice), ⟨"c".toList, -1, -1⟩], Proper s) := by
  intro s hs
  rcases List.mem_cons.1 hs with rfl | hs
  · exact ⟨by decide, by decide, .inr (by decide)⟩
  · rcases List.mem_cons.1 hs with rfl | hs
    · exact ⟨by decide, by decide, .inl (by decide)⟩
    · cases hs

end Verif.RegName
