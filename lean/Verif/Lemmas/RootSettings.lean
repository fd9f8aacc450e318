import Verif.Spec.RootSettings
import Verif.Lemmas.SvText
import Verif.Lemmas.Text
import Verif.Props.Cmdline
/-! # Lemmas about settings from the command line -/
namespace Verif.RootSettings
open Verif.Text (Str splitOn splitOn_word splitOn_append)
open Verif.SvText (Denotes IsDigit isDigit_val isDigit_plain isDigit_prefix pyInt)
open Verif.Cmdline (Proc getArgValues remainder C46_values)
open Verif.Report (Handler HOp hstep newHandler)

theorem digit_quote {c : Char} {d : Nat} (h : IsDigit c d) : c ≠ '\'' ∧ c ≠ ',' :=
  SvText.isDigit_cases (P := fun c _ => c ≠ '\'' ∧ c ≠ ',') (by decide +kernel) h

theorem digit_b {c : Char} {d : Nat} (h : IsDigit c d) (hd : d < 10) : c ≠ 'b' := by
  have := SvText.isDigit_cases (P := fun c d => d < 10 → c ≠ 'b') (by decide +kernel) h
  exact this hd

theorem Denotes.noComma {b : Nat} {s : Str} {n : Nat} (h : Denotes b s n) : ',' ∉ s := by
  intro hm
  obtain ⟨d, hd, _⟩ := h.mem ',' hm
  exact (digit_quote hd).2 rfl

theorem len_pos {b : Nat} {s : Str} {n : Nat} (h : Denotes b s n) : 0 < s.length := List.length_pos_iff.2 h.ne

theorem cfgInt_plain {s : Str} (a c : Char) (r : Str) (hs : s = a :: c :: r) (h1 : a ≠ '\'') (h2 : c ≠ 'b') (h3 : c ≠ 'x') : cfgInt s = pyInt 10 s := by
  subst hs
  unfold cfgInt
  by_cases h : (a :: c :: r).length > 2
  · rw [if_pos h]
    simp [h1, h2, h3]
  · rw [if_neg h]

theorem cfgInt_numeral {s : Str} {n : Int} (h : Numeral s n) : cfgInt s = some n := by
  cases h with
  | dec h =>
    rename_i n
    match s, h with
    | [], h => exact absurd rfl h.ne
    | [a], h => unfold cfgInt; rw [if_neg (by simp)]; exact h.pyInt
    | a :: c :: r, h =>
      obtain ⟨d, hd, hl⟩ := h.mem a (by simp)
      obtain ⟨e, he, hel⟩ := h.mem c (by simp)
      rw [cfgInt_plain a c r rfl (digit_quote hd).1 (digit_b he hel) (isDigit_prefix he).2.2.1]
      exact h.pyInt
  | neg h =>
    rename_i s n
    match s, h with
    | [], h => exact absurd rfl h.ne
    | c :: r, h =>
      obtain ⟨e, he, hel⟩ := h.mem c (by simp)
      rw [cfgInt_plain '-' c r rfl (by decide) (digit_b he hel) (isDigit_prefix he).2.2.1]
      exact h.pyInt_neg
  | bin hb h =>
    have hl := len_pos h
    unfold cfgInt
    rcases hb with rfl | rfl
    · rw [if_pos (by simp; omega)]; exact h.pyInt
    · rw [if_pos (by simp; omega)]; exact h.pyInt
  | oct h =>
    have hl := len_pos h
    unfold cfgInt
    rw [if_pos (by simp; omega)]; exact h.pyInt
  | dec' h =>
    have hl := len_pos h
    unfold cfgInt
    rw [if_pos (by simp; omega)]; exact h.pyInt
  | hex hb h =>
    have hl := len_pos h
    unfold cfgInt
    rcases hb with rfl | rfl | rfl
    · rw [if_pos (by simp; omega)]; exact h.pyInt
    · rw [if_pos (by simp; omega)]; exact h.pyInt
    · rw [if_pos (by simp; omega)]; exact h.pyInt

theorem numeral_noComma {s : Str} {n : Int} (h : Numeral s n) : ',' ∉ s := by
  cases h with
  | dec h => exact Denotes.noComma h
  | neg h => simp [Denotes.noComma h]
  | bin hb h => rcases hb with rfl | rfl <;> simp [Denotes.noComma h]
  | oct h => simp [Denotes.noComma h]
  | dec' h => simp [Denotes.noComma h]
  | hex hb h => rcases hb with rfl | rfl | rfl <;> simp [Denotes.noComma h]

theorem split3 {c f t : Str} (hc : ',' ∉ c) (hf : ',' ∉ f) (ht : ',' ∉ t) : splitOn ',' (c ++ ',' :: (f ++ ',' :: t)) = [c, f, t] := by
  rw [splitOn_append _ _ _ hc, splitOn_append _ _ _ hf, splitOn_word _ _ ht]

/-- How an argument beginning with a name is sorted and cut. -/
theorem int_named (name : String) (hn : name = "+uvm_set_config_int=" ∨ name = "+UVM_SET_CONFIG_INT=") (r : Str) :
    ("+UVM_SET_CONFIG_INT".toList.isPrefixOf (name.toList ++ r) || "+uvm_set_config_int".toList.isPrefixOf (name.toList ++ r)) = true ∧
    ("+UVM_SET_CONFIG_STRING".toList.isPrefixOf (name.toList ++ r) || "+uvm_set_config_string".toList.isPrefixOf (name.toList ++ r)) = false ∧
    (name.toList ++ r).drop 20 = r := by
  rcases hn with rfl | rfl <;> simp [List.isPrefixOf]

theorem str_named (name : String) (hn : name = "+uvm_set_config_string=" ∨ name = "+UVM_SET_CONFIG_STRING=") (r : Str) :
    ("+UVM_SET_CONFIG_INT".toList.isPrefixOf (name.toList ++ r) || "+uvm_set_config_int".toList.isPrefixOf (name.toList ++ r)) = false ∧
    ("+UVM_SET_CONFIG_STRING".toList.isPrefixOf (name.toList ++ r) || "+uvm_set_config_string".toList.isPrefixOf (name.toList ++ r)) = true ∧
    (name.toList ++ r).drop 23 = r := by
  rcases hn with rfl | rfl <;> simp [List.isPrefixOf]

theorem unrelated_named (a : Str) (h : Unrelated a) :
    ("+UVM_SET_CONFIG_INT".toList.isPrefixOf a || "+uvm_set_config_int".toList.isPrefixOf a) = false ∧
    ("+UVM_SET_CONFIG_STRING".toList.isPrefixOf a || "+uvm_set_config_string".toList.isPrefixOf a) = false := by
  have h' : ∀ name ∈ ["+uvm_set_config_int", "+UVM_SET_CONFIG_INT", "+uvm_set_config_string", "+UVM_SET_CONFIG_STRING"], name.toList.isPrefixOf a = false := by
    intro name hn
    rw [Bool.eq_false_iff, ne_eq, List.isPrefixOf_iff_prefix]
    exact h name hn
  rw [h' "+UVM_SET_CONFIG_INT" (by simp), h' "+uvm_set_config_int" (by simp), h' "+UVM_SET_CONFIG_STRING" (by simp), h' "+uvm_set_config_string" (by simp)]
  simp

def intPart (argv : List Str) : List Cfg := (argsNamed "+UVM_SET_CONFIG_INT" "+uvm_set_config_int" argv).map fun a => processConfig (a.drop 20) true
def strPart (argv : List Str) : List Cfg := (argsNamed "+UVM_SET_CONFIG_STRING" "+uvm_set_config_string" argv).map fun a => processConfig (a.drop 23) false

theorem doConfig_parts (argv : List Str) : doConfigSettings argv = processAll (intPart argv ++ strPart argv) := rfl

theorem parts_cons (a : Str) (as : List Str) :
    intPart (a :: as) = (if ("+UVM_SET_CONFIG_INT".toList.isPrefixOf a || "+uvm_set_config_int".toList.isPrefixOf a) = true then [processConfig (a.drop 20) true] else []) ++ intPart as ∧
    strPart (a :: as) = (if ("+UVM_SET_CONFIG_STRING".toList.isPrefixOf a || "+uvm_set_config_string".toList.isPrefixOf a) = true then [processConfig (a.drop 23) false] else []) ++ strPart as := by
  constructor
  · simp only [intPart, argsNamed, List.filter_cons]
    split <;> rfl
  · simp only [strPart, argsNamed, List.filter_cons]
    split <;> rfl

theorem processAll_append {l m : List Cfg} (h : .raised ∉ l) : processAll (l ++ m) = l ++ processAll m := by
  induction l with
  | nil => rfl
  | cons c l ih =>
    have ih := ih (fun h' => h (List.mem_cons_of_mem _ h'))
    cases c with
    | raised => simp at h
    | set => simp [processAll, ih]
    | error => simp [processAll, ih]

theorem processAll_id {l : List Cfg} (h : .raised ∉ l) : processAll l = l := by
  have := processAll_append (m := []) h
  simpa [processAll] using this

theorem line_parts {argv : List Str} {is ss : List Cfg} (h : Line argv is ss) : intPart argv = is ∧ strPart argv = ss ∧ .raised ∉ is ∧ .raised ∉ ss := by
  induction h with
  | nil => exact ⟨rfl, rfl, by simp, by simp⟩
  | int ha _ ih =>
    obtain ⟨name, t, hn, hc, hf, ht, rfl⟩ := ha
    obtain ⟨h1, h2, h3⟩ := int_named name hn _
    obtain ⟨p1, p2⟩ := parts_cons _ _
    rw [p1, p2, h1, h2, h3, ih.1, ih.2.1]
    refine ⟨?_, by simp, by simp [ih.2.2.1], ih.2.2.2⟩
    simp [processConfig, split3 hc hf (numeral_noComma ht), cfgInt_numeral ht]
  | str ha _ ih =>
    obtain ⟨name, hn, hc, hf, ht, rfl⟩ := ha
    obtain ⟨h1, h2, h3⟩ := str_named name hn _
    obtain ⟨p1, p2⟩ := parts_cons _ _
    rw [p1, p2, h1, h2, h3, ih.1, ih.2.1]
    refine ⟨by simp, ?_, ih.2.2.1, by simp [ih.2.2.2]⟩
    simp [processConfig, split3 hc hf ht]
  | other ha _ ih =>
    obtain ⟨h1, h2⟩ := unrelated_named _ ha
    obtain ⟨p1, p2⟩ := parts_cons _ _
    rw [p1, p2, h1, h2, ih.1, ih.2.1]
    exact ⟨by simp, by simp, ih.2.2.1, ih.2.2.2⟩

theorem first_value {p : Proc} {m v : Str} (h : First p.argv m v) : ∃ r, (getArgValues p m []).2 = v :: r := by
  obtain ⟨l, r, he, hl⟩ := h
  rw [C46_values, he]
  simp only [List.filterMap_append]
  have : l.filterMap (remainder m) = [] := by
    rw [List.filterMap_eq_nil_iff]
    intro a ha
    simp [remainder, hl a ha]
  rw [this]
  refine ⟨r.filterMap (remainder m), ?_⟩
  simp [remainder]

theorem no_value {p : Proc} {m : Str} (h : ∀ a ∈ p.argv, ¬ m <+: a) : (getArgValues p m []).2 = [] := by
  rw [C46_values]
  simp only [List.filterMap_eq_nil_iff]
  intro a ha
  simp [remainder, h a ha]

/-! ## The tree of components -/

structure Tree (s : Comps) : Prop where
  lt : ∀ p x, x ∈ s.kids p → p < x ∧ x < s.next
  one : ∀ p q x, x ∈ s.kids p → x ∈ s.kids q → p = q
  nodup : ∀ p, (s.kids p).Nodup

theorem Tree.root (v : Int) : Tree (root v) :=
  ⟨by simp [RootSettings.root], by simp [RootSettings.root], by simp [RootSettings.root]⟩

theorem Tree.step {s : Comps} (h : Tree s) (op : Op) : Tree (step s op) := by
  cases op with
  | hier c op => simp only [RootSettings.step]; split <;> exact ⟨h.lt, h.one, h.nodup⟩
  | one c op => simp only [RootSettings.step]; split <;> exact ⟨h.lt, h.one, h.nodup⟩
  | new p =>
    simp only [RootSettings.step]
    split
    · rename_i hp
      have key : ∀ q x, x ∈ (if q = p then s.kids q ++ [s.next] else s.kids q) ↔ x ∈ s.kids q ∨ (q = p ∧ x = s.next) := by
        intro q x
        by_cases hq : q = p <;> simp [hq]
      refine ⟨?_, ?_, ?_⟩
      · intro q x hx
        rcases (key q x).1 hx with hx | ⟨rfl, rfl⟩
        · have := h.lt q x hx
          exact ⟨this.1, Nat.lt_succ_of_lt this.2⟩
        · exact ⟨hp, Nat.lt_succ_self _⟩
      · intro q q' x hx hx'
        rcases (key q x).1 hx with k | ⟨k1, k2⟩
        · rcases (key q' x).1 hx' with k' | ⟨k1', k2'⟩
          · exact h.one q q' x k k'
          · have := (h.lt q x k).2; omega
        · rcases (key q' x).1 hx' with k' | ⟨k1', k2'⟩
          · have := (h.lt q' x k').2; omega
          · exact k1.trans k1'.symm
      · intro q
        show (if q = p then s.kids q ++ [s.next] else s.kids q).Nodup
        by_cases hq : q = p
        · rw [if_pos hq, List.nodup_append]
          refine ⟨h.nodup q, by simp, ?_⟩
          intro a ha b hb
          simp only [List.mem_singleton] at hb
          have := (h.lt q a ha).2
          omega
        · rw [if_neg hq]; exact h.nodup q
    · exact h

theorem Desc.le {s : Comps} (ht : Tree s) {c d : Nat} (h : Desc s.kids c d) : c ≤ d := by
  induction h with
  | refl => exact Nat.le_refl _
  | step _ hx ih => have := (ht.lt _ _ hx).1; omega

theorem Desc.trans {kids : Nat → List Nat} {a b c : Nat} (h : Desc kids a b) (h' : Desc kids b c) : Desc kids a c := by
  induction h' with
  | refl => exact h
  | step _ hx ih => exact .step ih hx

theorem desc_iff {kids : Nat → List Nat} {c d : Nat} : Desc kids c d ↔ d = c ∨ ∃ x ∈ kids c, Desc kids x d := by
  constructor
  · intro h
    induction h with
    | refl => exact .inl rfl
    | step _ hx ih =>
      rcases ih with rfl | ⟨y, hy, hd⟩
      · exact .inr ⟨_, hx, .refl⟩
      · exact .inr ⟨y, hy, .step hd hx⟩
  · rintro (rfl | ⟨x, hx, hd⟩)
    · exact .refl
    · exact Desc.trans (.step .refl hx) hd

theorem desc_comparable {s : Comps} (ht : Tree s) {x y d : Nat} (hx : Desc s.kids x d) (hy : Desc s.kids y d) : Desc s.kids x y ∨ Desc s.kids y x := by
  induction hx with
  | refl => exact .inr hy
  | step hp hd ih =>
    cases hy with
    | refl => exact .inl (.step hp hd)
    | step hq hd' =>
      have := ht.one _ _ _ hd hd'
      subst this
      exact ih hq

theorem siblings {s : Comps} (ht : Tree s) {c x y d : Nat} (hx : x ∈ s.kids c) (hy : y ∈ s.kids c) (h1 : Desc s.kids x d) (h2 : Desc s.kids y d) : x = y := by
  have key : ∀ {x y}, x ∈ s.kids c → y ∈ s.kids c → Desc s.kids x y → x = y := by
    intro x y hx hy h
    cases h with
    | refl => rfl
    | step hp hm =>
      have := ht.one _ _ _ hy hm
      subst this
      have h1 := Desc.le ht hp
      have h2 := (ht.lt _ _ hx).1
      omega
  rcases desc_comparable ht h1 h2 with h | h
  · exact key hx hy h
  · exact (key hy hx h).symm

open Classical in
/-- The effect of a hierarchical setting. -/
theorem hier_eq {s : Comps} (ht : Tree s) (op : HOp) : ∀ (n c : Nat) (h : Nat → Handler), s.next ≤ c + n → c < s.next →
    hier op s.kids n c h = some fun d => if Desc s.kids c d then hstep (h d) op else h d := by
  intro n
  induction n with
  | zero => intro c h h1 h2; omega
  | succ n ih =>
    intro c h h1 h2
    rw [hier]
    have key : ∀ (l : List Nat) (g : Nat → Handler), (∀ x ∈ l, x ∈ s.kids c) → l.Nodup →
        l.foldl (fun acc d => acc.bind fun h => hier op s.kids n d h) (some g) =
          some fun d => if ∃ x ∈ l, Desc s.kids x d then hstep (g d) op else g d := by
      intro l
      induction l with
      | nil => intro g _ _; simp
      | cons x l ihl =>
        intro g hl hn
        have hx := hl x (List.mem_cons_self ..)
        have hxl := ht.lt _ _ hx
        rw [List.foldl_cons]
        simp only [Option.bind_some]
        rw [ih x g (by omega) hxl.2, ihl _ (fun y hy => hl y (List.mem_cons_of_mem _ hy)) (List.nodup_cons.1 hn).2]
        congr 1
        funext d
        by_cases hd : Desc s.kids x d
        · have hno : ¬ ∃ y ∈ l, Desc s.kids y d := by
            rintro ⟨y, hy, hyd⟩
            have := siblings ht hx (hl y (List.mem_cons_of_mem _ hy)) hd hyd
            subst this
            exact (List.nodup_cons.1 hn).1 hy
          have hyes : ∃ y ∈ x :: l, Desc s.kids y d := ⟨x, List.mem_cons_self .., hd⟩
          rw [if_neg hno, if_pos hyes, if_pos hd]
        · by_cases he : ∃ y ∈ l, Desc s.kids y d
          · have hyes : ∃ y ∈ x :: l, Desc s.kids y d := by
              obtain ⟨y, hy, hyd⟩ := he
              exact ⟨y, List.mem_cons_of_mem _ hy, hyd⟩
            rw [if_pos he, if_pos hyes, if_neg hd]
          · have hno : ¬ ∃ y ∈ x :: l, Desc s.kids y d := by
              rintro ⟨y, hy, hyd⟩
              rcases List.mem_cons.1 hy with rfl | hy
              · exact hd hyd
              · exact he ⟨y, hy, hyd⟩
            rw [if_neg he, if_neg hno, if_neg hd]
    rw [key _ _ (fun _ h => h) (ht.nodup c)]
    congr 1
    funext d
    by_cases hd : d = c
    · subst hd
      have hno : ¬ ∃ x ∈ s.kids d, Desc s.kids x d := by
        rintro ⟨x, hx, hxd⟩
        have h1 := (ht.lt _ _ hx).1
        have h2 := Desc.le ht hxd
        omega
      rw [if_neg hno, if_pos .refl]
      simp [setH]
    · by_cases he : ∃ x ∈ s.kids c, Desc s.kids x d
      · rw [if_pos he, if_pos (desc_iff.2 (.inr he))]
        simp [setH, hd]
      · have hno : ¬ Desc s.kids c d := fun h => by
          rcases desc_iff.1 h with h | h
          · exact hd h
          · exact he h
        rw [if_neg he, if_neg hno]
        simp [setH, hd]

end Verif.RootSettings
