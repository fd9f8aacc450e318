import Verif.Lemmas.SvText
/-! # Lemmas about `sformatf` -/
namespace Verif.SvText
open Verif.Text (Str)

/-- A message during the replacements: literal text, specifiers not yet replaced, and replaced ones. -/
inductive Q where
  | lit (s : Str) | pend (w : Str) | done (x : Str)

def Q.text : Q → Str
  | .lit s => s | .pend w => w | .done x => x

def render : List Q → Str
  | [] => []
  | q :: qs => q.text ++ render qs

def brace (w : Str) : Str := if w = "%h".toList ∨ w = "%0h".toList then "{:X}".toList else "{}".toList

def Q.ok : Q → Prop
  | .lit s => ∀ c ∈ s, c ≠ '%' ∧ c ≠ '{' ∧ c ≠ '}'
  | .pend w => w ∈ formatList
  | .done x => x = "{}".toList ∨ x = "{:X}".toList

def Q.sub (p : Str) : Q → Q
  | .pend w => if w = p then .done (brace w) else .pend w
  | q => q

theorem Q.sub_ok (p : Str) (q : Q) (h : q.ok) : (q.sub p).ok := by
  cases q with
  | lit s => exact h
  | done x => exact h
  | pend w =>
    simp only [Q.sub]
    split
    · simp only [Q.ok, brace]; split <;> simp
    · exact h

theorem replace_noPct (p b s t : Str) (hp : p.head? = some '%') (hs : '%' ∉ s) : replaceFrom p b 0 (s ++ t) = s ++ replaceFrom p b 0 t := by
  induction s with
  | nil => rfl
  | cons c s ih =>
    have hc : c ≠ '%' := fun h => hs (by simp [h])
    have : p.isPrefixOf (c :: (s ++ t)) = false := by
      cases p with
      | nil => simp at hp
      | cons a p =>
        simp only [List.head?_cons, Option.some.injEq] at hp
        subst hp
        simp [List.isPrefixOf, Ne.symm hc]
    rw [List.cons_append, replaceFrom, if_neg (by simp [this]), ih (fun h => hs (List.mem_cons_of_mem _ h))]
    rfl

theorem replace_skip (p b s t : Str) : replaceFrom p b s.length (s ++ t) = replaceFrom p b 0 t := by
  induction s with
  | nil => rfl
  | cons c s ih => exact ih

theorem formats_shape : ∀ w ∈ formatList, w.head? = some '%' ∧ '%' ∉ w.tail := by decide +kernel

theorem formats_free : ∀ p ∈ formatList, ∀ w ∈ formatList, w ≠ p → p.isPrefixOf w = false ∧ w.isPrefixOf p = false := by decide +kernel

theorem replace_spec (p b w t : Str) (hp : p ∈ formatList) (hw : w ∈ formatList) :
    replaceFrom p b 0 (w ++ t) = (if w = p then b else w) ++ replaceFrom p b 0 t := by
  obtain ⟨h1, h2⟩ := formats_shape w hw
  match w, h1, h2 with
  | a :: w', h1, h2 =>
    by_cases h : a :: w' = p
    · rw [if_pos h, List.cons_append, replaceFrom]
      have : p.isPrefixOf (a :: (w' ++ t)) = true := by
        rw [← h, List.isPrefixOf_iff_prefix]
        exact ⟨t, rfl⟩
      have hl : p.length - 1 = w'.length := by rw [← h]; simp
      rw [if_pos this, hl, replace_skip]
    · rw [if_neg h, List.cons_append, replaceFrom]
      have : p.isPrefixOf (a :: (w' ++ t)) = false := by
        rw [Bool.eq_false_iff, ne_eq, List.isPrefixOf_iff_prefix]
        intro hpre
        obtain ⟨f1, f2⟩ := formats_free p hp _ hw h
        have hpre' : p <+: (a :: w') ++ t := hpre
        rcases List.prefix_or_prefix_of_prefix hpre' (List.prefix_append _ t) with hh | hh
        · rw [← List.isPrefixOf_iff_prefix] at hh; simp [hh] at f1
        · rw [← List.isPrefixOf_iff_prefix] at hh; rw [hh] at f2; exact absurd f2 (by simp)
      rw [if_neg (by simp [this]), replace_noPct p b w' t (formats_shape p hp).1 h2]
      rfl

theorem replace_render (p : Str) (hp : p ∈ formatList) (qs : List Q) (hq : ∀ q ∈ qs, q.ok) :
    replaceFrom p (brace p) 0 (render qs) = render (qs.map (Q.sub p)) := by
  induction qs with
  | nil => rfl
  | cons q qs ih =>
    have ih := ih (fun q h => hq q (List.mem_cons_of_mem _ h))
    have hqo := hq q (List.mem_cons_self ..)
    simp only [render, List.map_cons]
    cases q with
    | lit s =>
      have : '%' ∉ s := fun h => (hqo _ h).1 rfl
      simp only [Q.text, Q.sub]
      rw [replace_noPct _ _ _ _ (formats_shape p hp).1 this, ih]
    | done x =>
      have : '%' ∉ x := by rcases hqo with rfl | rfl <;> decide
      simp only [Q.text, Q.sub]
      rw [replace_noPct _ _ _ _ (formats_shape p hp).1 this, ih]
    | pend w =>
      simp only [Q.text, Q.sub]
      rw [replace_spec p _ w _ hp hqo, ih]
      by_cases h : w = p
      · simp [h]
      · simp [h]

theorem formatRound_eq (msg s : Str) : formatRound msg s = replaceFrom s (brace s) 0 msg := by
  unfold formatRound brace replace
  split <;> rfl

theorem fold_render (fs : List Str) (hf : ∀ p ∈ fs, p ∈ formatList) (qs : List Q) (hq : ∀ q ∈ qs, q.ok) :
    fs.foldl formatRound (render qs) = render (qs.map fun q => fs.foldl (fun q p => q.sub p) q) := by
  induction fs generalizing qs with
  | nil => simp
  | cons p fs ih =>
    rw [List.foldl_cons, formatRound_eq, replace_render p (hf p (List.mem_cons_self ..)) qs hq, ih (fun p h => hf p (List.mem_cons_of_mem _ h))]
    · simp [List.map_map, Function.comp_def]
    · intro q h
      obtain ⟨q', h', rfl⟩ := List.mem_map.1 h
      exact Q.sub_ok p q' (hq q' h')

theorem fold_sub_done (fs : List Str) (x : Str) : fs.foldl (fun q p => q.sub p) (Q.done x) = .done x := by
  induction fs with
  | nil => rfl
  | cons p fs ih => exact ih

theorem fold_sub_lit (fs : List Str) (x : Str) : fs.foldl (fun q p => q.sub p) (Q.lit x) = .lit x := by
  induction fs with
  | nil => rfl
  | cons p fs ih => exact ih

theorem fold_sub_pend (fs : List Str) (w : Str) (h : w ∈ fs) : fs.foldl (fun q p => q.sub p) (Q.pend w) = .done (brace w) := by
  induction fs with
  | nil => simp at h
  | cons p fs ih =>
    rw [List.foldl_cons]
    by_cases hw : w = p
    · have : Q.sub p (Q.pend w) = .done (brace w) := by simp [Q.sub, hw]
      rw [this, fold_sub_done]
    · have : Q.sub p (Q.pend w) = .pend w := by simp [Q.sub, hw]
      rw [this]
      exact ih (by rcases List.mem_cons.1 h with h | h; exact absurd h hw; exact h)

/-! ## From the pieces -/

def Piece.q : Piece → Q
  | .lit s => .lit s
  | .show_ w => .pend w.toList

def Piece.out : Piece → Str
  | .lit s => s
  | .show_ w => brace w.toList

def outs : List Piece → Str
  | [] => []
  | p :: ps => p.out ++ outs ps

theorem specs_formats : ∀ w ∈ plainSpecs ++ hexSpecs, w.toList ∈ formatList := by decide +kernel

theorem specs_brace : (∀ w ∈ plainSpecs, brace w.toList = "{}".toList ∧ w ∉ hexSpecs) ∧ ∀ w ∈ hexSpecs, brace w.toList = "{:X}".toList := by
  decide +kernel

theorem Piece.q_ok (p : Piece) (h : p.ok) : p.q.ok := by
  cases p with
  | lit s => exact h
  | show_ w => exact specs_formats w (List.mem_append.2 h)

theorem written_render (ps : List Piece) : written ps = render (ps.map Piece.q) := by
  induction ps with
  | nil => rfl
  | cons p ps ih => cases p <;> simp [written, render, Piece.q, Q.text, ih]

theorem substituted_eq (ps : List Piece) (h : ∀ p ∈ ps, p.ok) : substituted (written ps) = outs ps := by
  unfold substituted
  rw [written_render, fold_render formatList (fun _ h => h) _ (by
    intro q hq
    obtain ⟨p, hp, rfl⟩ := List.mem_map.1 hq
    exact p.q_ok (h p hp))]
  induction ps with
  | nil => rfl
  | cons p ps ih =>
    have ih := ih (fun p hp => h p (List.mem_cons_of_mem _ hp))
    have hp := h p (List.mem_cons_self ..)
    simp only [List.map_cons, render, outs]
    rw [ih]
    congr 1
    cases p with
    | lit s => simp only [Piece.q, fold_sub_lit]; rfl
    | show_ w =>
      simp only [Piece.q]
      rw [fold_sub_pend _ _ (specs_formats w (List.mem_append.2 hp))]
      rfl

theorem prepend_text (p : Str) (o : Option Str) : (match o with | some s => Out.text s | none => Out.raised).prepend p = match o.map (p ++ ·) with | some s => Out.text s | none => Out.raised := by
  cases o <;> rfl

theorem prepend_append (p q : Str) (o : Out) : o.prepend (p ++ q) = (o.prepend q).prepend p := by
  cases o <;> simp [Out.prepend, List.append_assoc]

theorem prepend_nil (o : Out) : o.prepend [] = o := by cases o <;> rfl

theorem format_lit (args : List Arg) (i : Nat) (s t : Str) (h : ∀ c ∈ s, c ≠ '%' ∧ c ≠ '{' ∧ c ≠ '}') :
    format args i 0 (s ++ t) = (format args i 0 t).prepend s := by
  induction s with
  | nil => rw [prepend_nil]; rfl
  | cons c s ih =>
    have hc := h c (List.mem_cons_self ..)
    rw [List.cons_append, format, if_neg hc.2.1, if_neg hc.2.2, ih (fun c hc => h c (List.mem_cons_of_mem _ hc)), ← prepend_append]
    rfl

theorem format_plain (args : List Arg) (i : Nat) (t : Str) :
    format args i 0 ("{}".toList ++ t) = match args[i]? with | none => .raised | some a => (format args (i + 1) 0 t).prepend a.plain := by
  show format args i 0 ('{' :: '}' :: t) = _
  rw [format, if_pos rfl, if_neg (by simp [List.isPrefixOf]), if_pos (by simp [List.isPrefixOf])]
  cases args[i]? with
  | none => rfl
  | some a => rfl

theorem format_hex (args : List Arg) (i : Nat) (t : Str) :
    format args i 0 ("{:X}".toList ++ t) = match args[i]? with
      | none => .raised
      | some a => match a.hex with | none => .raised | some x => (format args (i + 1) 0 t).prepend x := by
  show format args i 0 ('{' :: ':' :: 'X' :: '}' :: t) = _
  rw [format, if_pos rfl, if_neg (by simp [List.isPrefixOf]), if_neg (by simp [List.isPrefixOf]), if_pos (by simp [List.isPrefixOf])]
  cases args[i]? with
  | none => rfl
  | some a => rfl

theorem format_outs (ps : List Piece) (h : ∀ p ∈ ps, p.ok) (args : List Arg) (i : Nat) :
    format args i 0 (outs ps) = match shown ps (args.drop i) with | some s => .text s | none => .raised := by
  induction ps generalizing i with
  | nil => rfl
  | cons p ps ih =>
    have ih := ih (fun p hp => h p (List.mem_cons_of_mem _ hp))
    have hp := h p (List.mem_cons_self ..)
    cases p with
    | lit s =>
      simp only [outs, Piece.out, shown]
      rw [format_lit _ _ _ _ hp, ih, prepend_text]
    | show_ w =>
      simp only [outs, Piece.out]
      have hd : args.drop i = match args[i]? with | none => [] | some a => a :: args.drop (i + 1) := by
        by_cases hi : i < args.length
        · rw [List.drop_eq_getElem_cons hi]; simp [hi]
        · rw [List.drop_eq_nil_of_le (by omega)]; simp [Nat.le_of_not_lt hi]
      rcases hp with hp | hp
      · obtain ⟨hb, hh⟩ := specs_brace.1 w hp
        rw [hb, format_plain, hd]
        cases ha : args[i]? with
        | none => rfl
        | some a =>
          simp only [shown, if_neg hh]
          rw [ih, prepend_text]
      · rw [specs_brace.2 w hp, format_hex, hd]
        cases ha : args[i]? with
        | none => rfl
        | some a =>
          simp only [shown, if_pos hp]
          cases hx : a.hex with
          | none => rfl
          | some x =>
            simp only [Option.bind_some]
            rw [ih, prepend_text]

end Verif.SvText
