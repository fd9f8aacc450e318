import Verif.Lemmas.SvFormat
/-! # C200–C204: scanning and formatting texts -/
namespace Verif.SvText
open Verif.Text (Str)

/-! ## C200: scanning -/

/-- Fields of the kinds asked for, one separator between two of them, give their values in order. -/
theorem C200_fields {ks : List Fmt} {text formats : Str} {vs : List Val} (hf : Asks ks formats) (ht : Fields ks text vs) :
    sscanf text formats = some vs := by
  unfold sscanf
  rw [getRegexList_asks hf]
  have := scan_fields ht [] []
  simpa using this

/-- What stands behind the last field and a separator does not matter. -/
theorem C200_tail {ks : List Fmt} {text formats : Str} {vs : List Val} (hf : Asks ks formats) (ht : Fields ks text vs) (c : Char) (r : Str)
    (hc : ¬ wordChar c) (hn : c ≠ '\n') : sscanf (text ++ c :: r) formats = some vs := by
  unfold sscanf
  rw [getRegexList_asks hf]
  exact scan_tail ht c r hc hn []

/-- When more fields are asked for than there are, nothing is returned. -/
theorem C200_short {ks more : List Fmt} {text formats : Str} {vs : List Val} (hf : Asks (ks ++ more) formats) (hm : more ≠ [])
    (ht : Fields ks text vs) : sscanf text formats = some [] := by
  unfold sscanf
  rw [getRegexList_asks hf]
  have := scan_fields ht more []
  simpa [hm] using this

/-- Numbers as they are usually written are read back: in decimal, hexadecimal, octal and binary. -/
theorem C200_numbers (n : Nat) :
    sscanf (Nat.toDigits 10 n) "%d".toList = some [.int n] ∧ sscanf ('0' :: 'x' :: Nat.toDigits 16 n) "%h".toList = some [.int n] ∧
    sscanf (Nat.toDigits 8 n) "%o".toList = some [.int n] ∧ sscanf (Nat.toDigits 2 n) "%b".toList = some [.int n] := by
  have a : ∀ k : Fmt, Asks [k] ['%', k.letter] := fun k => .next (l := []) (r := []) (by simp) (.done (by simp))
  exact ⟨C200_fields (a .d) (.one (.d (denotes_toDigits (by omega) (by omega) n))), C200_fields (a .h) (.one (.h (denotes_toDigits (by omega) (by omega) n))),
    C200_fields (a .o) (.one (.o (denotes_toDigits (by omega) (by omega) n))), C200_fields (a .b) (.one (.b (denotes_toDigits (by omega) (by omega) n)))⟩

/-- The hypotheses are met: a number, a word and a hexadecimal number. -/
example : Asks [.d, .s, .h] "%d,%s:%h".toList ∧ Fields [.d, .s, .h] "12,top_1:0xaF".toList [.int 12, .str "top_1".toList, .int 175] := by
  have d12 : Denotes 10 ("12".toList) 12 := .more (.one (d := 1) ⟨by omega, .inl rfl⟩ (by omega)) (d := 2) ⟨by omega, .inl rfl⟩ (by omega)
  have daF : Denotes 16 ("aF".toList) 175 := .more (.one (d := 10) ⟨by omega, .inl rfl⟩ (by omega)) (d := 15) ⟨by omega, .inr (by decide)⟩ (by omega)
  constructor
  · exact .next (l := []) (by simp) (.next (l := [',']) (by simp) (.next (l := [':']) (by simp) (.done (l := []) (by simp))))
  · refine .cons (s := "12".toList) (.d d12) (c := ',') (by simp [wordChar]) (by decide) ?_
    refine .cons (s := "top_1".toList) (.s (by decide) ?_) (c := ':') (by simp [wordChar]) (by decide) (.one (.h daF))
    intro c hc
    have : c = 't' ∨ c = 'o' ∨ c = 'p' ∨ c = '_' ∨ c = '1' := by simpa using hc
    rcases this with rfl | rfl | rfl | rfl | rfl <;> simp [wordChar] <;> decide

example : sscanf "12,top_1:0xaF and more".toList "%d,%s:%h".toList = some [.int 12, .str "top_1".toList, .int 175] := by decide +kernel

/-! ## C201: signs, blanks and underscores -/

/-- The sign of a negative number is lost. -/
theorem C201_sign_fails {s : Str} {n : Nat} (h : Denotes 10 s n) : sscanf ('-' :: s) "%d".toList = some [.int n] := by
  unfold sscanf
  have : getRegexList "%d".toList = some [.d] := by decide
  rw [this]
  simp only
  have hs := h.ne
  rw [scanLoop]
  have e1 : full .d ([] ++ ['-']) = false := by decide
  simp only [e1, Bool.false_eq_true, if_false, ne_eq, not_true_eq_false]
  rw [if_neg (by decide)]
  have := scan_run .d [] s ['-'] [] [] [] (by
    intro p q hpq hp
    have hm : ∀ c ∈ p, ∃ d, IsDigit c d ∧ d < 10 := fun c hc => h.mem c (by rw [hpq]; exact List.mem_append_left _ hc)
    exact some1_mem.2 ⟨hp, fun c hc => by obtain ⟨d, hd, hl⟩ := hm c hc; exact (isDigit_class hd).1 hl⟩)
  rw [List.append_nil] at this
  show scanLoop [Fmt.d] ['-'] [] [] s = _
  rw [this, scanLoop]
  simp [hs, conv, h.pyInt]

/-- A hexadecimal number behind two separators is not found; a lone underscore raises an exception. -/
theorem C201_blank_fails : sscanf "12, 0x1f".toList "%d, %h".toList = some [] ∧ sscanf "_".toList "%d".toList = none := by decide +kernel

/-- Numbers that are not negative are read as they are, whatever stands after them. -/
theorem C201_partial {s : Str} {n : Nat} (h : Denotes 10 s n) (c : Char) (r : Str) (hc : ¬ wordChar c) (hn : c ≠ '\n') :
    sscanf s "%d".toList = some [.int n] ∧ sscanf (s ++ c :: r) "%d".toList = some [.int n] := by
  have a : Asks [.d] "%d".toList := .next (l := []) (r := []) (by simp) (.done (by simp))
  exact ⟨C200_fields a (.one (.d h)), C200_tail a (.one (.d h)) c r hc hn⟩

example : Denotes 10 "5".toList 5 ∧ sscanf "-5".toList "%d".toList = some [.int 5] :=
  ⟨.one (d := 5) ⟨by omega, .inl rfl⟩ (by omega), by decide +kernel⟩

/-! ## C202: formatting -/

/-- A message without braces shows its arguments in order at its specifiers, `%h` in hexadecimal; it raises an exception
exactly when there are too few of them or one to be shown in hexadecimal is not an integer. -/
theorem C202_sformatf (ps : List Piece) (h : ∀ p ∈ ps, p.ok) (args : List Arg) :
    sformatf (written ps) args = match shown ps args with | some s => .text s | none => .raised := by
  unfold sformatf
  rw [substituted_eq ps h, format_outs ps h args 0]
  rfl

example : (∀ p ∈ [Piece.lit "a=".toList, .show_ "%0d", .lit ", 0x".toList, .show_ "%0h"], p.ok) ∧
    sformatf "a=%0d, 0x%0h".toList [⟨"7".toList, some "7".toList⟩, ⟨"255".toList, some "FF".toList⟩] = .text "a=7, 0xFF".toList := by
  constructor
  · intro p hp
    simp only [List.mem_cons, List.not_mem_nil, or_false] at hp
    rcases hp with rfl | rfl | rfl | rfl
    · simp [Piece.ok]
    · exact .inl (by decide)
    · simp [Piece.ok]
    · exact .inr (by decide)
  · decide +kernel

/-! ## C203: the radix of shown numbers -/

/-- A number as an argument: `{}` shows it in decimal, `{:X}` in hexadecimal. -/
def natArg (n : Nat) : Arg := ⟨Nat.toDigits 10 n, some ((Nat.toDigits 16 n).map Char.toUpper)⟩

/-- `%x`, `%b` and `%0b` show every number in decimal. -/
theorem C203_radix_fails (n : Nat) (w : String) (hw : w = "%x" ∨ w = "%b" ∨ w = "%0b") :
    sformatf w.toList [natArg n] = .text (Nat.toDigits 10 n) := by
  have := C202_sformatf [.show_ w] (by
    intro p hp
    simp only [List.mem_singleton] at hp
    subst hp
    rcases hw with rfl | rfl | rfl <;> exact .inl (by decide)) [natArg n]
  simp only [written, List.append_nil] at this
  rw [this]
  have hh : w ∉ hexSpecs := by rcases hw with rfl | rfl | rfl <;> decide
  simp [shown, hh, natArg]

/-- `%h` and `%0h` show every number in hexadecimal, `%d` and `%0d` in decimal. -/
theorem C203_partial (n : Nat) (w : String) :
    ((w = "%h" ∨ w = "%0h") → sformatf w.toList [natArg n] = .text ((Nat.toDigits 16 n).map Char.toUpper)) ∧
    ((w = "%d" ∨ w = "%0d") → sformatf w.toList [natArg n] = .text (Nat.toDigits 10 n)) := by
  constructor
  · intro hw
    have := C202_sformatf [.show_ w] (by
      intro p hp
      simp only [List.mem_singleton] at hp
      subst hp
      rcases hw with rfl | rfl <;> exact .inr (by decide)) [natArg n]
    simp only [written, List.append_nil] at this
    rw [this]
    have hh : w ∈ hexSpecs := by rcases hw with rfl | rfl <;> decide
    simp [shown, hh, natArg]
  · intro hw
    have := C202_sformatf [.show_ w] (by
      intro p hp
      simp only [List.mem_singleton] at hp
      subst hp
      rcases hw with rfl | rfl <;> exact .inl (by decide)) [natArg n]
    simp only [written, List.append_nil] at this
    rw [this]
    have hh : w ∉ hexSpecs := by rcases hw with rfl | rfl <;> decide
    simp [shown, hh, natArg]

example : sformatf "%x".toList [natArg 255] = .text "255".toList ∧ sformatf "%h".toList [natArg 255] = .text "FF".toList := by decide +kernel

/-! ## C204: braces in messages -/

/-- A text without a percent sign is left alone by the replacements. -/
theorem substituted_noPct (s : Str) (h : '%' ∉ s) : substituted s = s := by
  have : ∀ fs : List Str, (∀ p ∈ fs, p ∈ formatList) → fs.foldl formatRound s = s := by
    intro fs
    induction fs with
    | nil => intros; rfl
    | cons p fs ih =>
      intro hf
      have := replace_noPct p (brace p) s [] (formats_shape p (hf p (List.mem_cons_self ..))).1 h
      rw [List.foldl_cons, formatRound_eq]
      rw [List.append_nil] at this
      rw [this]
      simpa [replaceFrom] using ih (fun p hp => hf p (List.mem_cons_of_mem _ hp))
  exact this formatList (fun _ h => h)

/-- A message with one brace raises an exception, whatever the arguments. -/
theorem C204_brace_fails (s t : Str) (hs : ∀ c ∈ s ++ t, c ≠ '%' ∧ c ≠ '{' ∧ c ≠ '}') (b : Char) (hb : b = '{' ∨ b = '}') (args : List Arg) :
    sformatf (s ++ b :: t) args = .raised := by
  have hnp : '%' ∉ s ++ b :: t := by
    intro h
    rcases List.mem_append.1 h with h | h
    · exact (hs _ (List.mem_append_left _ h)).1 rfl
    · rcases List.mem_cons.1 h with h | h
      · rcases hb with rfl | rfl <;> simp at h
      · exact (hs _ (List.mem_append_right _ h)).1 rfl
  unfold sformatf
  rw [substituted_noPct _ hnp, format_lit _ _ _ _ (fun c hc => hs c (List.mem_append_left _ hc))]
  have ht : ∀ c ∈ t, c ≠ '{' ∧ c ≠ '}' := fun c hc => (hs c (List.mem_append_right _ hc)).2
  have hpre : ∀ (a : Char) (l : Str), (a = '{' ∨ a = '}' ∨ '}' ∈ a :: l) → (a :: l).isPrefixOf t = true → False := by
    intro a l ha hp
    rw [List.isPrefixOf_iff_prefix] at hp
    rcases ha with h | h | h
    · exact (ht a (hp.subset (List.mem_cons_self ..))).1 h
    · exact (ht a (hp.subset (List.mem_cons_self ..))).2 h
    · exact (ht '}' (hp.subset h)).2 rfl
  have : format args 0 0 (b :: t) = .raised := by
    rcases hb with rfl | rfl
    · rw [format, if_pos rfl, if_neg (c := "{".toList.isPrefixOf t = true) (fun h => hpre '{' [] (.inl rfl) h), if_neg (c := "}".toList.isPrefixOf t = true) (fun h => hpre '}' [] (.inr (.inl rfl)) h),
        if_neg (c := ":X}".toList.isPrefixOf t = true) (fun h => hpre ':' ['X', '}'] (by simp) h), if_neg (fun h => (ht _ h).2 rfl)]
    · rw [format, if_neg (by decide), if_pos rfl, if_neg (c := "}".toList.isPrefixOf t = true) (fun h => hpre '}' [] (.inr (.inl rfl)) h)]
  rw [this]
  rfl

/-- An empty pair of braces takes the argument of the specifier after it. -/
theorem C204_pair_fails (a b : Arg) : sformatf "{} %s".toList [a, b] = .text (a.plain ++ [' '] ++ b.plain) ∧ sformatf "{} %s".toList [a] = .raised := by
  have e : substituted "{} %s".toList = '{' :: '}' :: ' ' :: '{' :: '}' :: [] := by decide +kernel
  unfold sformatf
  rw [e]
  constructor <;> simp [format, List.isPrefixOf, Out.prepend]

/-- Messages without braces and percent signs are returned as they are. -/
theorem C204_partial (s : Str) (h : ∀ c ∈ s, c ≠ '%' ∧ c ≠ '{' ∧ c ≠ '}') (args : List Arg) : sformatf s args = .text s := by
  have := C202_sformatf [.lit s] (by intro p hp; simp only [List.mem_singleton] at hp; subst hp; exact h) args
  simpa [written, shown] using this

example : ∀ args, sformatf "begin {".toList args = .raised := by
  intro args
  have := C204_brace_fails "begin ".toList [] (by decide +kernel) '{' (.inl rfl) args
  exact this

end Verif.SvText
