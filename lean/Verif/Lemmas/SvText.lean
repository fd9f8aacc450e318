import Verif.Spec.SvText
/-! # Lemmas about numerals, scanning and formatting -/
namespace Verif.SvText
open Verif.Text (Str)

theorem isDigit_cases {P : Char → Nat → Prop} (h : ∀ d : Fin 16, P d.val.digitChar d ∧ P d.val.digitChar.toUpper d) {c : Char} {d : Nat}
    (hc : IsDigit c d) : P c d := by
  obtain ⟨hd, rfl | rfl⟩ := hc
  · exact (h ⟨d, hd⟩).1
  · exact (h ⟨d, hd⟩).2

theorem isDigit_val {c : Char} {d : Nat} (hc : IsDigit c d) : digitVal c = some d :=
  isDigit_cases (P := fun c d => digitVal c = some d) (by decide +kernel) hc

theorem isDigit_plain {c : Char} {d : Nat} (hc : IsDigit c d) : c ≠ '_' ∧ c ≠ '-' ∧ c ≠ '+' ∧ isSpace c = false :=
  isDigit_cases (P := fun c _ => c ≠ '_' ∧ c ≠ '-' ∧ c ≠ '+' ∧ isSpace c = false) (by decide +kernel) hc

theorem isDigit_class {c : Char} {d : Nat} (hc : IsDigit c d) :
    (d < 10 → isDec c = true) ∧ (d < 8 → isOct c = true) ∧ (d < 2 → isBin c = true) ∧ isHex c = true ∧ wordChar c := by
  have : (d < 10 → isDec c = true) ∧ (d < 8 → isOct c = true) ∧ (d < 2 → isBin c = true) ∧ isHex c = true ∧ c.isAlphanum = true :=
    isDigit_cases (P := fun c d => (d < 10 → isDec c = true) ∧ (d < 8 → isOct c = true) ∧ (d < 2 → isBin c = true) ∧ isHex c = true ∧ c.isAlphanum = true)
      (by decide +kernel) hc
  exact ⟨this.1, this.2.1, this.2.2.1, this.2.2.2.1, .inl this.2.2.2.2⟩

theorem isDigit_prefix {c : Char} {d : Nat} (hc : IsDigit c d) :
    (d < 2 → c ≠ 'b' ∧ c ≠ 'B') ∧ (d < 8 → c ≠ 'o' ∧ c ≠ 'O') ∧ c ≠ 'x' ∧ c ≠ 'X' :=
  isDigit_cases (P := fun c d => (d < 2 → c ≠ 'b' ∧ c ≠ 'B') ∧ (d < 8 → c ≠ 'o' ∧ c ≠ 'O') ∧ c ≠ 'x' ∧ c ≠ 'X') (by decide +kernel) hc

theorem Denotes.ne {base : Nat} {s : Str} {n : Nat} (h : Denotes base s n) : s ≠ [] := by
  cases h <;> simp

theorem Denotes.mem {base : Nat} {s : Str} {n : Nat} (h : Denotes base s n) : ∀ c ∈ s, ∃ d, IsDigit c d ∧ d < base := by
  induction h with
  | one hc hd => intro c h; simp only [List.mem_singleton] at h; subst h; exact ⟨_, hc, hd⟩
  | more _ hc hd ih =>
    intro c h
    rcases List.mem_append.1 h with h | h
    · exact ih c h
    · simp only [List.mem_singleton] at h; subst h; exact ⟨_, hc, hd⟩

theorem Denotes.digits {base : Nat} {s : Str} {n : Nat} (h : Denotes base s n) (u : Bool) (t : Str) :
    digits base 0 u (s ++ t) = digits base n false t := by
  induction h generalizing u t with
  | one hc hd =>
    simp [SvText.digits, (isDigit_plain hc).1, isDigit_val hc, hd]
  | more _ hc hd ih =>
    rw [List.append_assoc, ih]
    simp [SvText.digits, (isDigit_plain hc).1, isDigit_val hc, hd]

theorem strip_id {s : Str} (h : ∀ c ∈ s, isSpace c = false) : strip s = s := by
  have d : ∀ l : Str, (∀ c ∈ l, isSpace c = false) → l.dropWhile isSpace = l := by
    intro l hl
    cases l with
    | nil => rfl
    | cons a r => simp [List.dropWhile, hl a (List.mem_cons_self ..)]
  unfold strip
  rw [d s h, d s.reverse (fun c hc => h c (List.mem_reverse.1 hc)), List.reverse_reverse]

theorem Denotes.dropPrefix {base : Nat} {s : Str} {n : Nat} (h : Denotes base s n) : dropPrefix base s = s := by
  have hm := h.mem
  unfold SvText.dropPrefix
  split
  · rename_i c r
    obtain ⟨d, hc, hd⟩ := hm c (by simp)
    have hp := isDigit_prefix hc
    rw [if_neg]
    rintro (⟨rfl, h | h⟩ | ⟨rfl, h | h⟩ | ⟨rfl, h | h⟩)
    · exact (hp.1 hd).1 h
    · exact (hp.1 hd).2 h
    · exact (hp.2.1 hd).1 h
    · exact (hp.2.1 hd).2 h
    · exact hp.2.2.1 h
    · exact hp.2.2.2 h
  · rfl

theorem Denotes.noSpace {base : Nat} {s : Str} {n : Nat} (h : Denotes base s n) : ∀ c ∈ s, isSpace c = false := by
  intro c hc
  obtain ⟨d, h, _⟩ := h.mem c hc
  exact (isDigit_plain h).2.2.2

theorem Denotes.pyInt {base : Nat} {s : Str} {n : Nat} (h : Denotes base s n) : pyInt base s = some (n : Int) := by
  have hd := h.digits true []
  simp only [List.append_nil, SvText.digits] at hd
  unfold SvText.pyInt
  rw [strip_id h.noSpace]
  have hm := h.mem
  split
  · obtain ⟨d, hc, _⟩ := hm '-' (by simp); exact absurd rfl (isDigit_plain hc).2.1
  · obtain ⟨d, hc, _⟩ := hm '+' (by simp); exact absurd rfl (isDigit_plain hc).2.2.1
  · rw [h.dropPrefix, hd]; rfl

theorem Denotes.pyInt_neg {base : Nat} {s : Str} {n : Nat} (h : Denotes base s n) : SvText.pyInt base ('-' :: s) = some (-(n : Int)) := by
  have hd := h.digits true []
  simp only [List.append_nil, SvText.digits] at hd
  unfold SvText.pyInt
  rw [strip_id (by
    intro c hc
    rcases List.mem_cons.1 hc with rfl | hc
    · decide
    · exact h.noSpace c hc)]
  simp only [h.dropPrefix, hd]
  rfl

theorem isDigit_digitChar {d : Nat} (h : d < 16) : IsDigit d.digitChar d := ⟨h, .inl rfl⟩

theorem denotes_toDigits {base : Nat} (h1 : 1 < base) (h2 : base ≤ 16) (n : Nat) : Denotes base (Nat.toDigits base n) n := by
  induction n using Nat.strongRecOn with
  | ind n ih =>
    by_cases hn : n < base
    · rw [Nat.toDigits_of_lt_base hn]
      exact .one (isDigit_digitChar (by omega)) hn
    · rw [Nat.toDigits_of_base_le h1 (by omega)]
      have := Denotes.more (ih (n / base) (Nat.div_lt_self (by omega) h1)) (isDigit_digitChar (d := n % base) (by have := Nat.mod_lt n (show base > 0 by omega); omega))
        (Nat.mod_lt _ (by omega))
      rwa [Nat.div_add_mod'] at this

/-! ## Scanning -/

theorem full_of_core {k : Fmt} {s : Str} (h : core k s = true) : full k s = true := by simp [full, h]

theorem scan_run (k : Fmt) (ks : List Fmt) (s : Str) : ∀ (acc cur : Str) (res : List Val) (r : Str),
    (∀ p q, s = p ++ q → p ≠ [] → core k (acc ++ p) = true) →
    scanLoop (k :: ks) acc cur res (s ++ r) = scanLoop (k :: ks) (acc ++ s) (cur ++ s) res r := by
  induction s with
  | nil => intros; simp
  | cons c s ih =>
    intro acc cur res r h
    rw [List.cons_append, scanLoop]
    rw [if_pos (full_of_core (h [c] s rfl (by simp))), ih]
    · simp [List.append_assoc]
    · intro p q hpq hp
      have := h (c :: p) q (by simp [hpq]) (by simp)
      simpa [List.append_assoc] using this

theorem some1_mem {p : Char → Bool} {s : Str} : some1 p s = true ↔ s ≠ [] ∧ ∀ c ∈ s, p c = true := by
  simp [some1, List.all_eq_true]

theorem not_word_class {c : Char} (h : ¬ wordChar c) : isDec c = false ∧ isOct c = false ∧ isHex c = false ∧ isBin c = false ∧ isWord c = false := by
  have hw : isWord c = false := by
    rw [Bool.eq_false_iff]
    intro hw
    apply h
    simp only [isWord, isDec, Bool.or_eq_true, Bool.and_eq_true, decide_eq_true_eq] at hw
    simp only [wordChar, Char.isAlphanum, Char.isAlpha, Char.isUpper, Char.isLower, Char.isDigit, Bool.or_eq_true, Bool.and_eq_true, decide_eq_true_eq]
    have e : ∀ d : Char, (d.val.toNat = d.toNat) := fun _ => rfl
    simp only [ge_iff_le, UInt32.le_iff_toNat_le]
    rcases hw with ((⟨h1, h2⟩ | h1) | ⟨h1, h2⟩) | ⟨h1, h2⟩
    · exact .inl (.inr ⟨h1, h2⟩)
    · exact .inr h1
    · exact .inl (.inl (.inr ⟨h1, h2⟩))
    · exact .inl (.inl (.inl ⟨h1, h2⟩))
  have hd : isDec c = false := by
    simp only [isWord, Bool.or_eq_false_iff] at hw; exact hw.1.1
  refine ⟨hd, ?_, ?_, ?_, hw⟩
  · rw [Bool.eq_false_iff] at hd ⊢
    intro h'
    apply hd
    simp only [isOct, isDec, Bool.or_eq_true, Bool.and_eq_true, decide_eq_true_eq] at h' ⊢
    rcases h' with ⟨h1, h2⟩ | h'
    · exact .inl ⟨h1, Nat.le_trans h2 (by decide)⟩
    · exact .inr h'
  · rw [Bool.eq_false_iff] at hw ⊢
    intro h'
    apply hw
    simp only [isHex, isWord, Bool.or_eq_true, Bool.and_eq_true, decide_eq_true_eq] at h' ⊢
    rcases h' with (h' | ⟨h1, h2⟩) | ⟨h1, h2⟩
    · exact .inl (.inl h')
    · exact .inl (.inr ⟨h1, Nat.le_trans h2 (by decide)⟩)
    · exact .inr ⟨h1, Nat.le_trans h2 (by decide)⟩
  · rw [Bool.eq_false_iff] at hd ⊢
    intro h'
    apply hd
    simp only [isBin, Bool.or_eq_true, decide_eq_true_eq] at h'
    rcases h' with (rfl | rfl) | rfl <;> decide

theorem wordChar_isWord {c : Char} (h : wordChar c) : isWord c = true := by
  simp only [isWord, isDec, Bool.or_eq_true, Bool.and_eq_true, decide_eq_true_eq]
  simp only [wordChar, Char.isAlphanum, Char.isAlpha, Char.isUpper, Char.isLower, Char.isDigit, Bool.or_eq_true, Bool.and_eq_true, decide_eq_true_eq] at h
  simp only [ge_iff_le, UInt32.le_iff_toNat_le] at h
  rcases h with ((⟨h1, h2⟩ | ⟨h1, h2⟩) | ⟨h1, h2⟩) | h
  · exact .inr ⟨h1, h2⟩
  · exact .inl (.inr ⟨h1, h2⟩)
  · exact .inl (.inl (.inl ⟨h1, h2⟩))
  · exact .inl (.inl (.inr h))

theorem full_sep {k : Fmt} {s : Str} {c : Char} (hs : s ≠ []) (hc : ¬ wordChar c) (hn : c ≠ '\n') : full k (s ++ [c]) = false := by
  obtain ⟨h1, h2, h3, h4, h5⟩ := not_word_class hc
  have hlast : ∀ (p : Char → Bool) (t : Str), p c = false → some1 p (t ++ [c]) = false := by
    intro p t h
    simp [some1, h]
  have hcore : core k (s ++ [c]) = false := by
    cases k with
    | d =>
      simp only [core]
      split
      · rename_i r heq
        cases s with
        | nil => exact absurd rfl hs
        | cons a s =>
          simp only [List.cons_append, List.cons.injEq] at heq
          rw [← heq.2]; exact hlast _ _ h1
      · exact hlast _ _ h1
    | h =>
      simp only [core]
      split
      · rename_i r heq
        match s, hs, heq with
        | [a], _, heq =>
          simp only [List.cons_append, List.nil_append, List.cons.injEq] at heq
          exact absurd (show wordChar c by rw [heq.2.1]; exact .inl (by decide)) hc
        | a :: b :: s, _, heq =>
          simp only [List.cons_append, List.cons.injEq] at heq
          rw [← heq.2.2]; exact hlast _ _ h3
      · rfl
    | b => exact hlast _ _ h4
    | o => exact hlast _ _ h2
    | s => exact hlast _ _ h5
  simp [full, hcore, hn]

theorem scan_sep {k : Fmt} {ks : List Fmt} {acc cur : Str} {res : List Val} {c : Char} {r : Str} {v : Val} (ha : acc ≠ []) (hcur : cur ≠ [])
    (hv : conv k cur = some v) (hc : ¬ wordChar c) (hn : c ≠ '\n') :
    scanLoop (k :: ks) acc cur res (c :: r) = if ks = [] then some (res ++ [v]) else scanLoop ks [] [] (res ++ [v]) r := by
  rw [scanLoop]
  simp only [full_sep ha hc hn, Bool.false_eq_true, if_false, ne_eq, hcur, not_false_eq_true, if_true, hv]

theorem core_digits (k : Fmt) (base : Nat) (s : Str) (n : Nat) (h : Denotes base s n) (hk : (k = .d ∧ base = 10) ∨ (k = .b ∧ base = 2) ∨ (k = .o ∧ base = 8)) :
    ∀ p q, s = p ++ q → p ≠ [] → core k ([] ++ p) = true := by
  intro p q hpq hp
  have hm : ∀ c ∈ p, ∃ d, IsDigit c d ∧ d < base := fun c hc => h.mem c (by rw [hpq]; exact List.mem_append_left _ hc)
  rw [List.nil_append]
  rcases hk with ⟨rfl, rfl⟩ | ⟨rfl, rfl⟩ | ⟨rfl, rfl⟩
  · simp only [core]
    split
    · rename_i r
      obtain ⟨d, hd, _⟩ := hm '-' (by simp)
      exact absurd rfl (isDigit_plain hd).2.1
    · exact some1_mem.2 ⟨hp, fun c hc => by obtain ⟨d, hd, hl⟩ := hm c hc; exact (isDigit_class hd).1 hl⟩
  · exact some1_mem.2 ⟨hp, fun c hc => by obtain ⟨d, hd, hl⟩ := hm c hc; exact (isDigit_class hd).2.2.1 hl⟩
  · exact some1_mem.2 ⟨hp, fun c hc => by obtain ⟨d, hd, hl⟩ := hm c hc; exact (isDigit_class hd).2.1 hl⟩

theorem core_hex {s : Str} {n : Nat} (h : Denotes 16 s n) : ∀ p q, s = p ++ q → p ≠ [] → core .h (['0', 'x'] ++ p) = true := by
  intro p q hpq hp
  have hm : ∀ c ∈ p, ∃ d, IsDigit c d ∧ d < 16 := fun c hc => h.mem c (by rw [hpq]; exact List.mem_append_left _ hc)
  exact some1_mem.2 ⟨hp, fun c hc => by obtain ⟨d, hd, hl⟩ := hm c hc; exact (isDigit_class hd).2.2.2.1⟩

theorem scan_field {k : Fmt} {f : Str} {v : Val} (h : Field k f v) : f ≠ [] ∧ ∃ body, body ≠ [] ∧ conv k body = some v ∧
    ∀ ks res r, scanLoop (k :: ks) [] [] res (f ++ r) = scanLoop (k :: ks) f body res r := by
  cases h with
  | d h =>
    refine ⟨h.ne, f, h.ne, by simp [conv, h.pyInt], fun ks res r => ?_⟩
    rw [scan_run _ _ _ _ _ _ _ (core_digits .d 10 f _ h (by simp))]; rfl
  | b h =>
    refine ⟨h.ne, f, h.ne, by simp [conv, h.pyInt], fun ks res r => ?_⟩
    rw [scan_run _ _ _ _ _ _ _ (core_digits .b 2 f _ h (by simp))]; rfl
  | o h =>
    refine ⟨h.ne, f, h.ne, by simp [conv, h.pyInt], fun ks res r => ?_⟩
    rw [scan_run _ _ _ _ _ _ _ (core_digits .o 8 f _ h (by simp))]; rfl
  | @h s n h =>
    refine ⟨by simp, s, h.ne, by simp [conv, h.pyInt], fun ks res r => ?_⟩
    rw [List.cons_append, scanLoop]
    have e1 : full .h ([] ++ ['0']) = false := by decide
    have e2 : full .h (([] ++ ['0']) ++ ['x']) = false := by decide
    simp only [e1, Bool.false_eq_true, if_false, ne_eq, not_true_eq_false]
    rw [if_neg (by decide), List.cons_append, scanLoop]
    simp only [e2, Bool.false_eq_true, if_false, ne_eq, not_true_eq_false]
    rw [if_neg (by decide)]
    have := scan_run .h ks s ['0', 'x'] [] res r (core_hex h)
    exact this
  | s hne hw =>
    refine ⟨hne, f, hne, rfl, fun ks res r => ?_⟩
    rw [scan_run]
    · rfl
    · intro p q hpq hp
      exact some1_mem.2 ⟨hp, fun c hc => wordChar_isWord (hw c (by rw [hpq]; exact List.mem_append_left _ hc))⟩

theorem scan_fields {ks : List Fmt} {t : Str} {vs : List Val} (h : Fields ks t vs) (more : List Fmt) (res : List Val) :
    scanLoop (ks ++ more) [] [] res t = some (if more = [] then res ++ vs else []) := by
  induction h generalizing res with
  | one h =>
    rename_i k s v
    obtain ⟨hne, body, hb, hv, hr⟩ := scan_field h
    have := hr more res []
    rw [List.append_nil] at this
    rw [List.cons_append, List.nil_append, this, scanLoop]
    simp [hb, hv]
  | cons h hc hn ht ih =>
    rename_i k s v c ks t vs
    obtain ⟨hne, body, hb, hv, hr⟩ := scan_field h
    rw [List.cons_append, hr, scan_sep hne hb hv hc hn]
    have : ks ++ more ≠ [] := by cases ht <;> simp
    rw [if_neg this, ih]
    simp [List.append_assoc]

/-- What follows the last field does not matter. -/
theorem scan_tail {ks : List Fmt} {t : Str} {vs : List Val} (h : Fields ks t vs) (c : Char) (r : Str) (hc : ¬ wordChar c) (hn : c ≠ '\n') (res : List Val) :
    scanLoop ks [] [] res (t ++ c :: r) = some (res ++ vs) := by
  induction h generalizing res with
  | one h =>
    rename_i k s v
    obtain ⟨hne, body, hb, hv, hr⟩ := scan_field h
    rw [hr, scan_sep hne hb hv hc hn]
    rfl
  | cons h hc hn ht ih =>
    rename_i k s v c ks t vs
    obtain ⟨hne, body, hb, hv, hr⟩ := scan_field h
    rw [List.append_assoc, hr, List.cons_append, scan_sep hne hb hv hc hn]
    have : ks ≠ [] := by cases ht <;> simp
    rw [if_neg this, ih]
    simp [List.append_assoc]

theorem regexLoop_lit (l r : Str) (hl : '%' ∉ l) : ∀ a, a ≠ some '%' →
    ∃ a', a' ≠ some '%' ∧ regexLoop a (l ++ r) = regexLoop a' r := by
  induction l with
  | nil => intro a ha; exact ⟨a, ha, rfl⟩
  | cons c l ih =>
    intro a ha
    have hc : c ≠ '%' := fun h => hl (by simp [h])
    obtain ⟨a', ha', h⟩ := ih (fun h => hl (List.mem_cons_of_mem _ h)) (some c) (by simpa using hc)
    refine ⟨a', ha', ?_⟩
    rw [← h]
    cases a with
    | none => rfl
    | some b =>
      have hb : b ≠ '%' := by simpa using ha
      simp [regexLoop, hb]

theorem regexLoop_asks {ks : List Fmt} {f : Str} (h : Asks ks f) : ∀ a, a ≠ some '%' → regexLoop a f = some ks := by
  induction h with
  | done hl =>
    intro a ha
    obtain ⟨a', _, h⟩ := regexLoop_lit _ [] hl a ha
    rw [List.append_nil] at h
    rw [h]
    cases a' <;> rfl
  | next hl h ih =>
    rename_i l r k ks
    intro a ha
    obtain ⟨a', ha', h⟩ := regexLoop_lit _ ('%' :: k.letter :: r) hl a ha
    rw [h]
    have e : regexLoop (some '%') (k.letter :: r) = some (k :: ks) := by
      cases k <;> simp [regexLoop, Fmt.letter, fmtOf, ih none (by simp)]
    cases a' with
    | none => exact e
    | some b =>
      have hb : b ≠ '%' := by simpa using ha'
      show (if b = '%' then _ else regexLoop (some '%') (k.letter :: r)) = _
      rw [if_neg hb, e]

theorem getRegexList_asks {ks : List Fmt} {f : Str} (h : Asks ks f) : getRegexList f = some ks := regexLoop_asks h none (by simp)

end Verif.SvText
