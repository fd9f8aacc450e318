import Verif.Spec.Text
namespace Verif.Text

theorem splitOn_ne_nil (c : Char) (s : Str) : splitOn c s ≠ [] := by
  cases s with
  | nil => simp [splitOn]
  | cons x s => simp only [splitOn]; split <;> (try split) <;> simp

theorem splitOn_word (c : Char) (w : Str) (hw : c ∉ w) : splitOn c w = [w] := by
  induction w with
  | nil => rfl
  | cons x w ih =>
    have h1 : x ≠ c := fun e => hw (e ▸ List.mem_cons_self)
    simp [splitOn, h1, ih (fun h => hw (List.mem_cons_of_mem _ h))]

theorem splitOn_append (c : Char) (w s : Str) (hw : c ∉ w) : splitOn c (w ++ c :: s) = w :: splitOn c s := by
  induction w with
  | nil => simp [splitOn]
  | cons x w ih =>
    have h1 : x ≠ c := fun e => hw (e ▸ List.mem_cons_self)
    simp [splitOn, h1, ih (fun h => hw (List.mem_cons_of_mem _ h))]

theorem splitOn_join (c : Char) (ws : List Str) (hne : ws ≠ []) (h : ∀ w ∈ ws, c ∉ w) :
    splitOn c (joinWith c ws) = ws := by
  induction ws with
  | nil => exact absurd rfl hne
  | cons w ws ih =>
    cases ws with
    | nil => exact splitOn_word c w (h w List.mem_cons_self)
    | cons v ws =>
      simp only [joinWith]
      rw [splitOn_append c w _ (h w List.mem_cons_self), ih (by simp) (fun w hw => h w (List.mem_cons_of_mem _ hw))]

theorem join_split (c : Char) (s : Str) : joinWith c (splitOn c s) = s := by
  induction s with
  | nil => rfl
  | cons x s ih =>
    simp only [splitOn]
    by_cases hx : x = c
    · rw [if_pos hx]
      cases hs : splitOn c s with
      | nil => exact absurd hs (splitOn_ne_nil c s)
      | cons w ws => rw [hs] at ih; simp [joinWith, ih, hx]
    · rw [if_neg hx]
      cases hs : splitOn c s with
      | nil => exact absurd hs (splitOn_ne_nil c s)
      | cons w ws =>
        rw [hs] at ih
        cases ws with
        | nil => simpa [joinWith] using ih
        | cons v ws => simpa [joinWith] using ih

theorem split_no_sep (c : Char) (s : Str) : ∀ w ∈ splitOn c s, c ∉ w := by
  induction s with
  | nil => simp [splitOn]
  | cons x s ih =>
    simp only [splitOn]
    by_cases hx : x = c
    · rw [if_pos hx]
      intro w hw
      rcases List.mem_cons.mp hw with rfl | hw
      · simp
      · exact ih w hw
    · rw [if_neg hx]
      cases hs : splitOn c s with
      | nil => exact absurd hs (splitOn_ne_nil c s)
      | cons v vs =>
        rw [hs] at ih
        intro w hw
        rcases List.mem_cons.mp hw with rfl | hw
        · intro hc
          rcases List.mem_cons.mp hc with h | h
          · exact hx h.symm
          · exact ih v List.mem_cons_self h
        · exact ih w (List.mem_cons_of_mem _ hw)

/-- One round adds exactly the flag named. -/
theorem actionRound_testBit (a : Nat) (w : Str) (k : Nat) :
    (actionRound a w).testBit k = (a.testBit k || decide ((w, k) ∈ actionBits)) := by
  have key : ∀ n, (actionRound a w = a ||| n → (n.testBit k = decide ((w, k) ∈ actionBits)) →
      (actionRound a w).testBit k = (a.testBit k || decide ((w, k) ∈ actionBits))) := by
    intro n h1 h2; rw [h1, Nat.testBit_or, h2]
  have bit : ∀ j, (2 ^ j).testBit k = decide (k = j) := by
    intro j; rw [Nat.testBit_two_pow]; exact decide_eq_decide.mpr eq_comm
  by_cases h0 : w = "UVM_DISPLAY".toList
  · subst h0; exact key 1 (by simp [actionRound]) ((bit 0).trans (by simp [actionBits]))
  by_cases h1 : w = "UVM_LOG".toList
  · subst h1; exact key 2 (by simp [actionRound]) ((bit 1).trans (by simp [actionBits]))
  by_cases h2 : w = "UVM_COUNT".toList
  · subst h2; exact key 4 (by simp [actionRound]) ((bit 2).trans (by simp [actionBits]))
  by_cases h3 : w = "UVM_EXIT".toList
  · subst h3; exact key 8 (by simp [actionRound]) ((bit 3).trans (by simp [actionBits]))
  by_cases h4 : w = "UVM_CALL_HOOK".toList
  · subst h4; exact key 16 (by simp [actionRound]) ((bit 4).trans (by simp [actionBits]))
  by_cases h5 : w = "UVM_STOP".toList
  · subst h5; exact key 32 (by simp [actionRound]) ((bit 5).trans (by simp [actionBits]))
  by_cases h6 : w = "UVM_RM_RECORD".toList
  · subst h6; exact key 64 (by simp [actionRound]) ((bit 6).trans (by simp [actionBits]))
  refine key 0 ?_ ?_
  · simp only [actionRound, if_neg h0, if_neg h1, if_neg h2, if_neg h3, if_neg h4, if_neg h5, if_neg h6]
    split <;> simp
  · have : (w, k) ∉ actionBits := by
      simp only [actionBits, List.mem_cons, Prod.mk.injEq, List.not_mem_nil]
      grind
    simp [this]

theorem actionFold_testBit (ws : List Str) (a k : Nat) :
    (ws.foldl actionRound a).testBit k = (a.testBit k || decide (∃ w ∈ ws, (w, k) ∈ actionBits)) := by
  induction ws generalizing a with
  | nil => simp
  | cons w ws ih =>
    rw [List.foldl_cons, ih, actionRound_testBit]
    by_cases h1 : (w, k) ∈ actionBits <;> by_cases h2 : ∃ w ∈ ws, (w, k) ∈ actionBits <;> simp_all

/-! ## Globs -/

/-- The regular expression of one glob character. -/
def trChar (c : Char) : Str :=
  if c = '.' then ['\\', '.'] else if c = '*' then ['.', '*'] else if c = '[' then ['\\', '[']
  else if c = ']' then ['\\', ']'] else if c = '?' then ['.'] else [c]

theorem replace_append (c : Char) (b s t : Str) : replace c b (s ++ t) = replace c b s ++ replace c b t := by
  simp [replace]

theorem globToRe_flatMap (p : Str) (h : ¬ (p.head? = some '/' ∧ p.getLast? = some '/')) :
    globToRe p = p.flatMap trChar := by
  unfold globToRe
  by_cases hp : p = []
  · subst hp; rfl
  · rw [if_neg hp, if_neg h]
    simp only
    clear h hp
    induction p with
    | nil => rfl
    | cons c p ih =>
      rw [show c :: p = [c] ++ p from rfl]
      simp only [replace_append, List.flatMap_append, ih]
      congr 1
      by_cases h1 : c = '.'
      · subst h1; decide
      by_cases h2 : c = '*'
      · subst h2; decide
      by_cases h3 : c = '['
      · subst h3; decide
      by_cases h4 : c = ']'
      · subst h4; decide
      by_cases h5 : c = '?'
      · subst h5; decide
      simp [replace, trChar, h1, h2, h3, h4, h5]

/-- The piece of one glob character. -/
def tokOf (c : Char) : Tok := if c = '*' then .star .any else if c = '?' then .one .any else .one (.lit c)

/-- What follows a translated character never starts with a quantifier. -/
theorem quant_tr (a : Atom) (p : Str) (hp : ∀ c ∈ p, c ≠ '+') : quant a (p.flatMap trChar) = (.one a, p.flatMap trChar) := by
  cases p with
  | nil => rfl
  | cons c p =>
    rw [List.flatMap_cons]
    have hc : c ≠ '+' := hp c List.mem_cons_self
    unfold trChar
    split
    · rfl
    · split
      · rfl
      · split
        · rfl
        · split
          · rfl
          · split
            · rfl
            · next h1 h2 h3 h4 h5 =>
              simp only [List.cons_append, List.nil_append, quant]
              split
              · next h => simp at h; exact absurd h.1 h2
              · next h => simp at h; exact absurd h.1 hc
              · rfl

theorem flatMap_len (p : Str) : p.length ≤ (p.flatMap trChar).length := by
  induction p with
  | nil => simp
  | cons c p ih =>
    rw [List.flatMap_cons, List.length_append, List.length_cons]
    have : 1 ≤ (trChar c).length := by unfold trChar; split <;> (try split) <;> (try split) <;> (try split) <;> (try split) <;> simp
    omega

theorem parseN_lit (n : Nat) (c : Char) (r : Str) (h1 : c ≠ '\\') (h2 : c ≠ '.') :
    parseN (n + 1) (c :: r) = if special c then none
      else (parseN n (quant (.lit c) r).2).map ((quant (.lit c) r).1 :: ·) := by
  rw [parseN]
  · intro d r' h; exact absurd h h1
  · exact h2

theorem parseN_tr (p : Str) (hp : ∀ c ∈ p, c ∉ ['^', '$', '{', '}', '(', ')', '|', '+', '\\']) (n : Nat)
    (hn : p.length ≤ n) : parseN n (p.flatMap trChar) = some (p.map tokOf) := by
  induction p generalizing n with
  | nil => cases n <;> rfl
  | cons c p ih =>
    cases n with
    | zero => simp at hn
    | succ n =>
      have hn' : p.length ≤ n := by simpa using hn
      have hp' : ∀ d ∈ p, d ∉ ['^', '$', '{', '}', '(', ')', '|', '+', '\\'] := fun d hd => hp d (List.mem_cons_of_mem _ hd)
      have hq : ∀ a, quant a (p.flatMap trChar) = (.one a, p.flatMap trChar) :=
        fun a => quant_tr a p (fun d hd e => hp' d hd (by subst e; decide))
      have hc := hp c List.mem_cons_self
      rw [List.flatMap_cons, List.map_cons]
      have ihn := ih hp' n hn'
      by_cases h1 : c = '.'
      · subst h1
        have ha : alnum '.' = false := by decide
        simp only [trChar, if_true, List.cons_append, List.nil_append, parseN, ha, hq, ihn]; rfl
      by_cases h2 : c = '*'
      · subst h2
        have : trChar '*' = ['.', '*'] := by decide
        rw [this]
        simp only [List.cons_append, List.nil_append, parseN, quant, ihn]; rfl
      by_cases h3 : c = '['
      · subst h3
        have : trChar '[' = ['\\', '['] := by decide
        have ha : alnum '[' = false := by decide
        rw [this]
        simp only [List.cons_append, List.nil_append, parseN, ha, hq, ihn]; rfl
      by_cases h4 : c = ']'
      · subst h4
        have : trChar ']' = ['\\', ']'] := by decide
        have ha : alnum ']' = false := by decide
        rw [this]
        simp only [List.cons_append, List.nil_append, parseN, ha, hq, ihn]; rfl
      by_cases h5 : c = '?'
      · subst h5
        have : trChar '?' = ['.'] := by decide
        rw [this]
        simp only [List.cons_append, List.nil_append, parseN, hq, ihn]; rfl
      have ht : trChar c = [c] := by simp [trChar, h1, h2, h3, h4, h5]
      have hs : special c = false := by
        simp only [special, decide_eq_false_iff_not]
        intro hm
        simp at hm hc
        grind
      have h6 : c ≠ '\\' := fun e => hc (by subst e; decide)
      rw [ht, List.cons_append, List.nil_append]
      rw [parseN_lit n c _ h6 h1, hs, hq, ihn]
      simp [tokOf, h2, h5]

theorem parse_glob (p : Str) (hp : plain p) : parse (globToRe p) = some (p.map tokOf) := by
  rw [globToRe_flatMap p hp.2]
  exact parseN_tr p hp.1 _ (flatMap_len p)

theorem GlobL.toGlob {p s : Str} (h : GlobL p s) : Glob p s := by
  induction h with
  | nil => exact .nil
  | star t _ _ ih => exact .star t ih
  | quest x _ _ ih => exact .quest x ih
  | lit h1 h2 _ ih => exact .lit h1 h2 ih

theorem Glob.toGlobL {p s : Str} (h : Glob p s) (hs : '\n' ∉ s) : GlobL p s := by
  induction h with
  | nil => exact .nil
  | star t _ ih =>
    exact .star t (fun ht => hs (List.mem_append_left _ ht)) (ih (fun ht => hs (List.mem_append_right _ ht)))
  | quest x _ ih =>
    exact .quest x (fun e => hs (e ▸ List.mem_cons_self)) (ih (fun ht => hs (List.mem_cons_of_mem _ ht)))
  | lit h1 h2 _ ih => exact .lit h1 h2 (ih (fun ht => hs (List.mem_cons_of_mem _ ht)))

theorem starLoop_iff (k : Str → Bool) (s : Str) :
    starLoop .any k s = true ↔ ∃ t r, s = t ++ r ∧ '\n' ∉ t ∧ k r = true := by
  induction s with
  | nil =>
    simp only [starLoop]
    constructor
    · intro h; exact ⟨[], [], rfl, by simp, h⟩
    · rintro ⟨t, r, h, _, hk⟩
      have := (List.append_eq_nil_iff.mp h.symm)
      rw [← this.2]; exact hk
  | cons x s ih =>
    simp only [starLoop, Bool.or_eq_true, Bool.and_eq_true, ih, Atom.ok, bne_iff_ne]
    constructor
    · rintro (h | ⟨hx, t, r, hs, ht, hk⟩)
      · exact ⟨[], x :: s, rfl, by simp, h⟩
      · exact ⟨x :: t, r, by rw [hs]; rfl, by simp [ht]; exact fun e => hx e.symm, hk⟩
    · rintro ⟨t, r, hs, ht, hk⟩
      cases t with
      | nil => left; rw [show x :: s = r from hs]; exact hk
      | cons y t =>
        injection hs with h1 h2
        subst h1
        right
        exact ⟨fun e => ht (e ▸ List.mem_cons_self), t, r, h2, fun h => ht (List.mem_cons_of_mem _ h), hk⟩

theorem matchHere_iff (p s : Str) : matchHere (p.map tokOf) s = true ↔ ∃ m r, s = m ++ r ∧ GlobL p m := by
  induction p generalizing s with
  | nil =>
    simp only [List.map_nil, matchHere, true_iff]
    exact ⟨[], s, rfl, .nil⟩
  | cons c p ih =>
    rw [List.map_cons]
    by_cases h1 : c = '*'
    · subst h1
      have : tokOf '*' = .star .any := by decide
      rw [this, matchHere, starLoop_iff]
      constructor
      · rintro ⟨t, r, hs, ht, hk⟩
        obtain ⟨m, r', hr, hg⟩ := (ih r).mp hk
        exact ⟨t ++ m, r', by rw [hs, hr, List.append_assoc], .star t ht hg⟩
      · rintro ⟨m, r, hs, hg⟩
        cases hg with
        | star t ht hg => exact ⟨t, _, by rw [hs, List.append_assoc], ht, (ih _).mpr ⟨_, r, rfl, hg⟩⟩
        | lit h _ _ => exact absurd rfl h
    by_cases h2 : c = '?'
    · subst h2
      have : tokOf '?' = .one .any := by decide
      rw [this]
      cases s with
      | nil =>
        simp only [matchHere, Bool.false_eq_true, false_iff]
        rintro ⟨m, r, hs, hg⟩
        have := List.append_eq_nil_iff.mp hs.symm
        rw [this.1] at hg
        cases hg
      | cons x s =>
        simp only [matchHere, Bool.and_eq_true, ih, Atom.ok, bne_iff_ne]
        constructor
        · rintro ⟨hx, m, r, hs, hg⟩
          exact ⟨x :: m, r, by rw [hs]; rfl, .quest x hx hg⟩
        · rintro ⟨m, r, hs, hg⟩
          cases hg with
          | quest y hy hg =>
            injection hs with e1 e2
            exact ⟨e1 ▸ hy, _, r, e2, hg⟩
          | lit _ h _ => exact absurd rfl h
    have : tokOf c = .one (.lit c) := by simp [tokOf, h1, h2]
    rw [this]
    cases s with
    | nil =>
      simp only [matchHere, Bool.false_eq_true, false_iff]
      rintro ⟨m, r, hs, hg⟩
      have := List.append_eq_nil_iff.mp hs.symm
      generalize hm : m = m' at hg
      rw [this.1] at hm
      cases hg with
      | star => exact h1 rfl
      | quest => exact h2 rfl
      | lit => cases hm
    | cons x s =>
      simp only [matchHere, Bool.and_eq_true, ih, Atom.ok, beq_iff_eq]
      constructor
      · rintro ⟨hx, m, r, hs, hg⟩
        subst hx
        exact ⟨x :: m, r, by rw [hs]; rfl, .lit h1 h2 hg⟩
      · rintro ⟨m, r, hs, hg⟩
        cases hg with
        | star => exact absurd rfl h1
        | quest => exact absurd rfl h2
        | lit _ _ hg =>
          injection hs with e1 e2
          exact ⟨e1, _, r, e2, hg⟩

theorem search_iff (ts : List Tok) (s : Str) : searchToks ts s = true ↔ ∃ a b, s = a ++ b ∧ matchHere ts b = true := by
  induction s with
  | nil =>
    simp only [searchToks]
    constructor
    · intro h; exact ⟨[], [], rfl, h⟩
    · rintro ⟨a, b, h, hm⟩
      rw [(List.append_eq_nil_iff.mp h.symm).2] at hm; exact hm
  | cons x s ih =>
    simp only [searchToks, Bool.or_eq_true, ih]
    constructor
    · rintro (h | ⟨a, b, hs, hm⟩)
      · exact ⟨[], x :: s, rfl, h⟩
      · exact ⟨x :: a, b, by rw [hs]; rfl, hm⟩
    · rintro ⟨a, b, hs, hm⟩
      cases a with
      | nil => left; rw [show x :: s = b from hs]; exact hm
      | cons y a => injection hs with e1 e2; exact Or.inr ⟨a, b, e2, hm⟩

theorem isMatch_eq (p s : Str) (hp : plain p) : ∃ r, isMatch p s = some r ∧
    (r = true ↔ ∃ a m b, s = a ++ m ++ b ∧ GlobL p m) := by
  refine ⟨searchToks (p.map tokOf) s, ?_, ?_⟩
  · simp only [isMatch, reMatch, parse_glob p hp, Option.map_some]
    cases searchToks (p.map tokOf) s <;> rfl
  · rw [search_iff]
    constructor
    · rintro ⟨a, b, hs, hm⟩
      obtain ⟨m, r, hb, hg⟩ := (matchHere_iff p b).mp hm
      exact ⟨a, m, r, by rw [hs, hb, List.append_assoc], hg⟩
    · rintro ⟨a, m, b, hs, hg⟩
      exact ⟨a, m ++ b, by rw [hs, List.append_assoc], (matchHere_iff p _).mpr ⟨m, b, rfl, hg⟩⟩

theorem GlobL.extend_left {p m : Str} (h : GlobL p m) (hp : p.head? = some '*') (a : Str) (ha : '\n' ∉ a) :
    GlobL p (a ++ m) := by
  cases h with
  | nil => cases hp
  | star t ht hg =>
    rw [← List.append_assoc]
    exact .star (a ++ t) (by simp [ha, ht]) hg
  | quest => simp at hp
  | lit h1 => simp at hp; exact absurd hp h1

theorem GlobL.extend_right {p m : Str} (h : GlobL p m) (hp : p.getLast? = some '*') (b : Str) (hb : '\n' ∉ b) :
    GlobL p (m ++ b) := by
  induction h with
  | nil => cases hp
  | @star t ht p s hg ih =>
    cases p with
    | nil =>
      cases hg
      rw [List.append_nil, ← List.append_nil (t ++ b)]
      exact .star (t ++ b) (by simp [ht, hb]) .nil
    | cons c p =>
      rw [List.append_assoc]
      exact .star t ht (ih (by simpa [List.getLast?_cons_cons] using hp))
  | @quest x hx p s hg ih =>
    cases p with
    | nil => simp at hp
    | cons c p => exact .quest x hx (ih (by simpa [List.getLast?_cons_cons] using hp))
  | @lit c h1 h2 p s hg ih =>
    cases p with
    | nil => simp at hp; exact absurd hp h1
    | cons c p => exact .lit h1 h2 (ih (by simpa [List.getLast?_cons_cons] using hp))

end Verif.Text
