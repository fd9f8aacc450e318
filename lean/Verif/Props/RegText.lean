import Verif.Spec.RegText
import Verif.Props.SvText
/-!
# C328, C329: the texts of registers and fields

C328: what `convert2string` shows of fields, maps and registers.  C329: mirrored values and hexadecimal values of fields are not shown.
-/
namespace Verif.RegText
open Verif.SvText
open Verif.Text (Str)

/-! ### `str.format` on the templates -/

theorem format_lit (args : List Arg) (s rest : Str) (i : Nat) (h : ∀ c ∈ s, c ≠ '{' ∧ c ≠ '}') :
    format args i 0 (s ++ rest) = (format args i 0 rest).prepend s := by
  induction s with
  | nil => cases h : format args i 0 rest <;> simp [h, SvText.Out.prepend]
  | cons c s ih =>
    obtain ⟨h1, h2⟩ := h c (by simp)
    simp only [List.cons_append, format, h1, h2, if_false]
    rw [ih fun c hc => h c (by simp [hc])]
    cases format args i 0 rest <;> simp [SvText.Out.prepend]

theorem format_hole (args : List Arg) (a : Arg) (rest : Str) (i : Nat) (h : args[i]? = some a) :
    format args i 0 ('{' :: '}' :: rest) = (format args (i + 1) 0 rest).prepend a.plain := by
  simp [format, List.isPrefixOf, h]

theorem dec_plain (n : Nat) : ∀ c ∈ dec n, c ≠ '{' ∧ c ≠ '}' ∧ c ≠ '%' := by
  have key : ∀ s m, Denotes 10 s m → ∀ c ∈ s, c ≠ '{' ∧ c ≠ '}' ∧ c ≠ '%' := by
    intro s m h
    have hd : ∀ c d, IsDigit c d → c ≠ '{' ∧ c ≠ '}' ∧ c ≠ '%' := by
      have all : ∀ d : Fin 16, (d.val.digitChar ≠ '{' ∧ d.val.digitChar ≠ '}' ∧ d.val.digitChar ≠ '%') ∧
          (d.val.digitChar.toUpper ≠ '{' ∧ d.val.digitChar.toUpper ≠ '}' ∧ d.val.digitChar.toUpper ≠ '%') := by decide
      rintro c d ⟨hd, rfl | rfl⟩
      · exact (all ⟨d, hd⟩).1
      · exact (all ⟨d, hd⟩).2
    induction h with
    | one h1 h2 => intro c hc; simp only [List.mem_singleton] at hc; subst hc; exact hd _ _ h1
    | more _ h1 h2 ih =>
      intro c hc
      rcases List.mem_append.1 hc with hc | hc
      · exact ih c hc
      · simp only [List.mem_singleton] at hc; subst hc; exact hd _ _ h1
  exact key _ _ (denotes_toDigits (by decide) (by decide) n)

theorem quarters_plain (n : Nat) : ∀ c ∈ quarters n, c ≠ '{' ∧ c ≠ '}' := by
  intro c hc
  unfold quarters at hc
  rcases List.mem_append.1 hc with hc | hc
  · exact ⟨(dec_plain _ c hc).1, (dec_plain _ c hc).2.1⟩
  · have : c ∈ ['.', '0', '2', '5', '7'] := by
      revert hc
      split <;> simp <;> grind
    simp only [List.mem_cons, List.not_mem_nil, or_false] at this
    rcases this with rfl | rfl | rfl | rfl | rfl <;> decide

theorem fmt_eq (n : Nat) : fmt n = .text (unit n) := by
  unfold fmt
  rw [show "{}'h%{}h".toList = '{' :: '}' :: ("'h%".toList ++ '{' :: '}' :: (['h'] ++ [])) from by decide]
  rw [format_hole _ (num n) _ 0 rfl, format_lit _ "'h%".toList _ 1 (by decide), format_hole _ (txt (quarters n)) _ 1 rfl, format_lit _ ['h'] _ 2 (by decide)]
  simp [format, SvText.Out.prepend, unit, num, txt]

theorem unit_plain (n : Nat) : ∀ c ∈ unit n, c ≠ '{' ∧ c ≠ '}' := by
  intro c hc
  unfold unit at hc
  simp only [List.mem_append] at hc
  rcases hc with ((hc | hc) | hc) | hc
  · exact ⟨(dec_plain _ c hc).1, (dec_plain _ c hc).2.1⟩
  · revert c; decide
  · exact quarters_plain n c hc
  · revert c; decide

theorem note_some (f : Field) : ∃ note, mirrorNote f (unit f.nBits) = .text note := by
  unfold mirrorNote
  split
  · refine ⟨" (Mirror: ".toList ++ unit f.nBits ++ ")".toList, ?_⟩
    have h : ∀ c ∈ " (Mirror: ".toList ++ unit f.nBits ++ ")".toList, c ≠ '{' ∧ c ≠ '}' := by
      intro c hc
      simp only [List.mem_append] at hc
      rcases hc with (hc | hc) | hc
      · revert c; decide
      · exact unit_plain _ c hc
      · revert c; decide
    have := format_lit [num f.mirrored] (" (Mirror: ".toList ++ unit f.nBits ++ ")".toList) [] 0 h
    rw [List.append_nil] at this
    rw [this]
    simp [format, SvText.Out.prepend]
  · exact ⟨[], rfl⟩

/-- C328. The text of a field: its access, the register's name, its bits, a unit text that depends on the width only, the desired value in decimal, and whether
it is being accessed. -/
theorem C328_field_text (reg : Str) (f : Field) :
    fieldText reg f = .text (fieldSpec reg f) := by
  unfold fieldText fieldSpec
  rw [fmt_eq]
  simp only [Out.bind]
  obtain ⟨note, hn⟩ := note_some f
  rw [hn]
  simp only
  rw [show "{} {} {}[{}:{}]=".toList ++ unit f.nBits ++ "{}".toList = '{' :: '}' :: ([' '] ++ '{' :: '}' :: ([' '] ++ '{' :: '}' :: (['['] ++ '{' :: '}' :: ([':'] ++
      '{' :: '}' :: ((']' :: '=' :: unit f.nBits) ++ '{' :: '}' :: []))))) from by simp]
  rw [format_hole _ (txt []) _ 0 rfl, format_lit _ [' '] _ 1 (by decide), format_hole _ (txt f.access) _ 1 rfl, format_lit _ [' '] _ 2 (by decide),
    format_hole _ (txt reg) _ 2 rfl, format_lit _ ['['] _ 3 (by decide), format_hole _ (num (f.lsb + f.nBits - 1)) _ 3 rfl, format_lit _ [':'] _ 4 (by decide),
    format_hole _ (num f.lsb) _ 4 rfl, format_lit _ (']' :: '=' :: unit f.nBits) _ 5 (by
      intro c hc
      rcases List.mem_cons.1 hc with rfl | hc
      · decide
      · rcases List.mem_cons.1 hc with rfl | hc
        · decide
        · exact unit_plain _ c hc), format_hole _ (num f.desired) _ 5 rfl]
  simp [format, SvText.Out.prepend, num, txt]

theorem dec_inj {a b : Nat} (h : dec a = dec b) : a = b := by
  have h1 := (denotes_toDigits (base := 10) (by decide) (by decide) a).digits true []
  have h2 := (denotes_toDigits (base := 10) (by decide) (by decide) b).digits true []
  rw [show Nat.toDigits 10 a = Nat.toDigits 10 b from h] at h1
  rw [h1] at h2
  simpa [SvText.digits] using h2

/-- C328. The text of a field that is not being accessed tells its desired value. -/
theorem C328_tells_desired (reg : Str) (f g : Field) (hn : f.nBits = g.nBits) (hl : f.lsb = g.lsb) (ha : f.access = g.access)
    (hf : f.reading = false ∧ f.writing = false) (hg : g.reading = false ∧ g.writing = false) :
    fieldText reg f = fieldText reg g ↔ f.desired = g.desired := by
  have pf : progress f = [] := by simp [progress, hf]
  have pg : progress g = [] := by simp [progress, hg]
  rw [C328_field_text, C328_field_text, fieldSpec, fieldSpec, pf, pg, hn, hl, ha]
  constructor
  · intro h
    simp only [SvText.Out.text.injEq, List.append_nil, List.append_cancel_left_eq] at h
    exact dec_inj h
  · intro h; rw [h]

theorem place_unique {f : Field} {a b : Str} (ha : Place f a) (hb : Place f b) : a = b := by
  cases ha <;> cases hb <;> simp_all

/-- C328. A running read and write are shown, each with the place it was started from, if both its file and its line are known. -/
theorem C328_progress (f : Field) (place : Str) (hp : Place f place) :
    progress f = (match f.reading, f.writing with
      | false, false => []
      | true, false => "\ncurrently being read".toList ++ place
      | false, true => "\n".toList ++ place ++ "currently being written".toList
      | true, true => "\ncurrently being read".toList ++ place ++ "\n".toList ++ place ++ place ++ "currently being written".toList) := by
  have ho : origin f = place := by
    refine place_unique (f := f) ?_ hp
    unfold origin
    split
    · rename_i h
      obtain ⟨n, hn⟩ := Nat.exists_eq_succ_of_ne_zero h.2
      rw [hn]
      exact .known h.1 hn
    · rename_i h
      by_cases h1 : f.fname = []
      · exact .noFile h1
      · exact .noLine (by by_cases h2 : f.lineno = 0; exact h2; exact absurd ⟨h1, h2⟩ h)
  unfold progress
  rw [ho]
  cases f.reading <;> cases f.writing <;> simp

example : Place ⟨[], 1, 0, 0, 0, true, false, "f".toList, 7⟩ " from f:7".toList ∧ Place ⟨[], 1, 0, 0, 0, true, false, "f".toList, 0⟩ [] :=
  ⟨.known (n := 6) (by decide) rfl, .noLine rfl⟩

theorem pieces_ok (ps : List Piece) (h : ps.all (fun p => match p with
    | .lit s => s.all (fun c => c != '%' && c != '{' && c != '}')
    | .show_ w => plainSpecs.contains w || hexSpecs.contains w) = true) : ∀ p ∈ ps, p.ok := by
  intro p hp
  have := List.all_eq_true.1 h p hp
  cases p with
  | lit s =>
    intro c hc
    have := List.all_eq_true.1 this c hc
    simp only [bne, Bool.and_eq_true, Bool.not_eq_true', beq_eq_false_iff_ne, ne_eq] at this
    exact ⟨this.1.1, this.1.2, this.2⟩
  | show_ w =>
    simp only [Bool.or_eq_true, List.contains_iff_mem] at this
    exact this

theorem line_eq (p : Str) (m : MapInfo) :
    sformatf "%sMapped in '%s' -- %d bytes, %s, offset 'h%0h\n".toList [txt p, txt m.fullName, num m.nBytes, txt m.endian, num m.offset] =
      .text (p ++ "Mapped in '".toList ++ m.fullName ++ "' -- ".toList ++ dec m.nBytes ++ " bytes, ".toList ++ m.endian ++
        ", offset 'h".toList ++ (Nat.toDigits 16 m.offset).map Char.toUpper ++ ['\n']) := by
  have := C202_sformatf [.show_ "%s", .lit "Mapped in '".toList, .show_ "%s", .lit "' -- ".toList, .show_ "%d", .lit " bytes, ".toList, .show_ "%s",
    .lit ", offset 'h".toList, .show_ "%0h", .lit "\n".toList] (pieces_ok _ (by decide)) [txt p, txt m.fullName, num m.nBytes, txt m.endian, num m.offset]
  rw [show written [.show_ "%s", .lit "Mapped in '".toList, .show_ "%s", .lit "' -- ".toList, .show_ "%d", .lit " bytes, ".toList, .show_ "%s",
    .lit ", offset 'h".toList, .show_ "%0h", .lit "\n".toList] = "%sMapped in '%s' -- %d bytes, %s, offset 'h%0h\n".toList from by decide] at this
  rw [this]
  simp [shown, hexSpecs, txt, num]

theorem chain_eq (ms : List MapInfo) (ind : Nat) :
    chainLines ms (List.replicate ind ' ') = (List.replicate (ind + 2 * ms.length) ' ', .text (chainSpec ind ms)) := by
  induction ms generalizing ind with
  | nil => simp [chainLines, chainSpec]
  | cons m ms ih =>
    have hp : List.replicate ind ' ' ++ "  ".toList = List.replicate (ind + 2) ' ' := by
      rw [← List.replicate_append_replicate]; rfl
    simp only [chainLines, hp, ih (ind + 2), line_eq, Out.bind, chainSpec, List.length_cons]
    rw [show ind + 2 + 2 * ms.length = ind + 2 * (ms.length + 1) by omega]

theorem maps_eq (cs : List (List MapInfo)) (ind : Nat) : mapLines cs (List.replicate ind ' ') = .text (mapsSpec ind cs) := by
  induction cs generalizing ind with
  | nil => rfl
  | cons c cs ih => simp only [mapLines, chain_eq, Out.bind, ih, mapsSpec]

theorem fields_eq (reg : Str) (fs : List Field) : fieldLines reg fs = .text (fs.flatMap fun f => '\n' :: fieldSpec reg f) := by
  induction fs with
  | nil => rfl
  | cons f fs ih =>
    have := C202_sformatf [.lit "\n".toList, .show_ "%s"] (pieces_ok _ (by decide)) [txt (fieldSpec reg f)]
    rw [show written [.lit "\n".toList, .show_ "%s"] = "\n%s".toList from by decide] at this
    simp only [fieldLines, C328_field_text]
    simp only [Out.bind]
    rw [this, ih]
    simp [shown, plainSpecs, hexSpecs, txt]

/-- C328. The text of a register: full name, number of bytes, its value in hexadecimal, a line for every map on the way from each of its maps to the root, and a
line for every field, in order. -/
theorem C328_register_text (r : Reg) :
    regText r = .text ("Register ".toList ++ r.fullName ++ " -- ".toList ++ dec r.nBytes ++ " bytes, mirror value:'h".toList ++
      (Nat.toDigits 16 r.value).map Char.toUpper ++ (if r.maps = [] then "  (unmapped)\n".toList else "\n".toList) ++ mapsSpec 0 r.maps ++
      r.fields.flatMap fun f => '\n' :: fieldSpec r.name f) := by
  have := C202_sformatf [.lit "Register ".toList, .show_ "%s", .lit " -- ".toList, .show_ "%0d", .lit " bytes, mirror value:'h".toList, .show_ "%h"]
    (pieces_ok _ (by decide)) [txt r.fullName, num r.nBytes, num r.value]
  rw [show written [.lit "Register ".toList, .show_ "%s", .lit " -- ".toList, .show_ "%0d", .lit " bytes, mirror value:'h".toList, .show_ "%h"] =
    "Register %s -- %0d bytes, mirror value:'h%h".toList from by decide] at this
  have hm := maps_eq r.maps 0
  rw [List.replicate_zero] at hm
  have hs : shown [.lit "Register ".toList, .show_ "%s", .lit " -- ".toList, .show_ "%0d", .lit " bytes, mirror value:'h".toList, .show_ "%h"]
      [txt r.fullName, num r.nBytes, num r.value] = some ("Register ".toList ++ (r.fullName ++ (" -- ".toList ++ (dec r.nBytes ++
      (" bytes, mirror value:'h".toList ++ ((Nat.toDigits 16 r.value).map Char.toUpper ++ [])))))) := by
    have e1 : "%s" ∉ hexSpecs := by decide
    have e2 : "%0d" ∉ hexSpecs := by decide
    have e3 : "%h" ∈ hexSpecs := by decide
    simp only [shown, e1, e2, e3, if_true, if_false, Option.map_some, Option.bind_some, txt, num]
  rw [hs] at this
  simp only [regText, hm, fields_eq]
  rw [this]
  simp only [Out.bind, List.append_assoc, List.append_nil]

/-- C329 fails in the code: the text of a field does not depend on its mirrored value: the note on it is made and then not shown. -/
theorem C329_mirror_fails (reg : Str) (f : Field) (m : Nat) : fieldText reg { f with mirrored := m } = fieldText reg f := by
  rw [C328_field_text, C328_field_text]; rfl

/-- C329 fails in the code: the values of fields are shown in decimal behind an unused format, not in hexadecimal. -/
theorem C329_hex_fails : fieldText "R".toList ⟨"RW".toList, 8, 0, 255, 255, false, false, [], 0⟩ = .text " RW R[7:0]=8'h%2.75h255".toList := by decide

theorem denotes_upper {s : Str} {n : Nat} (h : Denotes 16 s n) : Denotes 16 (s.map Char.toUpper) n := by
  have up : ∀ c d, IsDigit c d → IsDigit c.toUpper d := by
    have all : ∀ d : Fin 16, d.val.digitChar.toUpper.toUpper = d.val.digitChar.toUpper := by decide
    rintro c d ⟨hd, rfl | rfl⟩
    · exact ⟨hd, .inr rfl⟩
    · exact ⟨hd, .inr (all ⟨d, hd⟩)⟩
  induction h with
  | one hc hd => exact .one (up _ _ hc) hd
  | more _ hc hd ih =>
    rw [List.map_append]
    exact .more ih (up _ _ hc) hd

theorem hex_inj {a b : Nat} (h : (Nat.toDigits 16 a).map Char.toUpper = (Nat.toDigits 16 b).map Char.toUpper) : a = b := by
  have h1 := (denotes_upper (denotes_toDigits (base := 16) (by decide) (by decide) a)).digits true []
  have h2 := (denotes_upper (denotes_toDigits (base := 16) (by decide) (by decide) b)).digits true []
  rw [h, h2] at h1
  simpa [SvText.digits, eq_comm] using h1

/-- C329 (partial): the register's own value is shown in hexadecimal, and the text tells it; it is the desired value. -/
theorem C329_register_partial (r s : Reg) (h : r.maps = s.maps ∧ r.fields = s.fields ∧ r.name = s.name ∧ r.fullName = s.fullName ∧ r.nBytes = s.nBytes) :
    regText r = regText s ↔ r.value = s.value := by
  obtain ⟨h1, h2, h3, h4, h5⟩ := h
  rw [C328_register_text, C328_register_text, h1, h2, h3, h4, h5]
  simp only [SvText.Out.text.injEq, List.append_cancel_left_eq, List.append_cancel_right_eq]
  exact ⟨hex_inj, fun h => by rw [h]⟩

example : regText ⟨"R".toList, "b.R".toList, 1, 165, [⟨"RW".toList, 4, 0, 5, 5, false, false, [], 0⟩, ⟨"RO".toList, 4, 4, 10, 3, true, false, "f".toList, 7⟩],
    [[⟨"b.m".toList, 4, "1".toList, 16⟩]]⟩ =
    .text "Register b.R -- 1 bytes, mirror value:'hA5\n  Mapped in 'b.m' -- 4 bytes, 1, offset 'h10\n\n RW R[3:0]=4'h%1.75h5\n RO R[7:4]=4'h%1.75h10\ncurrently being read from f:7".toList := by
  rw [C328_register_text]; decide +kernel

end Verif.RegText
