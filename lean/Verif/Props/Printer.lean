import Verif.Lemmas.Printer
/-! # C180–C185: printing -/
namespace Verif.Printer

theorem flatMap_congr' {α β : Type} {l : List α} {f g : α → List β} (h : ∀ x ∈ l, f x = g x) : l.flatMap f = l.flatMap g := by
  induction l with
  | nil => rfl
  | cons x l ih => simp only [List.flatMap_cons]; rw [h x (by simp), ih fun y hy => h y (by simp [hy])]

/-- C180: printing an object whose names are good and whose fields can be printed gives its row, followed, one level deeper, by the rows of its children, of
its fields in the order of their registration, and of what its `do_print` prints; whatever the graph of objects. -/
theorem C180_rows (k : Knobs) (h : Heap) (dom : List Nat) (hp : Printable h dom) (o : Nat) (ho : o ∈ dom) (deep : Nat) (hd : dom.length < deep) (emit : List Row → Text)
    (st : St) (hs : st.stack = [] ∧ st.rows = [] ∧ st.busy = []) :
    ∃ st', sprint k h deep emit o st = .ok (emit (rowsOf k h deep [] [] (h o).name o), st') := by
  obtain ⟨s1, e1, -, -, c1⟩ := printObject_adds (k := k) hp deep [] [] (by simp) (Nat.lt_of_le_of_lt (List.length_filter_le _ _) hd) (h o).name (hp.name o ho) o ho st hs.1 hs.2.2
  rw [hs.2.1, List.nil_append] at c1
  exact ⟨{ s1 with rows := [] }, by simp only [sprint, e1, c1]⟩

/-- C180: the bound on the nesting in the specification does not matter. -/
theorem C180_rows_depth (k : Knobs) (h : Heap) (dom : List Nat) (hp : Printable h dom) (d d' : Nat) (path : List Text) (busy : List Nat) (hd : room dom busy < d)
    (hd' : room dom busy < d') (name : Text) (o : Nat) (ho : o ∈ dom) : rowsOf k h d path busy name o = rowsOf k h d' path busy name o := by
  induction d generalizing d' path busy name o with
  | zero => omega
  | succ d ih =>
    cases d' with
    | zero => omega
    | succ d' =>
      simp only [rowsOf]
      by_cases hc : (k.depth = -1 ∨ k.depth > path.length) ∧ o ∉ busy
      · rw [if_pos hc, if_pos hc]
        have hr := room_cons ho hc.2
        have hrec : ∀ nm q, q ∈ dom → rowsOf k h d (path ++ [name]) (o :: busy) nm q = rowsOf k h d' (path ++ [name]) (o :: busy) nm q :=
          fun nm q hq => ih d' _ _ (by omega) (by omega) nm q hq
        congr 1
        refine congr (congrArg HAppend.hAppend (congr (congrArg HAppend.hAppend ?_) ?_)) ?_
        · apply flatMap_congr'
          exact fun c hcm => hrec _ _ (hp.child o ho c (List.mem_filter.1 hcm).1)
        · apply flatMap_congr'
          intro f hf
          unfold fieldRows
          by_cases hpr : f.1.noprint = false ∧ f.1.print = true
          · rw [if_pos hpr, if_pos hpr]
            cases hv : f.2 with
            | obj q => simp only [hrec f.1.name q ((hp.field o ho f hf).2.2 q hv)]
            | _ => rfl
          · rw [if_neg hpr, if_neg hpr]
        · apply flatMap_congr'
          exact fun x hx => hrec _ _ (hp.extra o ho x hx).2
      · rw [if_neg hc, if_neg hc]

/-- C181: printing ends, cycles included, and leaves the printer as it was: printing again gives the same text. -/
theorem C181_print_again (k : Knobs) (h : Heap) (dom : List Nat) (hp : Printable h dom) (o o' : Nat) (ho : o ∈ dom) (ho' : o' ∈ dom) (deep : Nat) (hd : dom.length < deep)
    (emit : List Row → Text) (st : St) (hs : st.stack = [] ∧ st.rows = [] ∧ st.busy = []) :
    ∃ t st1 st2, sprint k h deep emit o' st = .ok (t, st1) ∧ st1.stack = [] ∧ st1.rows = [] ∧ st1.busy = [] ∧
      sprint k h deep emit o st1 = .ok (emit (rowsOf k h deep [] [] (h o).name o), st2) := by
  obtain ⟨s1, e1, a1, b1, c1⟩ := printObject_adds (k := k) hp deep [] [] (by simp) (Nat.lt_of_le_of_lt (List.length_filter_le _ _) hd) (h o').name (hp.name o' ho') o' ho' st hs.1 hs.2.2
  obtain ⟨st2, h2⟩ := C180_rows k h dom hp o ho deep hd emit { s1 with rows := [] } ⟨a1, rfl, b1⟩
  exact ⟨emit s1.rows, { s1 with rows := [] }, st2, by simp only [sprint, e1], a1, rfl, b1, h2⟩

/-- A component `a` with the child `b`; `b` has an integer, an empty string and a reference back to `a`. -/
def demo : Heap := fun o => if o = 0 then { name := ['a'], fullName := ['a'], type := ['T'], id := 1, children := [(1, true)] }
  else { name := ['b'], fullName := ['a', '.', 'b'], type := ['U'], id := 2, fields := [({ name := ['x'] }, .int 255), ({ name := ['s'] }, .str []), ({ name := ['p'] }, .obj 0), ({ name := ['n'] }, .none)] }

theorem good1 (c : Char) (h : c ≠ '.' ∧ c ≠ '[' ∧ c ≠ '(' ∧ c ≠ '{') : GoodName [c] := by
  refine ⟨by simp, by simpa using Ne.symm h.1, ?_⟩
  intro d hd
  simp only [List.head?_cons, Option.some.injEq] at hd
  subst hd
  exact h.2

theorem demo_printable : Printable demo [0, 1] := by
  refine ⟨?_, ?_, ?_, ?_⟩
  · intro o ho
    rcases List.mem_cons.1 ho with rfl | ho
    · exact good1 'a' (by decide)
    · rw [List.mem_singleton.1 ho]; exact good1 'b' (by decide)
  · intro o ho f hf
    rcases List.mem_cons.1 ho with rfl | ho
    · simp [demo] at hf
    · rw [List.mem_singleton.1 ho] at hf
      simp only [demo, Nat.one_ne_zero, if_false, List.mem_cons, List.not_mem_nil, or_false] at hf
      rcases hf with rfl | rfl | rfl | rfl
      · exact ⟨good1 'x' (by decide), by simp, by simp⟩
      · exact ⟨good1 's' (by decide), by simp, by simp⟩
      · exact ⟨good1 'p' (by decide), by simp, by simp⟩
      · exact ⟨good1 'n' (by decide), by simp, by simp⟩
  · intro o ho x hx
    rcases List.mem_cons.1 ho with rfl | ho
    · simp [demo] at hx
    · rw [List.mem_singleton.1 ho] at hx; simp [demo] at hx
  · intro o ho c hc
    rcases List.mem_cons.1 ho with rfl | ho
    · simp [demo] at hc; simp [hc]
    · rw [List.mem_singleton.1 ho] at hc; simp [demo] at hc

example : rowsOf {} demo 3 [] [] ['a'] 0 =
    [⟨0, ['a'], ['T'], ['-'], ['@', '1']⟩, ⟨1, ['b'], ['U'], ['-'], ['@', '2']⟩,
     ⟨2, ['x'], ['i', 'n', 't', 'e', 'g', 'r', 'a', 'l'], ['3', '2'], ['\'', 'h', 'F', 'F']⟩, ⟨2, ['s'], ['s', 't', 'r', 'i', 'n', 'g'], ['0'], ['"', '"']⟩,
     ⟨2, ['p'], ['T'], ['-'], ['@', '1']⟩] := by decide

/-! ## The table -/

theorem widen_ge (k : Knobs) (rows : List Row) (w : Widths) :
    (w.name ≤ (rows.foldl (widen k) w).name ∧ w.type ≤ (rows.foldl (widen k) w).type ∧ w.size ≤ (rows.foldl (widen k) w).size ∧ w.val ≤ (rows.foldl (widen k) w).val) ∧
    ∀ r ∈ rows, k.indent * r.level + r.name.length ≤ (rows.foldl (widen k) w).name ∧ r.type.length ≤ (rows.foldl (widen k) w).type ∧
      r.size.length ≤ (rows.foldl (widen k) w).size ∧ r.val.length ≤ (rows.foldl (widen k) w).val := by
  induction rows generalizing w with
  | nil => simp
  | cons r rows ih =>
    obtain ⟨⟨h1, h2, h3, h4⟩, h5⟩ := ih (widen k w r)
    simp only [List.foldl_cons]
    simp only [widen] at h1 h2 h3 h4
    refine ⟨⟨by simp only [widen]; omega, by simp only [widen]; omega, by simp only [widen]; omega, by simp only [widen]; omega⟩, ?_⟩
    intro r' hr'
    rcases List.mem_cons.1 hr' with rfl | hr'
    · exact ⟨by simp only [widen]; omega, by simp only [widen]; omega, by simp only [widen]; omega, by simp only [widen]; omega⟩
    · exact h5 r' hr'

/-- The columns are narrow enough for the text of 100 spaces. -/
def Narrow (w : Widths) : Prop := w.name ≤ 98 ∧ w.type ≤ 98 ∧ w.size ≤ 98 ∧ w.val ≤ 98

theorem fill_ge (w : Widths) : w.name ≤ fill w ∧ w.type ≤ fill w ∧ w.size ≤ fill w ∧ w.val ≤ fill w ∧ 100 ≤ fill w := by unfold fill; omega

theorem fill_narrow {w : Widths} (h : Narrow w) : fill w = 100 := by unfold Narrow at h; unfold fill; omega

/-- C182 (heading): the columns begin at 0, `w.name + 1`, `w.type + 1` further, `w.size + 1` further. -/
theorem C182_heading_partial (k : Knobs) (hk : k.identifier = true ∧ k.typeName = true ∧ k.size = true) (rows : List Row) :
    ∃ p q s e, tableHeading k (widths k rows) = ['N', 'a', 'm', 'e'] ++ List.replicate p ' ' ++ ['T', 'y', 'p', 'e'] ++ List.replicate q ' ' ++ ['S', 'i', 'z', 'e']
        ++ List.replicate s ' ' ++ ['V', 'a', 'l', 'u', 'e'] ++ List.replicate e ' ' ∧
      4 + p = (widths k rows).name + 1 ∧ 4 + q = (widths k rows).type + 1 ∧ 4 + s = (widths k rows).size + 1 := by
  obtain ⟨⟨h1, h2, h3, h4⟩, -⟩ := widen_ge k rows ⟨4, 4, 4, 5⟩
  simp only [widths] at *
  generalize rows.foldl (widen k) ⟨4, 4, 4, 5⟩ = w at *
  obtain ⟨f1, f2, f3, f4⟩ := fill_ge w
  refine ⟨min (fill w) (w.name - 2) - 1, min (fill w) (w.type - 2) - 1, min (fill w) (w.size - 2) - 1, min (fill w) (w.val - 5) - 1, ?_, by omega, by omega, by omega⟩
  simp only [tableHeading, hk.1, hk.2.1, hk.2.2, if_true, slice, List.append_assoc]

/-- Every cell of the row is in a column of at most 98 characters or has two characters, counting the indentation. -/
def Roomy (k : Knobs) (w : Widths) (r : Row) : Prop :=
  (w.name ≤ 98 ∨ 2 ≤ r.level * k.indent + r.name.length) ∧ (w.type ≤ 98 ∨ 2 ≤ r.type.length) ∧ (w.size ≤ 98 ∨ 2 ≤ r.size.length)

/-- C182 (rows): in the line of a row the columns begin at the same places as in the heading, except that all but the first are one place to the left
when the row is indented.  Neighbouring columns are separated by a space. -/
theorem C182_row_partial (k : Knobs) (hk : k.identifier = true ∧ k.typeName = true ∧ k.size = true) (rows : List Row) (r : Row) (hr : r ∈ rows)
    (hn : Roomy k (widths k rows) r) :
    ∃ i p q s e, tableRow k (widths k rows) r = List.replicate i ' ' ++ r.name ++ List.replicate p ' ' ++ r.type ++ List.replicate q ' ' ++ r.size
        ++ List.replicate s ' ' ++ r.val ++ List.replicate e ' ' ∧
      i = r.level * k.indent - 1 ∧
      i + r.name.length + p = (if r.level * k.indent = 0 then (widths k rows).name + 1 else (widths k rows).name) ∧ 1 ≤ p ∧
      r.type.length + q = (widths k rows).type + 1 ∧ 1 ≤ q ∧ r.size.length + s = (widths k rows).size + 1 ∧ 1 ≤ s := by
  obtain ⟨-, h5⟩ := widen_ge k rows ⟨4, 4, 4, 5⟩
  obtain ⟨h1, h2, h3, h4⟩ := h5 r hr
  obtain ⟨n1, n2, n3⟩ := hn
  simp only [widths] at *
  rw [Nat.mul_comm] at h1
  generalize rows.foldl (widen k) ⟨4, 4, 4, 5⟩ = w at *
  obtain ⟨f1, f2, f3, f4, f5⟩ := fill_ge w
  refine ⟨min (fill w) (r.level * k.indent) - 1, min (fill w) (w.name + 2 - r.name.length - r.level * k.indent) - 1, min (fill w) (w.type + 2 - r.type.length) - 1,
    min (fill w) (w.size + 2 - r.size.length) - 1, min (fill w) (w.val - r.val.length) - 1, ?_, by omega, ?_, by omega, by omega, by omega, by omega, by omega⟩
  · simp only [tableRow, hk.1, hk.2.1, hk.2.2, if_true, slice, List.append_assoc]
  · split <;> omega

/-- C182 fails: in every table with an indented row the columns of that row are not where the heading has them: each begins one place to the left. -/
theorem C182_indented_row_fails (k : Knobs) (hk : k.identifier = true ∧ k.typeName = true ∧ k.size = true) (rows : List Row) (r : Row)
    (hr : r ∈ rows) (hn : Roomy k (widths k rows) r) (hl : 0 < r.level * k.indent) :
    ∃ a b c d, tableHeading k (widths k rows) = a ++ ['T', 'y', 'p', 'e'] ++ b ∧ tableRow k (widths k rows) r = c ++ r.type ++ d ∧ a.length = c.length + 1 := by
  obtain ⟨p, q, s, e, h1, h2, -⟩ := C182_heading_partial k hk rows
  obtain ⟨i, p', q', s', e', g1, -, g2, -⟩ := C182_row_partial k hk rows r hr hn
  rw [if_neg (by omega)] at g2
  refine ⟨['N', 'a', 'm', 'e'] ++ List.replicate p ' ', List.replicate q ' ' ++ ['S', 'i', 'z', 'e'] ++ List.replicate s ' ' ++ ['V', 'a', 'l', 'u', 'e'] ++ List.replicate e ' ',
    List.replicate i ' ' ++ r.name ++ List.replicate p' ' ', List.replicate q' ' ' ++ r.size ++ List.replicate s' ' ' ++ r.val ++ List.replicate e' ' ', ?_, ?_, ?_⟩
  · rw [h1]; simp only [List.append_assoc]
  · rw [g1]; simp only [List.append_assoc]
  · simp only [List.length_append, List.length_replicate, List.length_cons, List.length_nil]; omega

/-- C182 fails for wide tables: where the names have 100 characters or more and are the widest column, a row that is not indented and whose name has one
character has its other columns one place to the left too. -/
theorem C182_wide_fails (k : Knobs) (hk : k.identifier = true ∧ k.typeName = true ∧ k.size = true) (rows : List Row) (r : Row)
    (hl : r.level = 0) (h1 : r.name.length = 1) (hw : 100 ≤ (widths k rows).name)
    (hmax : (widths k rows).type ≤ (widths k rows).name ∧ (widths k rows).size ≤ (widths k rows).name ∧ (widths k rows).val ≤ (widths k rows).name) :
    ∃ a b c d, tableHeading k (widths k rows) = a ++ ['T', 'y', 'p', 'e'] ++ b ∧ tableRow k (widths k rows) r = c ++ r.type ++ d ∧ a.length = c.length + 1 := by
  obtain ⟨p, q, s, e, g1, g2, -⟩ := C182_heading_partial k hk rows
  generalize hW : widths k rows = w at *
  have hf : fill w = w.name := by unfold fill; omega
  refine ⟨['N', 'a', 'm', 'e'] ++ List.replicate p ' ', List.replicate q ' ' ++ ['S', 'i', 'z', 'e'] ++ List.replicate s ' ' ++ ['V', 'a', 'l', 'u', 'e'] ++ List.replicate e ' ',
    slice ' ' (fill w) (r.level * k.indent) ++ r.name ++ slice ' ' (fill w) (w.name + 2 - r.name.length - r.level * k.indent),
    slice ' ' (fill w) (w.type + 2 - r.type.length) ++ (r.size ++ slice ' ' (fill w) (w.size + 2 - r.size.length)) ++ r.val ++ slice ' ' (fill w) (w.val - r.val.length), ?_, ?_, ?_⟩
  · rw [g1]; simp only [List.append_assoc]
  · simp only [tableRow, hk.1, hk.2.1, hk.2.2, if_true, List.append_assoc]
  · simp only [List.length_append, List.length_replicate, List.length_cons, List.length_nil, slice, hf, hl, h1, Nat.zero_mul]; omega

example : let rows : List Row := [⟨0, List.replicate 120 'a', ['T'], ['-'], ['1']⟩, ⟨0, ['b'], ['T'], ['-'], ['1']⟩]
    100 ≤ (widths {} rows).name ∧ (widths {} rows).type ≤ (widths {} rows).name ∧ (widths {} rows).size ≤ (widths {} rows).name ∧ (widths {} rows).val ≤ (widths {} rows).name := by
  decide +kernel

/-- C182 (dashes): in a table of narrow columns the line of dashes covers the columns up to one place before the end of the widest value. -/
theorem C182_dashes_partial (k : Knobs) (hk : k.identifier = true ∧ k.typeName = true ∧ k.size = true) (rows : List Row) (hn : Narrow (widths k rows)) :
    tableDashes k (widths k rows) =
      List.replicate ((widths k rows).name + 1 + ((widths k rows).type + 1) + ((widths k rows).size + 1) + ((widths k rows).val - 1)) '-' := by
  have hf := fill_narrow hn
  obtain ⟨n1, n2, n3, n4⟩ := hn
  simp only [tableDashes, hk.1, hk.2.1, hk.2.2, if_true, slice, hf, List.replicate_append_replicate]
  congr 1
  omega

/-- C182 fails for wide tables: the dashes do not even cover a column of 100 characters or more that is the widest. -/
theorem C182_wide_dashes_fails (k : Knobs) (hk : k.identifier = true ∧ k.typeName = false ∧ k.size = false) (rows : List Row)
    (hw : 100 ≤ (widths k rows).name) (hmax : (widths k rows).type ≤ (widths k rows).name ∧ (widths k rows).size ≤ (widths k rows).name ∧ (widths k rows).val ≤ (widths k rows).name) :
    (tableDashes k (widths k rows)).length = (widths k rows).name - 1 + ((widths k rows).val - 1) := by
  generalize widths k rows = w at *
  have hf : fill w = w.name := by unfold fill; omega
  simp only [tableDashes, hk.1, hk.2.1, hk.2.2, if_true, slice, hf]
  simp only [Bool.false_eq_true, if_false, List.append_nil, List.length_append, List.length_replicate]
  omega

/-- C182 (the whole text): the table is the prefix and the lines, each followed by a line feed and the prefix: dashes, heading, dashes, a line per row, dashes. -/
theorem C182_table_lines (k : Knobs) (rows : List Row) (hk : k.header = true ∧ k.footer = true) :
    ∃ d hd ls, tableEmit k rows = k.pre ++ (([d, hd, d] ++ ls ++ [d]).map fun l => l ++ '\n' :: k.pre).flatten ∧ ls.length = rows.length ∧
      (∀ c ∈ d, c = '-') ∧ hd = tableHeading k (widths k rows) ∧ ∀ (i : Nat) (r : Row), rows[i]? = some r → ls[i]? = some (tableRow k (widths k rows) r) := by
  refine ⟨tableDashes k (widths k rows), tableHeading k (widths k rows), rows.map (tableRow k (widths k rows)), ?_, by simp, ?_, rfl, ?_⟩
  · simp only [tableEmit, tableLines, hk.1, hk.2, if_true, and_self]
  · intro c hc
    simp only [tableDashes, slice] at hc
    simp only [List.mem_append] at hc
    rcases hc with ((hc | hc) | hc) | hc
    · split at hc
      · exact List.eq_of_mem_replicate hc
      · simp at hc
    · split at hc
      · exact List.eq_of_mem_replicate hc
      · simp at hc
    · split at hc
      · exact List.eq_of_mem_replicate hc
      · simp at hc
    · exact List.eq_of_mem_replicate hc
  · intro i r hr
    simp [hr]

example : Narrow (widths {} (rowsOf {} demo 3 [] [] ['a'] 0)) := by unfold Narrow; decide

/-! ## The tree -/

/-- The number of open blocks after the pieces; `none` if a block is closed that was not opened. -/
def blocks : Nat → List Piece → Option Nat
  | c, [] => some c
  | c, .sep 0 :: l => blocks (c + 1) l
  | 0, .sep _ :: _ => none
  | c + 1, .sep (_ + 1) :: l => blocks c l
  | c, .txt _ :: l => blocks c l
  | c, .feed :: l => blocks c l

/-- The levels rise by at most one from row to row. -/
def Steps : Nat → List Row → Prop
  | _, [] => True
  | a, r :: l => r.level ≤ a + 1 ∧ Steps r.level l

theorem steps_append (p a : Nat) (l l' : List Row) (h1 : Steps a l) (h2 : ∀ r ∈ l, p ≤ r.level) (h3 : ∀ b, p ≤ b + 1 → Steps b l') (ha : p ≤ a + 1) : Steps a (l ++ l') := by
  induction l generalizing a with
  | nil => exact h3 a ha
  | cons r l ih =>
    refine ⟨h1.1, ih r.level h1.2 (fun x hx => h2 x (by simp [hx])) ?_⟩
    have := h2 r (by simp)
    omega

/-- Rows at level `p` and below. -/
def Blk (p : Nat) (l : List Row) : Prop := (∀ r ∈ l, p ≤ r.level) ∧ ∀ a, p ≤ a + 1 → Steps a l

theorem Blk.nil (p : Nat) : Blk p [] := ⟨by simp, fun _ _ => trivial⟩

theorem Blk.append {p : Nat} {l l' : List Row} (h : Blk p l) (h' : Blk p l') : Blk p (l ++ l') :=
  ⟨fun r hr => (List.mem_append.1 hr).elim (h.1 r) (h'.1 r), fun a ha => steps_append p a l l' (h.2 a ha) h.1 h'.2 ha⟩

theorem Blk.flatMap {α : Type} {p : Nat} (f : α → List Row) (xs : List α) (h : ∀ x ∈ xs, Blk p (f x)) : Blk p (xs.flatMap f) := by
  induction xs with
  | nil => exact Blk.nil p
  | cons x xs ih => simp only [List.flatMap_cons]; exact (h x (by simp)).append (ih fun y hy => h y (by simp [hy]))

theorem Blk.cons {p : Nat} {r : Row} {l : List Row} (hr : r.level = p) (h : Blk (p + 1) l) : Blk p (r :: l) := by
  refine ⟨?_, fun a ha => ⟨by omega, by rw [hr]; exact h.2 p (by omega)⟩⟩
  intro x hx
  rcases List.mem_cons.1 hx with rfl | hx
  · omega
  · have := h.1 x hx; omega

theorem rowsOf_blk (k : Knobs) (h : Heap) (d : Nat) (path : List Text) (busy : List Nat) (name : Text) (o : Nat) : Blk path.length (rowsOf k h d path busy name o) := by
  induction d generalizing path busy name o with
  | zero => exact Blk.nil _
  | succ d ih =>
    rw [rowsOf]
    apply Blk.cons (by rfl)
    have ih' : ∀ nm q, Blk (path.length + 1) (rowsOf k h d (path ++ [name]) (o :: busy) nm q) := by
      intro nm q
      have := ih (path ++ [name]) (o :: busy) nm q
      simpa using this
    split
    · refine Blk.append (Blk.append (Blk.flatMap _ _ fun c _ => ih' _ _) (Blk.flatMap _ _ fun f _ => ?_)) (Blk.flatMap _ _ fun x _ => ih' _ _)
      have single : ∀ r : Row, r.level = path.length + 1 → Blk (path.length + 1) [r] := fun r hr => Blk.cons hr (Blk.nil _)
      unfold fieldRows
      split
      · cases f.2 with
        | none => exact Blk.nil _
        | other => exact Blk.nil _
        | int v => exact single _ (by simp)
        | str s => exact single _ (by simp)
        | obj q =>
          simp only
          split
          · exact single _ (by simp [objectRow])
          · exact ih' _ _
      · exact Blk.nil _
    · exact Blk.nil _

theorem blocks_close (k : Knobs) (a n : Nat) (hn : n ≤ a) (l : List Piece) (off : Nat) :
    blocks a (((List.range' off n).map fun i => [Piece.txt (List.replicate (min 100 ((a + off - 1 - i) * k.indent + 1) - 1) ' '), .sep 1, .feed]).flatten ++ l) = blocks (a - n) l := by
  induction n generalizing a off with
  | zero => simp
  | succ n ih =>
    obtain ⟨a', rfl⟩ : ∃ a', a = a' + 1 := ⟨a - 1, by omega⟩
    rw [List.range'_succ, List.map_cons, List.flatten_cons]
    simp only [List.cons_append, List.nil_append, blocks]
    have e : ∀ i, a' + 1 + off - 1 - i = a' + (off + 1) - 1 - i := fun i => by omega
    simp only [e]
    rw [ih a' (by omega) (off + 1)]
    congr 1
    omega

theorem blocks_treeClose (k : Knobs) (a b : Nat) (h : b ≤ a) (l : List Piece) : blocks a (treeClose k a b ++ l) = blocks b l := by
  unfold treeClose
  have := blocks_close k a (a - b) (by omega) l 0
  rw [← List.range_eq_range'] at this
  simp only [Nat.add_zero] at this
  rw [this]
  congr 1
  omega

theorem blocks_treeRows (k : Knobs) (r : Row) (rest : List Row) (hs : Steps r.level rest) : blocks r.level (treeRows k (r :: rest)) = some 0 := by
  induction rest generalizing r with
  | nil =>
    simp only [treeRows, List.append_nil, List.cons_append, List.nil_append, blocks]
    have := blocks_treeClose k r.level 0 (by omega) []
    simp only [List.append_nil] at this
    rw [this]; rfl
  | cons nx rest ih =>
    obtain ⟨h1, h2⟩ := hs
    have ih' := ih nx h2
    rw [treeRows]
    by_cases hc : nx.level > r.level
    · have : nx.level = r.level + 1 := by omega
      simp only [hc, if_true, List.cons_append, List.nil_append, blocks]
      rw [← this]; exact ih'
    · simp only [hc, if_false, List.cons_append, List.nil_append, blocks]
      rw [blocks_treeClose k r.level nx.level (by omega)]
      exact ih'

/-- C183: in what the tree printer makes of any object, the blocks are balanced: no block is closed that is not open, and at the end all are closed. -/
theorem C183_tree_balanced (k : Knobs) (h : Heap) (d : Nat) (name : Text) (o : Nat) : blocks 0 (treeRows k (rowsOf k h (d + 1) [] [] name o)) = some 0 := by
  have hb := rowsOf_blk k h (d + 1) [] [] name o
  rw [rowsOf] at hb ⊢
  have := (hb.2 0 (by simp)).2
  exact blocks_treeRows k _ _ this

/-- What a piece looks like: a text, an opening or closing separator, or the end of a line. -/
def look (sep : Text) (eol : Text) : Piece → Text
  | .txt t => t
  | .sep 0 => sep.take 1
  | .sep 1 => (sep.drop 1).take 1
  | .sep _ => []
  | .feed => eol

/-- C183: the text is the concatenation of the pieces; a line ends with a line feed, and each line begins with the prefix; with the line printer
everything is one line. -/
theorem C183_tree_text (k : Knobs) (rows : List Row) (hk : k.separator.length ≤ 2) :
    treeEmit k ['\n'] rows = k.pre ++ (treeRows k rows).flatMap (look k.separator ('\n' :: k.pre)) ∧
    treeEmit k [' '] rows = k.pre ++ (treeRows k rows).flatMap (look k.separator [' ']) ++ ['\n'] := by
  have h : ∀ (nl eol : Text) (p : Piece), pieceText k nl .feed = eol → pieceText k nl p = look k.separator eol p := by
    intro nl eol p hp
    match p with
    | .txt t => rfl
    | .sep 0 => simp only [pieceText, look]; match k.separator with
      | [] => rfl
      | _ :: _ => rfl
    | .sep 1 => simp only [pieceText, look]; match k.separator with
      | [] => rfl
      | [_] => rfl
      | _ :: _ :: _ => rfl
    | .sep (n + 2) => simp only [pieceText, look]; rw [List.getElem?_eq_none (by omega)]; rfl
    | .feed => exact hp
  have h1 : pieceText k ['\n'] = look k.separator ('\n' :: k.pre) := funext fun p => h _ _ p (by simp [pieceText])
  have h2 : pieceText k [' '] = look k.separator [' '] := funext fun p => h _ _ p (by simp [pieceText])
  constructor
  · simp [treeEmit, List.flatMap, h1]
  · simp [treeEmit, List.flatMap, h2]

/-- C183: what a row begins with: the indentation, the name with a colon, then the type (always for references, with the address) and the size, in
parentheses; what is switched off in the knobs is left out. -/
theorem C183_row_text (k : Knobs) (r : Row) (v : Char) (vs : Text) (hv : r.val = v :: vs) :
    (k.identifier = true → ∃ n, treeHead k r = List.replicate n ' ' ++ r.name ++ (if r.name = [] ∨ r.name = "...".toList then [] else ": ".toList)
      ++ treeHead { k with identifier := false } r ∧ n = min 100 (r.level * k.indent) - 1) ∧
    (k.identifier = false → v = '@' → treeHead k r = '(' :: r.type ++ r.val ++ ") ".toList ++ treeHead { k with typeName := false } { r with val := ['-'] }) ∧
    (k.identifier = false → v ≠ '@' → k.typeName = true → treeHead k r = '(' :: r.type ++ ") ".toList ++ treeHead { k with typeName := false } r) ∧
    (k.identifier = false → v ≠ '@' → k.typeName = false → k.size = true → treeHead k r = '(' :: r.size ++ ") ".toList) ∧
    (k.identifier = false → v ≠ '@' → k.typeName = false → k.size = false → treeHead k r = []) := by
  refine ⟨fun h => ⟨_, ?_, rfl⟩, fun h hv' => ?_, fun h hv' ht => ?_, fun h hv' ht hs => ?_, fun h hv' ht hs => ?_⟩
  · have e : (if r.name ≠ [] ∧ r.name ≠ ['.', '.', '.'] then [':', ' '] else []) =
        (if r.name = [] ∨ r.name = "...".toList then [] else ": ".toList) := by
      by_cases h1 : r.name = []
      · simp [h1]
      · by_cases h2 : r.name = ['.', '.', '.'] <;> simp [h1, h2]
    simp only [treeHead, h, if_true, Bool.false_eq_true, if_false, List.nil_append, e, List.append_assoc]
  · simp [treeHead, h, hv, hv']
  · simp [treeHead, h, hv, hv', ht]
  · simp [treeHead, h, hv, hv', ht, hs]
  · simp [treeHead, h, hv, hv', ht, hs]

example : treeHead {} ⟨1, ['a'], ['T'], ['4'], ['7']⟩ = " a: (T) (4) ".toList := by decide

/-- C183: a block is opened after a row exactly when the next row is deeper. -/
theorem C183_block_per_object (k : Knobs) (r nx : Row) (rest : List Row) :
    (nx.level > r.level → treeRows k (r :: nx :: rest) = [.txt (treeHead k r), .sep 0, .feed] ++ treeRows k (nx :: rest)) ∧
    (¬ nx.level > r.level → treeRows k (r :: nx :: rest) = [.txt (treeHead k r), .txt (r.val ++ [' ']), .feed] ++ treeClose k r.level nx.level ++ treeRows k (nx :: rest)) := by
  constructor
  · intro h; rw [treeRows, if_pos h]
  · intro h; rw [treeRows, if_neg h]

example : (rowsOf {} demo 3 [] [] ['a'] 0).map (·.level) = [0, 1, 2, 2, 2] := by decide
example : (treeRows {} (rowsOf {} demo 3 [] [] ['a'] 0)).filter (fun p => p == .sep 0 || p == .sep 1) = [.sep 0, .sep 0, .sep 1, .sep 1] := by decide

/-! ## Numbers -/

theorem digitValue_digit (d : Nat) (h : d < 16) : digitValue (digit d) = d := by
  have : ∀ d : Fin 16, digitValue (digit d.1) = d.1 := by decide
  exact this ⟨d, h⟩

theorem valueOf_foldl (b : Nat) (t : Text) (a : Nat) : t.foldl (fun a c => a * b + digitValue c) a = a * b ^ t.length + valueOf b t := by
  induction t generalizing a with
  | nil => simp [valueOf]
  | cons c t ih =>
    simp only [valueOf, List.foldl_cons]
    rw [ih, ih (0 * b + digitValue c)]
    simp only [List.length_cons, Nat.pow_succ]
    rw [Nat.add_mul, Nat.zero_mul, Nat.zero_add, Nat.mul_assoc, Nat.mul_comm b, Nat.add_assoc]

theorem valueOf_cons (b : Nat) (c : Char) (t : Text) : valueOf b (c :: t) = digitValue c * b ^ t.length + valueOf b t := by
  have := valueOf_foldl b t (digitValue c)
  simpa [valueOf] using this

theorem digitsAux_value (b : Nat) (hb : 2 ≤ b) (hb' : b ≤ 16) (fuel n : Nat) (hf : n < fuel) (acc : Text) :
    valueOf b (digitsAux b fuel n acc) = n * b ^ acc.length + valueOf b acc := by
  induction fuel generalizing n acc with
  | zero => omega
  | succ fuel ih =>
    rw [digitsAux]
    split
    · next h => rw [valueOf_cons, digitValue_digit n (by omega)]
    · next h =>
      have hlt : n / b < fuel := by
        have : n / b < n := Nat.div_lt_self (by omega) (by omega)
        omega
      rw [ih _ hlt, valueOf_cons, digitValue_digit _ (Nat.lt_of_lt_of_le (Nat.mod_lt _ (by omega)) hb'), List.length_cons, Nat.pow_succ, ← Nat.add_assoc]
      congr 1
      have := Nat.div_add_mod n b
      rw [Nat.mul_comm (b ^ acc.length) b, ← Nat.mul_assoc, ← Nat.add_mul, Nat.mul_comm (n / b) b, this]

theorem valueOf_digits (b : Nat) (hb : 2 ≤ b) (hb' : b ≤ 16) (n : Nat) : valueOf b (digits b n) = n := by
  rw [digits, digitsAux_value b hb hb' _ _ (by omega)]
  simp [valueOf]

/-- C184: in hexadecimal and in binary a value is printed as its remainder modulo `2^size`, to the right base. -/
theorem C184_hex_bin_partial (v : Int) (size : Nat) (pre : Text) :
    (∃ t, bitstreamToString v size .hex pre = pre ++ t ∧ (valueOf 16 t : Int) = v % 2 ^ size) ∧
    (∃ t, bitstreamToString v size .bin pre = pre ++ t ∧ (valueOf 2 t : Int) = v % 2 ^ size) := by
  have h0 : 0 ≤ v % 2 ^ size := Int.emod_nonneg _ (by
    have : (0 : Int) < 2 ^ size := Int.pow_pos (by omega)
    omega)
  constructor
  · refine ⟨digits 16 (v % 2 ^ size).toNat, by simp [bitstreamToString, numWithRadix], ?_⟩
    rw [valueOf_digits 16 (by omega) (by omega)]; omega
  · refine ⟨digits 2 (v % 2 ^ size).toNat, by simp [bitstreamToString, numWithRadix], ?_⟩
    rw [valueOf_digits 2 (by omega) (by omega)]; omega

/-- C184: a non-negative value below the sign bit is printed in decimal, with the prefix of the radix; other values with a sign if they are negative, and
without the prefix, not reduced to the size. -/
theorem C184_dec_partial (v : Int) (size : Nat) (pre : Text) :
    (0 ≤ v → v < 2 ^ (size - 1) → ∃ t, bitstreamToString v size .dec pre = pre ++ t ∧ (valueOf 10 t : Int) = v) ∧
    (v < 0 → ∃ t, bitstreamToString v size .dec pre = '-' :: t ∧ (valueOf 10 t : Int) = - v) ∧
    (2 ^ (size - 1) ≤ v → ∃ t, bitstreamToString v size .dec pre = t ∧ (valueOf 10 t : Int) = v) := by
  have hp : (0 : Int) < 2 ^ (size - 1) := Int.pow_pos (by omega)
  refine ⟨?_, ?_, ?_⟩
  · intro h0 h1
    have hle : (2 : Int) ^ (size - 1) ≤ 2 ^ size := by
      rcases Nat.eq_zero_or_pos size with h | h
      · subst h; simp
      · obtain ⟨n, rfl⟩ : ∃ n, size = n + 1 := ⟨size - 1, by omega⟩
        simp only [Nat.add_sub_cancel] at *
        rw [Int.pow_succ]; omega
    have hm : v % 2 ^ size = v := Int.emod_eq_of_lt h0 (by omega)
    refine ⟨digits 10 v.toNat, ?_, ?_⟩
    · simp [bitstreamToString, h0, h1, numWithRadix, hm]
    · rw [valueOf_digits 10 (by omega) (by omega)]; omega
  · intro h0
    refine ⟨digits 10 v.natAbs, ?_, ?_⟩
    · have : ¬ (0 ≤ v ∧ v < 2 ^ (size - 1)) := by omega
      simp [bitstreamToString, this, decimal, h0]
    · rw [valueOf_digits 10 (by omega) (by omega)]; omega
  · intro h0
    refine ⟨digits 10 v.natAbs, ?_, ?_⟩
    · have : ¬ (0 ≤ v ∧ v < 2 ^ (size - 1)) := by omega
      have h1 : ¬ v < 0 := by omega
      simp [bitstreamToString, this, decimal, h1]
    · rw [valueOf_digits 10 (by omega) (by omega)]; omega

/-- C184: with the default knobs an integer field is printed as `'h` and the hexadecimal digits of its value modulo `2^32`. -/
theorem C184_default_field_partial (f : Field) (v : Int) (st : St) :
    ∃ nm t, (printInt {} f v st).rows = st.rows ++ [⟨st.stack.length, nm, ['i', 'n', 't', 'e', 'g', 'r', 'a', 'l'], ['3', '2'], ['\'', 'h'] ++ t⟩] ∧ (valueOf 16 t : Int) = v % 2 ^ 32 := by
  obtain ⟨⟨t, h1, h2⟩, -⟩ := C184_hex_bin_partial v 32 ['\'', 'h']
  have : digits 10 32 = ['3', '2'] := by decide
  exact ⟨_, t, by simp only [printInt]; rw [show radixStr {} Radix.hex = ['\'', 'h'] from rfl, h1, this], h2⟩

/-- C184: the prefixes of the radices; none when the knob is off. -/
theorem C184_prefix_partial (k : Knobs) :
    (k.showRadix = true → radixStr k .bin = ['\'', 'b'] ∧ radixStr k .oct = ['\'', 'o'] ∧ radixStr k .dec = ['\'', 'd'] ∧ radixStr k .unsigned = ['\'', 'd'] ∧
      radixStr k .hex = ['\'', 'h'] ∧ radixStr k .noradix = (if k.defaultRadix = .noradix then [] else radixStr k k.defaultRadix)) ∧
    (k.showRadix = false → ∀ r, radixStr k r = []) := by
  constructor
  · intro h
    refine ⟨by simp [radixStr, h], by simp [radixStr, h], by simp [radixStr, h], by simp [radixStr, h], by simp [radixStr, h], ?_⟩
    cases hd : k.defaultRadix <;> simp [radixStr, h, hd]
  · exact fun h r => by simp [radixStr, h]

/-- C184 fails: in octal the digits are the decimal ones: 8 is printed as `8`. -/
theorem C184_octal_fails : bitstreamToString 8 32 .oct ['\'', 'o'] = ['\'', 'o', '8'] ∧ ∀ v : Int, ∃ t, bitstreamToString v 32 .oct ['\'', 'o'] = ['\'', 'o'] ++ t ∧ (valueOf 10 t : Int) = v % 2 ^ 32 := by
  refine ⟨by decide, fun v => ⟨digits 10 (v % 2 ^ 32).toNat, by simp [bitstreamToString, numWithRadix], ?_⟩⟩
  rw [valueOf_digits 10 (by omega) (by omega)]; omega

/-- C184 fails: a value that does not fit is not reduced in decimal, and `print_field_int` prints another text for a negative value than `print_field`. -/
theorem C184_dec_fails : bitstreamToString 300 8 .dec ['\'', 'd'] = ['3', '0', '0'] ∧ bitstreamToString (-1) 8 .dec ['\'', 'd'] = ['-', '1'] ∧
    integralToString (-1) 8 .dec ['\'', 'd'] = ['\'', 'd', '2', '5', '5'] := by decide

/-- C184 fails: the radix given to a field is not used. -/
theorem C184_field_radix_fails (k : Knobs) (f : Field) (r : Radix) (v : Int) (st : St) : (printInt k { f with radix := r } v st).rows = (printInt k f v st).rows := rfl

/-! ## Names of elements -/

/-- C185: entering and leaving a scope with a good name leaves the scopes as they were. -/
theorem C185_scope_partial (S : List Text) (t : Text) (ht : GoodName t) (hS : ∀ s ∈ S, GoodName s) (arg : Text) (ha : GoodName arg) :
    upStack (S ++ [t]) = S ∧ scopeGet (S ++ [t]) arg = dotted (S ++ [t, arg]) := by
  refine ⟨upStack_good S t ht, ?_⟩
  rw [scopeGet_good (S ++ [t]) arg ?_ ha]
  · simp
  · intro s hs
    rcases List.mem_append.1 hs with hs | hs
    · exact hS s hs
    · rw [List.mem_singleton.1 hs]; exact ht

/-- An object whose `do_print` prints two elements and another object. -/
def elems : Heap := fun o => if o = 0 then { name := ['a'], fullName := ['a'], type := ['T'], id := 1, extra := [(['[', '0', ']'], 1), (['[', '1', ']'], 1), (['b'], 1)] }
  else { name := ['e'], fullName := ['e'], type := ['U'], id := 2, fields := [({ name := ['x'] }, .int 1)] }

/-- C185 fails: an object printed under a name in brackets, as elements of arrays are, also closes the scope around it: what follows is printed as if it were
at the top. -/
theorem C185_element_fails :
    (match printObject {} elems 9 ['a'] 0 {} with
     | .ok st => st.rows.map fun r => (r.level, r.name)
     | .error _ => []) = [(0, ['a']), (1, ['[', '0', ']']), (2, ['x']), (0, ['[', '1', ']']), (1, ['x']), (0, ['b']), (1, ['x'])] := by decide

end Verif.Printer
