import Verif.Spec.Printer
namespace Verif.Printer

theorem good_not_bracket {t : Text} (h : GoodName t) : bracket t = false := by
  obtain ⟨h1, _, h3⟩ := h
  cases t with
  | nil => exact absurd rfl h1
  | cons c t =>
    obtain ⟨a, b, d⟩ := h3 c rfl
    simp [bracket, a, b, d]

theorem foldl_getStep (rest : List Text) (s : Text) (h : ∀ t ∈ rest, GoodName t) : rest.foldl getStep s = s ++ rest.flatMap ('.' :: ·) := by
  induction rest generalizing s with
  | nil => simp
  | cons t rest ih =>
    rw [List.foldl_cons, ih _ (fun t ht => h t (by simp [ht])), getStep, good_not_bracket (h t (by simp))]
    simp

theorem dotted_snoc (s : Text) (rest : List Text) (t : Text) : dotted (s :: rest ++ [t]) = dotted (s :: rest) ++ '.' :: t := by
  simp [dotted, List.flatMap_append]

theorem scopeGet_good (S : List Text) (t : Text) (hS : ∀ s ∈ S, GoodName s) (ht : GoodName t) : scopeGet S t = dotted (S ++ [t]) := by
  cases S with
  | nil => simp [scopeGet, dotted]
  | cons s rest =>
    rw [dotted_snoc]
    simp only [scopeGet]
    rw [foldl_getStep rest s (fun t ht => hS t (by simp [ht])), if_pos ht.1]
    have hs := (hS s (by simp)).1
    rw [if_pos (by simp [hs])]
    rfl

theorem dotted_ne_dots (S : List Text) (t : Text) (ht : GoodName t) : dotted (S ++ [t]) ≠ ['.', '.', '.'] := by
  intro h
  have hl : (dotted (S ++ [t])).getLast? = t.getLast? := by
    cases S with
    | nil => simp [dotted]
    | cons s rest =>
      rw [dotted_snoc, List.getLast?_append]
      obtain ⟨c, cs, rfl⟩ := List.exists_cons_of_ne_nil ht.1
      simp [List.getLast?_cons]
  rw [h] at hl
  have : t.getLast? = some '.' := by rw [← hl]; rfl
  exact ht.2.1 (List.mem_of_getLast? this)

theorem leafScope_good (S : List Text) (t : Text) (ht : GoodName t) (hS : ∀ s ∈ S, GoodName s) : leafScope (dotted (S ++ [t])) = t := by
  cases S with
  | nil => simp [leafScope, dotted, ht.2.1]
  | cons s rest =>
    rw [dotted_snoc]
    obtain ⟨c, cs, hX⟩ : ∃ c cs, dotted (s :: rest) = c :: cs := by
      obtain ⟨c, cs, e⟩ := List.exists_cons_of_ne_nil (hS s (by simp)).1
      exact ⟨c, cs ++ rest.flatMap ('.' :: ·), by simp [dotted, e]⟩
    rw [hX, leafScope, if_neg (by simp), if_pos (by simp)]
    have : ((c :: cs) ++ '.' :: t).reverse = t.reverse ++ '.' :: (c :: cs).reverse := by simp
    rw [this, List.takeWhile_append_of_pos]
    · simp
    · intro x hx
      have : x ∈ t := by simpa using hx
      have h2 : x ≠ '.' := fun e => ht.2.1 (e ▸ this)
      simp [h2]

theorem adjustName_good (k : Knobs) (S : List Text) (t : Text) (ht : GoodName t) (hS : ∀ s ∈ S, GoodName s) (hs : S ≠ [] ∨ k.showRoot = false) :
    adjustName k S.length (scopeGet S t) = shown k S t := by
  rw [scopeGet_good S t hS ht]
  unfold adjustName shown
  have h1 : (k.showRoot && S.length == 0) = false := by
    rcases hs with h | h
    · obtain ⟨s, S', rfl⟩ := List.exists_cons_of_ne_nil h
      simp
    · simp [h]
  have h2 : (dotted (S ++ [t]) == ['.', '.', '.']) = false := by
    simpa using dotted_ne_dots S t ht
  simp only [h1, h2, Bool.false_or, Bool.or_false]
  cases k.fullName
  · simp [leafScope_good S t ht hS]
  · simp

/-! ## Rows -/

/-- What a step of printing does: it keeps the scopes and the objects in progress and adds rows. -/
def Adds (f : St → Except Err St) (S : List Text) (B : List Nat) (rs : List Row) : Prop :=
  ∀ st : St, st.stack = S → st.busy = B → ∃ st', f st = .ok st' ∧ st'.stack = S ∧ st'.busy = B ∧ st'.rows = st.rows ++ rs

theorem each_adds {α : Type} (f : α → St → Except Err St) (S : List Text) (B : List Nat) (g : α → List Row) (xs : List α) (h : ∀ x ∈ xs, Adds (f x) S B (g x)) :
    Adds (each f xs) S B (xs.flatMap g) := by
  induction xs with
  | nil => exact fun st h1 h2 => ⟨st, rfl, h1, h2, by simp⟩
  | cons x xs ih =>
    intro st h1 h2
    obtain ⟨s1, e1, a1, b1, c1⟩ := h x (by simp) st h1 h2
    obtain ⟨s2, e2, a2, b2, c2⟩ := ih (fun y hy => h y (by simp [hy])) s1 a1 b1
    exact ⟨s2, by simp only [each, e1, e2], a2, b2, by rw [c2, c1]; simp⟩

theorem printHeader_adds (k : Knobs) (ob : Obj) (name : Text) (S : List Text) (B : List Nat) (hn : GoodName name) (hS : ∀ s ∈ S, GoodName s) :
    Adds (fun st => .ok (printHeader k ob name st)) S B [objectRow k ob S name] := by
  intro st h1 h2
  have he : headerName ob name S.length = name := by simp [headerName, hn.1]
  refine ⟨_, rfl, h1, h2, ?_⟩
  simp only [printHeader, h1, he, objectRow, valueStr, List.length_eq_zero_iff]
  by_cases hs : S = [] ∧ k.showRoot = true
  · simp [hs]
  · have : S ≠ [] ∨ k.showRoot = false := by
      by_cases h3 : S = []
      · exact .inr (by cases hk : k.showRoot with
          | false => rfl
          | true => exact absurd ⟨h3, hk⟩ hs)
      · exact .inl h3
    rw [if_neg hs, if_neg hs, adjustName_good k S name hn hS this]

theorem printInt_adds (k : Knobs) (f : Field) (v : Int) (S : List Text) (B : List Nat) (hn : GoodName f.name) (hS : ∀ s ∈ S, GoodName s) (hne : S ≠ []) :
    Adds (fun st => .ok (printInt k f v st)) S B
      [⟨S.length, shown k S f.name, ['i', 'n', 't', 'e', 'g', 'r', 'a', 'l'], ['3', '2'], bitstreamToString v 32 k.defaultRadix (radixStr k k.defaultRadix)⟩] := by
  intro st h1 h2
  refine ⟨_, rfl, h1, h2, ?_⟩
  simp only [printInt, hn.1, if_false, h1]
  rw [adjustName_good k S _ hn hS (.inl hne)]
  have : digits 10 32 = ['3', '2'] := by decide
  rw [this]

theorem printString_adds (k : Knobs) (name s : Text) (S : List Text) (B : List Nat) (hn : GoodName name) (hS : ∀ s ∈ S, GoodName s) (hne : S ≠ []) :
    Adds (fun st => .ok (printString k name s st)) S B
      [⟨S.length, shown k S name, ['s', 't', 'r', 'i', 'n', 'g'], digits 10 s.length, if s = [] then ['"', '"'] else s⟩] := by
  intro st h1 h2
  refine ⟨_, rfl, h1, h2, ?_⟩
  simp only [printString, hn.1, if_false, h1]
  rw [adjustName_good k S _ hn hS (.inl hne)]

theorem printField_adds (k : Knobs) (h : Heap) (rec : Text → Nat → St → Except Err St) (r : Text → Nat → List Row) (S : List Text) (B : List Nat) (f : Field × Val)
    (hn : GoodName f.1.name) (ho : f.2 ≠ .other) (hr : ∀ q, f.2 = .obj q → Adds (rec f.1.name q) S B (r f.1.name q)) (hS : ∀ s ∈ S, GoodName s) (hne : S ≠ []) :
    Adds (printField k h rec f) S B (fieldRows k h r S f) := by
  by_cases hp : f.1.noprint = false ∧ f.1.print = true
  · have e1 : fieldRows k h r S f = match f.2 with
      | .int v => [⟨S.length, shown k S f.1.name, ['i', 'n', 't', 'e', 'g', 'r', 'a', 'l'], ['3', '2'], bitstreamToString v 32 k.defaultRadix (radixStr k k.defaultRadix)⟩]
      | .str s => [⟨S.length, shown k S f.1.name, ['s', 't', 'r', 'i', 'n', 'g'], digits 10 s.length, if s = [] then ['"', '"'] else s⟩]
      | .obj o => if f.1.reference then [objectRow k (h o) S f.1.name] else r f.1.name o
      | _ => [] := by rw [fieldRows, if_pos hp]; cases f.2 <;> rfl
    have e2 : printField k h rec f = fun st => match f.2 with
      | .none => .ok st
      | .int v => .ok (printInt k f.1 v st)
      | .obj o => if f.1.reference then .ok (printHeader k (h o) f.1.name st) else rec f.1.name o st
      | .str s => .ok (printString k f.1.name s st)
      | .other => .error .raised := by funext st; rw [printField, if_pos hp]; cases f.2 <;> rfl
    rw [e1, e2]
    cases hv : f.2 with
    | none => exact fun st h1 h2 => ⟨st, rfl, h1, h2, by simp⟩
    | other => exact absurd hv ho
    | int v => exact printInt_adds k f.1 v S B hn hS hne
    | str s => exact printString_adds k f.1.name s S B hn hS hne
    | obj q =>
      cases hf : f.1.reference with
      | true => simpa using printHeader_adds k (h q) f.1.name S B hn hS
      | false => simpa using hr q hv
  · have e2 : printField k h rec f = fun st => .ok st := by funext st; rw [printField, if_neg hp]
    rw [e2, fieldRows, if_neg hp]
    exact fun st h1 h2 => ⟨st, rfl, h1, h2, by simp⟩

def room (dom busy : List Nat) : Nat := (dom.filter fun o => decide (o ∉ busy)).length

theorem room_cons {dom busy : List Nat} {o : Nat} (ho : o ∈ dom) (hb : o ∉ busy) : room dom (o :: busy) < room dom busy := by
  unfold room
  have h1 : (dom.filter fun x => decide (x ∉ o :: busy)) = (dom.filter fun x => decide (x ∉ busy)).filter fun x => decide (x ≠ o) := by
    rw [List.filter_filter]
    congr 1
    funext x
    by_cases h : x = o <;> simp [h]
  rw [h1]
  apply Nat.lt_of_le_of_ne (List.length_filter_le _ _)
  intro he
  have := List.length_filter_eq_length_iff.1 he o (by simp [ho, hb])
  simp at this

theorem upStack_good (S : List Text) (t : Text) (ht : GoodName t) : upStack (S ++ [t]) = S := by
  simp [upStack, popScopes, good_not_bracket ht]

theorem printObject_noname (k : Knobs) (h : Heap) (n o : Nat) (st : St) (hne : st.stack ≠ []) (hn : GoodName (h o).name) :
    printObject k h n [] o st = printObject k h n (h o).name o st := by
  cases n with
  | zero => rfl
  | succ n =>
    have e : printHeader k (h o) [] st = printHeader k (h o) (h o).name st := by
      have : st.stack.length ≠ 0 := by simpa using hne
      have : headerName (h o) [] st.stack.length = headerName (h o) (h o).name st.stack.length := by simp [headerName, this, hn.1]
      simp only [printHeader, this]
    simp only [printObject, e, if_true, hn.1, if_false]

theorem printObject_adds {k : Knobs} {h : Heap} {dom : List Nat} (hp : Printable h dom) (n : Nat) (S : List Text) (B : List Nat) (hS : ∀ s ∈ S, GoodName s)
    (hn : room dom B < n) (name : Text) (hname : GoodName name) (o : Nat) (ho : o ∈ dom) :
    Adds (printObject k h n name o) S B (rowsOf k h n S B name o) := by
  induction n generalizing S B name o with
  | zero => omega
  | succ n ih =>
    intro st h1 h2
    obtain ⟨s0, e0, a0, b0, c0⟩ := printHeader_adds k (h o) name S B hname hS st h1 h2
    rw [Except.ok.injEq] at e0
    simp only [printObject, e0, a0, b0, rowsOf]
    by_cases hc : (k.depth = -1 ∨ k.depth > S.length) ∧ o ∉ B
    · rw [if_pos hc, if_pos hc]
      simp only [hname.1, if_false]
      have hr := room_cons ho hc.2
      have hS' : ∀ s ∈ S ++ [name], GoodName s := by
        intro s hs
        rcases List.mem_append.1 hs with hs | hs
        · exact hS s hs
        · rw [List.mem_singleton.1 hs]; exact hname
      have hrec : ∀ nm q, GoodName nm → q ∈ dom → Adds (printObject k h n nm q) (S ++ [name]) (o :: B) (rowsOf k h n (S ++ [name]) (o :: B) nm q) :=
        fun nm q hg hq => ih (S ++ [name]) (o :: B) hS' (by omega) nm hg q hq
      -- the children
      have hchild := each_adds (printChild (printObject k h n)) (S ++ [name]) (o :: B)
        (fun c => if c.2 then rowsOf k h n (S ++ [name]) (o :: B) (h c.1).name c.1 else []) (h o).children (by
          intro c hcm st1 k1 k2
          unfold printChild
          have hq := hp.child o ho c hcm
          cases c.2 with
          | false => exact ⟨st1, rfl, k1, k2, by simp⟩
          | true =>
            simp only [if_true]
            rw [printObject_noname k h n c.1 st1 (by rw [k1]; simp) (hp.name c.1 hq)]
            exact hrec _ _ (hp.name c.1 hq) hq st1 k1 k2)
      have hfields := each_adds (printField k h (printObject k h n)) (S ++ [name]) (o :: B)
        (fieldRows k h (rowsOf k h n (S ++ [name]) (o :: B)) (S ++ [name])) (h o).fields (by
          intro f hf
          obtain ⟨g1, g2, g3⟩ := hp.field o ho f hf
          exact printField_adds k h _ _ _ _ f g1 g2 (fun q hq => hrec _ _ g1 (g3 q hq)) hS' (by simp))
      have hextra := each_adds (fun x : Text × Nat => printObject k h n x.1 x.2) (S ++ [name]) (o :: B)
        (fun x => rowsOf k h n (S ++ [name]) (o :: B) x.1 x.2) (h o).extra (by
          intro x hx
          obtain ⟨g1, g2⟩ := hp.extra o ho x hx
          exact hrec _ _ g1 g2)
      obtain ⟨s1, e1, a1, b1, c1⟩ := hchild { s0 with busy := o :: B, stack := S ++ [name], arg := [] } rfl rfl
      obtain ⟨s2, e2, a2, b2, c2⟩ := hfields s1 a1 b1
      obtain ⟨s3, e3, a3, b3, c3⟩ := hextra s2 a2 b2
      have hne : s1.stack ≠ [] := by rw [a1]; simp
      rw [e1]
      simp only [if_neg hne, e2, e3]
      refine ⟨_, rfl, ?_, ?_, ?_⟩
      · simp only [a3]; exact upStack_good S name hname
      · simp [b3]
      · simp only [c3, c2, c1, c0]
        have : (h o).children.flatMap (fun c => if c.2 then rowsOf k h n (S ++ [name]) (o :: B) (h c.1).name c.1 else []) =
            ((h o).children.filter (·.2)).flatMap (fun c => rowsOf k h n (S ++ [name]) (o :: B) (h c.1).name c.1) := by
          generalize (h o).children = l
          induction l with
          | nil => rfl
          | cons c l ihl =>
            cases hc2 : c.2 <;> simp [hc2, ihl]
        rw [this]
        simp
    · rw [if_neg hc, if_neg hc]
      exact ⟨s0, rfl, a0, b0, c0⟩

end Verif.Printer
