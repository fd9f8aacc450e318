import Verif.Spec.Cmdline
import Verif.Lemmas.Text
/-! # C46: command line queries; C70: argument lists; C71: report settings from the command line -/
namespace Verif.Cmdline
open Verif.Text

theorem take_eq_iff (m a : Str) : a.length ≥ m.length ∧ a.take m.length = m ↔ m <+: a := by
  rw [List.prefix_iff_eq_take]
  constructor
  · intro h; exact h.2.symm
  · intro h
    refine ⟨?_, h.symm⟩
    have := congrArg List.length h
    rw [List.length_take] at this; omega

theorem valuesRound_eq (m : Str) (values : List Str) (a : Str) :
    valuesRound m values a = values ++ (remainder m a).toList := by
  have := take_eq_iff m a
  unfold valuesRound remainder
  by_cases h : m <+: a
  · have h' := this.mpr h
    rw [if_pos h'.1, if_pos h'.2, if_pos h, List.take_length]; rfl
  · rw [if_neg h]
    by_cases h1 : a.length ≥ m.length
    · rw [if_pos h1, if_neg (fun h2 => h (this.mp ⟨h1, h2⟩))]; simp
    · rw [if_neg h1]; simp

theorem values_fold (m : Str) (l : List Str) (acc : List Str) :
    l.foldl (valuesRound m) acc = acc ++ l.filterMap (remainder m) := by
  induction l generalizing acc with
  | nil => simp
  | cons a l ih =>
    rw [List.foldl_cons, ih, valuesRound_eq, List.filterMap_cons, List.append_assoc]
    cases remainder m a <;> rfl

/-- C46. `get_arg_values` fills the list with the remainders of exactly the arguments that start with the prefix, in
order, whatever the list held, and returns their number. -/
theorem C46_values (p : Proc) (m : Str) (values : List Str) :
    getArgValues p m values = ((p.argv.filterMap (remainder m)).length, p.argv.filterMap (remainder m)) := by
  simp only [getArgValues, values_fold, List.nil_append]

theorem valueRound_eq (m : Str) (n : Nat) (v : List Str) (a : Str) :
    valueRound m (n, v) a = match remainder m a with
      | none => (n, v)
      | some r => (n + 1, if n = 0 then v ++ [r] else v) := by
  have := take_eq_iff m a
  unfold valueRound remainder
  by_cases h : m <+: a
  · have h' := this.mpr h
    rw [if_pos h'.1, if_pos h'.2, if_pos h, List.take_length]
    by_cases hn : n = 0 <;> simp [hn]
  · rw [if_neg h]
    by_cases h1 : a.length ≥ m.length
    · rw [if_pos h1, if_neg (fun h2 => h (this.mp ⟨h1, h2⟩))]
    · rw [if_neg h1]

theorem value_fold (m : Str) (l : List Str) (n : Nat) (v : List Str) :
    l.foldl (valueRound m) (n, v) = (n + (l.filterMap (remainder m)).length,
      if n = 0 then v ++ (l.filterMap (remainder m)).head?.toList else v) := by
  induction l generalizing n v with
  | nil => simp
  | cons a l ih =>
    rw [List.foldl_cons, List.filterMap_cons, valueRound_eq]
    cases remainder m a with
    | none => exact ih n v
    | some r =>
      simp only [ih, List.length_cons, List.head?_cons, Option.toList_some, Nat.add_eq_zero_iff, Nat.succ_ne_zero, and_false,
        if_false]
      exact Prod.ext (by simp only; omega) rfl

/-- C46. `get_arg_value` with an empty list returns the same number and stores the first remainder, if any; a list that
is not empty is refused with an exception. -/
theorem C46_value (p : Proc) (m : Str) (value : List Str) :
    getArgValue p m value = if value = [] then
      some ((p.argv.filterMap (remainder m)).length, (p.argv.filterMap (remainder m)).head?.toList) else none := by
  unfold getArgValue
  split
  · next h => subst h; rw [value_fold]; simp
  · rfl

/-- C46. `get_arg_matches` with anything but a `/regular expression/` returns exactly the arguments starting with it. -/
theorem C46_matches (p : Proc) (m : Str) (args : List Str)
    (hm : ¬ (m.length > 2 ∧ m.head? = some '/' ∧ m.getLast? = some '/')) :
    getArgMatches p m args = .found (p.argv.filter (fun a => m.isPrefixOf a)).length
      (p.argv.filter (fun a => m.isPrefixOf a)) := by
  have : (fun a : Str => decide (a.length ≥ m.length) && decide (a.take m.length = m)) = fun a => m.isPrefixOf a := by
    funext a
    have := take_eq_iff m a
    rw [Bool.eq_iff_iff, Bool.and_eq_true, decide_eq_true_eq, decide_eq_true_eq, this, List.isPrefixOf_iff_prefix]
  simp only [getArgMatches, if_neg hm, this]

/-- C106 fails for `/regular expressions/`: the last character of the expression is dropped and the match is only tried
at the start of an argument, so `/foo/` selects `fox` and not `barfoo`. -/
theorem C106_regex_fails :
    getArgMatches (extract ["fox".toList, "barfoo".toList, "foo".toList]) "/foo/".toList [] =
      .found 2 ["fox".toList, "foo".toList] := by decide

/-- C106 fails in general: the last character of the expression plays no part, for every expression and argument vector. -/
theorem C106_last_character_ignored_fails (p : Proc) (w : Str) (c c' : Char) (args : List Str) :
    getArgMatches p ('/' :: (w ++ [c, '/'])) args = getArgMatches p ('/' :: (w ++ [c', '/'])) args := by
  have key : ∀ c, getArgMatches p ('/' :: (w ++ [c, '/'])) args =
      match parse w with
      | some ts => .found (p.argv.filter (fun a => matchHere ts a)).length (p.argv.filter (fun a => matchHere ts a))
      | none => .outside := by
    intro c
    have h1 : ('/' :: (w ++ [c, '/'])).getLast? = some '/' := by
      rw [show ('/' :: (w ++ [c, '/'])) = ('/' :: w ++ [c]) ++ ['/'] by simp, List.getLast?_append]; rfl
    have h2 : (('/' :: (w ++ [c, '/'])).take (('/' :: (w ++ [c, '/'])).length - 2)).drop 1 = w := by
      have : ('/' :: (w ++ [c, '/'])).length - 2 = w.length + 1 := by simp
      rw [this]
      simp
    unfold getArgMatches
    rw [if_pos ⟨by simp, rfl, h1⟩, h2]
    cases parse w <;> rfl
  rw [key c, key c']

example : getArgMatches (extract ["fox".toList]) ('/' :: ("fo".toList ++ ['x', '/'])) [] = .found 1 ["fox".toList] := by decide

theorem extract_fold (l : List Str) (p : Proc) :
    (l.foldl extractRound p).argv = p.argv ++ l.filter (· ≠ []) ∧
    (l.foldl extractRound p).plus = p.plus ++ (l.filter (fun a => a.head? == some '+')).map (fun _ => ['+']) ∧
    (l.foldl extractRound p).uvm = p.uvm ++
      l.filter (fun a => ((a.drop 1).take 3).map Char.toUpper == "UVM".toList) := by
  induction l generalizing p with
  | nil => simp
  | cons a l ih =>
    rw [List.foldl_cons]
    obtain ⟨h1, h2, h3⟩ := ih (extractRound p a)
    rw [h1, h2, h3]
    cases a with
    | nil => simp [extractRound]
    | cons c r =>
      have key : (extractRound p (c :: r)).argv = p.argv ++ [c :: r] ∧
          (extractRound p (c :: r)).plus = (if c = '+' then p.plus ++ [[c]] else p.plus) ∧
          (extractRound p (c :: r)).uvm =
            (if (r.take 3).map Char.toUpper = "UVM".toList then p.uvm ++ [c :: r] else p.uvm) := by
        unfold extractRound
        by_cases hc : c = '+' <;>
          by_cases hu : (r.take 3).map Char.toUpper = "UVM".toList <;> simp_all
      obtain ⟨k1, k2, k3⟩ := key
      rw [k1, k2, k3]
      refine ⟨by simp, ?_, ?_⟩
      · by_cases hc : c = '+'
        · subst hc; simp
        · simp [hc]
      · rw [List.filter_cons]
        by_cases hu : (r.take 3).map Char.toUpper = "UVM".toList
        · have : (((c :: r).drop 1).take 3).map Char.toUpper == "UVM".toList := by
            rw [beq_iff_eq]; exact hu
          rw [if_pos this, if_pos hu, List.append_assoc]; rfl
        · have : ¬ ((((c :: r).drop 1).take 3).map Char.toUpper == "UVM".toList) = true := by
            rw [beq_iff_eq]; exact hu
          rw [if_neg this, if_neg hu]

/-- C70. `get_args` returns the non-empty arguments in order. -/
theorem C70_args (argv : List Str) : (extract argv).argv = argv.filter (· ≠ []) := by
  have := (extract_fold argv ⟨[], [], []⟩).1; simpa [extract] using this

/-- C127, the part that holds for `get_uvm_args`: every argument starting with `+UVM` or `-UVM` (any case) is returned,
once per occurrence and in order, and everything returned has `UVM` as second to fourth letter.
Missing: arguments with another first letter are returned too (`C127_uvm_args_fails`). -/
theorem C127_uvm_args_partial (argv : List Str) : (extract argv).uvm =
    argv.filter (fun a => ((a.drop 1).take 3).map Char.toUpper == "UVM".toList) := by
  have := (extract_fold argv ⟨[], [], []⟩).2.2; simpa [extract] using this

/-- C127 fails for `get_uvm_args`: an argument that starts neither with `+` nor with `-` is taken for a UVM argument. -/
theorem C127_uvm_args_fails : (extract ["./uvm_sim".toList, "xUvm".toList]).uvm = ["xUvm".toList] := by decide

/-- C127 fails for `get_plusargs`: it returns as many `"+"` as there are plus arguments, never the arguments. -/
theorem C127_plusargs_fails (argv : List Str) :
    (extract argv).plus = (argv.filter (fun a => a.head? == some '+')).map (fun _ => ['+']) := by
  have := (extract_fold argv ⟨[], [], []⟩).2.1; simpa [extract] using this

theorem split_setting (s : Setting) (h : s.clean) : splitOn ',' s.text = [s.comp, s.id, s.sev, s.last] := by
  refine splitOn_join _ _ (by simp) ?_
  intro w hw
  simp only [List.mem_cons, List.not_mem_nil, or_false] at hw
  obtain ⟨h1, h2, h3, h4⟩ := h
  rcases hw with rfl | rfl | rfl | rfl <;> assumption

theorem checkAll_ok (chk : Str → Check) (l : List Setting)
    (h : ∀ s ∈ l, ∃ b, chk s.text = .accepted [s.comp, s.id, s.sev, s.last] b) :
    checkAll chk (l.map Setting.text) = some (l.map (fun s => [s.comp, s.id, s.sev, s.last])) := by
  induction l with
  | nil => rfl
  | cons s l ih =>
    obtain ⟨b, hb⟩ := h s List.mem_cons_self
    simp only [List.map_cons, checkAll, hb, ih (fun s hs => h s (List.mem_cons_of_mem _ hs)), Option.map_some]

/-- C71, the part that holds: action settings of four fields whose severity field is `_ALL_` or not `UVM_INFO`, and
whose action names at least one flag, take effect in order, for exactly the components that match.
Missing: severity UVM_INFO, action UVM_NO_ACTION and malformed settings (`C71_action_fails`). -/
theorem C71_action_partial (mt : Str → Str → Bool) (name : Str) (l : List Setting) (hc : ∀ s ∈ l, s.clean)
    (hs : ∀ s ∈ l, s.sev = allStr ∨ stringToSeverity s.sev ≠ 0) (ha : ∀ s ∈ l, stringToAction s.last ≠ 0) :
    setClAction mt name (l.map Setting.text) = some (l.flatMap (wantAction mt name)) := by
  have hok : ∀ s ∈ l, ∃ b, checkAction s.text = .accepted [s.comp, s.id, s.sev, s.last] b := by
    intro s hm
    refine ⟨false, ?_⟩
    simp only [checkAction, split_setting s (hc s hm)]
    have : ¬ (s.sev ≠ allStr ∧ stringToSeverity s.sev = 0) := by
      rintro ⟨h1, h2⟩; rcases hs s hm with h | h <;> contradiction
    simp only [List.getElem?_cons_succ, List.getElem?_cons_zero, if_neg this, if_neg (ha s hm)]; rfl
  rw [setClAction, checkAll_ok _ _ hok, Option.map_some, List.flatMap_map]
  congr 1
  apply congrArg (fun f => List.flatMap f l)
  funext s
  simp only [applyAction, wantAction, selected]
  cases mt s.comp name
  · rfl
  · by_cases h1 : s.id = allStr <;> by_cases h2 : s.sev = allStr <;> simp [h1, h2]

/-- C71 fails for actions: the valid setting for severity UVM_INFO is refused, so is the action UVM_NO_ACTION; an
unknown severity is accepted and applied to severity -1; a setting with two fields raises `IndexError`, one with five is
accepted. -/
theorem C71_action_fails (mt : Str → Str → Bool) (name : Str) (hm : mt "*".toList name = true) :
    setClAction mt name ["*,_ALL_,UVM_INFO,UVM_LOG".toList] = some [] ∧
    setClAction mt name ["*,_ALL_,UVM_ERROR,UVM_NO_ACTION".toList] = some [] ∧
    setClAction mt name ["*,_ALL_,BOGUS,UVM_LOG".toList] = some [.sevAction (-1) 2] ∧
    setClAction mt name ["*,_ALL_".toList] = none ∧
    setClAction mt name ["*,_ALL_,UVM_ERROR,UVM_LOG,more".toList] = some [.sevAction 2 2] := by
  have h1 : checkAll checkAction ["*,_ALL_,UVM_INFO,UVM_LOG".toList] = some [] := by decide
  have h2 : checkAll checkAction ["*,_ALL_,UVM_ERROR,UVM_NO_ACTION".toList] = some [] := by decide
  have h3 : checkAll checkAction ["*,_ALL_,BOGUS,UVM_LOG".toList] =
      some [["*".toList, "_ALL_".toList, "BOGUS".toList, "UVM_LOG".toList]] := by decide
  have h4 : checkAll checkAction ["*,_ALL_".toList] = none := by decide
  have h5 : checkAll checkAction ["*,_ALL_,UVM_ERROR,UVM_LOG,more".toList] =
      some [["*".toList, "_ALL_".toList, "UVM_ERROR".toList, "UVM_LOG".toList, "more".toList]] := by decide
  have e1 : stringToAction "UVM_LOG".toList = 2 := by decide
  have e2 : stringToSeverity "BOGUS".toList = -1 := by decide
  have e3 : stringToSeverity "UVM_ERROR".toList = 2 := by decide
  refine ⟨by rw [setClAction, h1]; rfl, by rw [setClAction, h2]; rfl, ?_, by rw [setClAction, h4]; rfl, ?_⟩
  · simp only [setClAction, h3, Option.map_some, List.flatMap_cons, List.flatMap_nil, applyAction, hm, e1, e2, if_true,
      List.append_nil]
    decide
  · simp only [setClAction, h5, Option.map_some, List.flatMap_cons, List.flatMap_nil, applyAction, hm, e1, e3, if_true,
      List.append_nil]
    decide

/-- C71, the part that holds for severity settings of four fields whose original severity is not UVM_INFO and whose new
severity is valid. -/
theorem C71_severity_partial (mt : Str → Str → Bool) (name : Str) (l : List Setting) (hc : ∀ s ∈ l, s.clean)
    (hs : ∀ s ∈ l, s.sev = allStr ∨ stringToSeverity s.sev ≠ 0) (ha : ∀ s ∈ l, stringToSeverity s.last ≠ -1) :
    setClSev mt name (l.map Setting.text) = some (l.flatMap (wantSev mt name)) := by
  have hok : ∀ s ∈ l, ∃ b, checkSev s.text = .accepted [s.comp, s.id, s.sev, s.last] b := by
    intro s hm
    refine ⟨false, ?_⟩
    simp only [checkSev, split_setting s (hc s hm)]
    have : ¬ (s.sev ≠ allStr ∧ stringToSeverity s.sev = 0) := by
      rintro ⟨h1, h2⟩; rcases hs s hm with h | h <;> contradiction
    rw [if_neg this, if_neg (ha s hm)]
  rw [setClSev, checkAll_ok _ _ hok, Option.map_some, List.flatMap_map]
  congr 1
  apply congrArg (fun f => List.flatMap f l)
  funext s
  simp only [applySev, wantSev, selected]
  cases mt s.comp name
  · rfl
  · by_cases h1 : s.id = allStr <;> by_cases h2 : s.sev = allStr <;> simp [h1, h2]

/-- C71 fails for severity settings: one that changes UVM_INFO is refused; one with an unknown original severity is
accepted; a wrong number of fields is refused properly. -/
theorem C71_severity_fails (mt : Str → Str → Bool) (name : Str) (hm : mt "*".toList name = true) :
    setClSev mt name ["*,_ALL_,UVM_INFO,UVM_ERROR".toList] = some [] ∧
    setClSev mt name ["*,_ALL_,BOGUS,UVM_ERROR".toList] = some [.sevOver (-1) 2] ∧
    setClSev mt name ["*,_ALL_".toList] = some [] := by
  have h1 : checkAll checkSev ["*,_ALL_,UVM_INFO,UVM_ERROR".toList] = some [] := by decide
  have h3 : checkAll checkSev ["*,_ALL_,BOGUS,UVM_ERROR".toList] =
      some [["*".toList, "_ALL_".toList, "BOGUS".toList, "UVM_ERROR".toList]] := by decide
  have h4 : checkAll checkSev ["*,_ALL_".toList] = some [] := by decide
  have e2 : stringToSeverity "BOGUS".toList = -1 := by decide
  have e3 : stringToSeverity "UVM_ERROR".toList = 2 := by decide
  refine ⟨by rw [setClSev, h1]; rfl, ?_, by rw [setClSev, h4]; rfl⟩
  simp only [setClSev, h3, Option.map_some, List.flatMap_cons, List.flatMap_nil, applySev, hm, e2, e3, if_true,
    List.append_nil]
  decide

theorem checkAll_refused (chk : Str → Check) (l1 l2 : List Str) (bad : Str) (h : chk bad = .refused) :
    checkAll chk (l1 ++ bad :: l2) = checkAll chk (l1 ++ l2) := by
  induction l1 with
  | nil => simp only [List.nil_append, checkAll, h]
  | cons v l1 ih => simp only [List.cons_append, checkAll, ih]

/-- C71. A severity setting that has not exactly four fields, or whose new severity is unknown, has no effect, on the
component or on the settings around it. -/
theorem C71_severity_malformed (mt : Str → Str → Bool) (name : Str) (l1 l2 : List Str) (ws : List Str)
    (hne : ws ≠ []) (hw : ∀ w ∈ ws, ',' ∉ w)
    (h : ws.length ≠ 4 ∨ ∀ w, ws[3]? = some w → stringToSeverity w = -1) :
    setClSev mt name (l1 ++ joinWith ',' ws :: l2) = setClSev mt name (l1 ++ l2) := by
  rw [setClSev, setClSev, checkAll_refused]
  simp only [checkSev, splitOn_join _ _ hne hw]
  split
  · next c id orig sev =>
    rcases h with h | h
    · simp at h
    · have := h sev rfl
      rw [if_pos this]
      split <;> rfl
  · rfl

/-- C71. An action setting of four fields or more whose action names no flag has no effect, on the component or on the
settings around it. -/
theorem C71_action_malformed (mt : Str → Str → Bool) (name : Str) (l1 l2 : List Str) (ws : List Str) (a : Str)
    (hne : ws ≠ []) (hw : ∀ w ∈ ws, ',' ∉ w) (h3 : ws[3]? = some a) (ha : stringToAction a = 0) :
    setClAction mt name (l1 ++ joinWith ',' ws :: l2) = setClAction mt name (l1 ++ l2) := by
  rw [setClAction, setClAction, checkAll_refused]
  simp only [checkAction, splitOn_join _ _ hne hw, h3, ha, if_true]
  have : ∃ b, ws[2]? = some b := by
    rw [List.getElem?_eq_some_iff] at h3
    obtain ⟨h, _⟩ := h3
    exact ⟨ws[2], List.getElem?_eq_getElem (by omega)⟩
  obtain ⟨b, hb⟩ := this
  simp only [hb]
  split <;> rfl

theorem verbLoop_ok (mt : Str → Str → Bool) (toInt : Str → Option Int) (first : Bool) (name : Str) (f : Str → List SetCall)
    (done l : List Str) (h : ∀ v ∈ l, verbRound mt toInt first name v = .calls (f v)) :
    verbLoop mt toInt first name l.length done.length (done ++ l) = some (l.flatMap f) := by
  induction l generalizing done with
  | nil => rfl
  | cons v l ih =>
    have hg : (done ++ v :: l)[done.length]? = some v := by simp
    have := ih (done ++ [v]) (fun w hw => h w (List.mem_cons_of_mem _ hw))
    rw [List.append_assoc, List.length_append] at this
    simp only [List.length_cons, verbLoop, hg, h v List.mem_cons_self]
    rw [show done ++ v :: l = done ++ ([v] ++ l) from rfl]
    have e : done.length + [v].length = done.length + 1 := rfl
    rw [e] at this
    rw [this]; simp

/-- C71. A verbosity name is understood exactly when it is one of the twelve names, and every other word gives -1. -/
theorem C71_verbosity_names (s : Str) (v : Int) :
    convertVerb s = v ↔ (s, v) ∈ verbosities ∨ (v = -1 ∧ ∀ u, (s, u) ∉ verbosities) := by
  simp only [convertVerb, verbosities, List.mem_cons, Prod.mk.injEq, List.not_mem_nil, or_false]
  have e : ∀ {a b : Int}, a = b ↔ b = a := ⟨Eq.symm, Eq.symm⟩
  by_cases h0 : s = "NONE".toList
  · subst h0; simp [e (b := v)]
  by_cases h1 : s = "UVM_NONE".toList
  · subst h1; simp [e (b := v)]
  by_cases h2 : s = "LOW".toList
  · subst h2; simp [e (b := v)]
  by_cases h3 : s = "UVM_LOW".toList
  · subst h3; simp [e (b := v)]
  by_cases h4 : s = "MEDIUM".toList
  · subst h4; simp [e (b := v)]
  by_cases h5 : s = "UVM_MEDIUM".toList
  · subst h5; simp [e (b := v)]
  by_cases h6 : s = "HIGH".toList
  · subst h6; simp [e (b := v)]
  by_cases h7 : s = "UVM_HIGH".toList
  · subst h7; simp [e (b := v)]
  by_cases h8 : s = "FULL".toList
  · subst h8; simp [e (b := v)]
  by_cases h9 : s = "UVM_FULL".toList
  · subst h9; simp [e (b := v)]
  by_cases ha : s = "DEBUG".toList
  · subst ha; simp [e (b := v)]
  by_cases hb : s = "UVM_DEBUG".toList
  · subst hb; simp [e (b := v)]
  rw [if_neg h0, if_neg h1, if_neg h2, if_neg h3, if_neg h4, if_neg h5, if_neg h6, if_neg h7, if_neg h8, if_neg h9,
    if_neg ha, if_neg hb]
  simp only [h0, h1, h2, h3, h4, h5, h6, h7, h8, h9, ha, hb, false_and, or_false, false_or, not_false_eq_true,
    implies_true, and_true]
  exact e

/-- C71, the part that holds for verbosity: settings `comp,id,verbosity,phase` with a known verbosity and phase `build`
(or empty, or `time`) take effect in order on exactly the components that match.
Missing: invalid settings (`C71_verbosity_fails`); settings for later phases and times are only recorded. -/
theorem C71_verbosity_partial (mt : Str → Str → Bool) (toInt : Str → Option Int) (first : Bool) (name : Str)
    (l : List Setting) (hc : ∀ s ∈ l, s.clean) (hv : ∀ s ∈ l, convertVerb s.sev ≠ -1)
    (hp : ∀ s ∈ l, s.last = [] ∨ s.last = "build".toList ∨ s.last = "time".toList) :
    setClVerb mt toInt first name (l.map Setting.text) = some (l.flatMap (wantVerb mt name)) := by
  have key : ∀ s ∈ l, verbRound mt toInt first name s.text = .calls (wantVerb mt name s) := by
    intro s hs
    simp only [verbRound, split_setting s (hc s hs), List.getElem?_cons_succ, List.getElem?_cons_zero, wantVerb]
    have hv' : (convertVerb s.sev == -1) = false := by simpa using hv s hs
    have hp' := hp s hs
    have hp2 : (s.last = [] ∨ s.last = "build".toList ∨ s.last = "time".toList) ∧ (0 : Int) = 0 := ⟨hp', rfl⟩
    cases mt s.comp name
    · simp [hv']
    · simp only [hv']
      simp only [hp2, if_true]
      simp
  have inj : ∀ s ∈ l, ∀ t ∈ l, s.text = t.text → wantVerb mt name s = wantVerb mt name t := by
    intro s hs t ht e
    have h1 := split_setting s (hc s hs)
    rw [e, split_setting t (hc t ht)] at h1
    simp only [List.cons.injEq, and_true] at h1
    obtain ⟨e1, e2, e3, _⟩ := h1
    simp only [wantVerb, e1, e2, e3]
  have hf : ∃ f : Str → List SetCall, ∀ s ∈ l, verbRound mt toInt first name s.text = .calls (f s.text) ∧
      f s.text = wantVerb mt name s := by
    refine ⟨fun v => match verbRound mt toInt first name v with | .calls l => l | _ => [], fun s hs => ?_⟩
    simp only [key s hs, and_self]
  obtain ⟨f, hf⟩ := hf
  have h1 := verbLoop_ok mt toInt first name f [] (l.map Setting.text) (by
    intro v hv
    obtain ⟨s, hs, rfl⟩ := List.mem_map.mp hv
    exact (hf s hs).1)
  rw [setClVerb]
  refine h1.trans ?_
  rw [List.flatMap_map]
  congr 1
  clear h1 inj key hc hv hp
  induction l with
  | nil => rfl
  | cons s l ih =>
    rw [List.flatMap_cons, List.flatMap_cons, (hf s List.mem_cons_self).2, ih (fun s hs => hf s (List.mem_cons_of_mem _ hs))]

/-- C71 fails for verbosity: an invalid setting followed by a valid one raises `IndexError` in the first component; in
every later component a setting with an unknown verbosity sets the verbosity to -1. -/
theorem C71_verbosity_fails (mt : Str → Str → Bool) (toInt : Str → Option Int) (name : Str)
    (hm : mt "*".toList name = true) :
    setClVerb mt toInt true name ["*,_ALL_,LOUD,build".toList, "*,_ALL_,UVM_LOW,build".toList] = none ∧
    setClVerb mt toInt false name ["*,_ALL_,LOUD,build".toList] = some [.verb (-1)] := by
  have s1 : splitOn ',' "*,_ALL_,LOUD,build".toList =
    ["*".toList, "_ALL_".toList, "LOUD".toList, "build".toList] := by decide
  have e1 : convertVerb "LOUD".toList = -1 := by decide
  have r1 : verbRound mt toInt true name "*,_ALL_,LOUD,build".toList = .skip := by
    simp only [verbRound, s1, List.getElem?_cons_succ, List.getElem?_cons_zero, e1]; rfl
  have r2 : verbRound mt toInt false name "*,_ALL_,LOUD,build".toList = .calls [.verb (-1)] := by
    simp only [verbRound, s1, List.getElem?_cons_succ, List.getElem?_cons_zero, e1, hm]; rfl
  constructor
  · simp only [setClVerb, List.length_cons, List.length_nil, verbLoop, List.getElem?_cons_zero, r1]
    rfl
  · simp only [setClVerb, List.length_cons, List.length_nil, verbLoop, List.getElem?_cons_zero, r2]
    rfl

-- Non-vacuity
example : getArgValues (extract ["+foo=1".toList, "x".toList, "+foo=2".toList]) "+foo=".toList [[]] =
    (2, ["1".toList, "2".toList]) := by decide
example : getArgValue (extract ["+foo=1".toList, "x".toList, "+foo=2".toList]) "+foo=".toList [] =
    some (2, ["1".toList]) := by decide
example : (extract ["+UVM_A".toList, [], "-uvm_b".toList, "c".toList]).uvm = ["+UVM_A".toList, "-uvm_b".toList] := by decide
example : Setting.clean ⟨"*".toList, "_ALL_".toList, "UVM_ERROR".toList, "UVM_LOG|UVM_COUNT".toList⟩ := by
  simp [Setting.clean]
example : stringToAction "UVM_LOG|UVM_COUNT".toList = 6 := by decide
example : convertVerb "UVM_HIGH".toList = 300 := by decide

end Verif.Cmdline
