import Verif.Lemmas.RootSettings
import Verif.Props.SvText
/-! # C205–C215: settings the root takes from the command line, and hierarchical report settings -/
namespace Verif.RootSettings
open Verif.Text (Str splitOn splitOn_word splitOn_append)
open Verif.SvText (Denotes pyInt sscanf Asks Fields)
open Verif.Cmdline (Proc getArgValues convertVerb)
open Verif.Report (Handler HOp hstep newHandler)

/-! ## C205: well-formed configuration settings -/

/-- Every well-formed setting is made, for the components and the field it names, with the number or text it gives: the
integers in order, then the texts in order. -/
theorem C205_settings {argv : List Str} {is ss : List Cfg} (h : Line argv is ss) : doConfigSettings argv = is ++ ss := by
  obtain ⟨h1, h2, h3, h4⟩ := line_parts h
  rw [doConfig_parts, h1, h2, processAll_id (by simp [h3, h4])]

/-- Every integer can be written, in each base. -/
theorem C205_numbers (n : Nat) (c f : Str) (hc : ',' ∉ c) (hf : ',' ∉ f) (name : String) (hn : name = "+uvm_set_config_int=" ∨ name = "+UVM_SET_CONFIG_INT=") :
    (∀ b : String, b = "'h" ∨ b = "'x" ∨ b = "0x" →
      doConfigSettings [name.toList ++ (c ++ ',' :: (f ++ ',' :: (b.toList ++ Nat.toDigits 16 n)))] = [.set c f (.int n)]) ∧
    (∀ b : String, b = "'b" ∨ b = "0b" →
      doConfigSettings [name.toList ++ (c ++ ',' :: (f ++ ',' :: (b.toList ++ Nat.toDigits 2 n)))] = [.set c f (.int n)]) ∧
    doConfigSettings [name.toList ++ (c ++ ',' :: (f ++ ',' :: ("'o".toList ++ Nat.toDigits 8 n)))] = [.set c f (.int n)] ∧
    doConfigSettings [name.toList ++ (c ++ ',' :: (f ++ ',' :: ("'d".toList ++ Nat.toDigits 10 n)))] = [.set c f (.int n)] ∧
    doConfigSettings [name.toList ++ (c ++ ',' :: (f ++ ',' :: Nat.toDigits 10 n))] = [.set c f (.int n)] ∧
    doConfigSettings [name.toList ++ (c ++ ',' :: (f ++ ',' :: '-' :: Nat.toDigits 10 n))] = [.set c f (.int (-(n : Int)))] := by
  have key : ∀ (t : Str) (m : Int), Numeral t m → doConfigSettings [name.toList ++ (c ++ ',' :: (f ++ ',' :: t))] = [.set c f (.int m)] := by
    intro t m ht
    exact C205_settings (.int ⟨name, t, hn, hc, hf, ht, rfl⟩ .nil)
  have d : ∀ b, 1 < b → b ≤ 16 → Denotes b (Nat.toDigits b n) n := fun b h1 h2 => SvText.denotes_toDigits h1 h2 n
  exact ⟨fun b hb => key _ _ (.hex hb (d 16 (by omega) (by omega))), fun b hb => key _ _ (.bin hb (d 2 (by omega) (by omega))),
    key _ _ (.oct (d 8 (by omega) (by omega))), key _ _ (.dec' (d 10 (by omega) (by omega))), key _ _ (.dec (d 10 (by omega) (by omega))),
    key _ _ (.neg (d 10 (by omega) (by omega)))⟩

example : doConfigSettings ["+uvm_set_config_string=*,mode,fast".toList, "+foo".toList, "+uvm_set_config_int=uvm_test_top.*,count,'h1F".toList] =
    [.set "uvm_test_top.*".toList "count".toList (.int 31), .set "*".toList "mode".toList (.str "fast".toList)] := by decide +kernel
example : Line ["+uvm_set_config_string=*,mode,fast".toList, "+foo".toList] [] [.set "*".toList "mode".toList (.str "fast".toList)] :=
  .str ⟨"+uvm_set_config_string=", .inl rfl, by decide, by decide, by decide, by decide⟩ (.other (by unfold Unrelated; decide +kernel) .nil)

/-! ## C206: malformed configuration settings -/

/-- A setting with too few or too many fields is reported and sets nothing, and the others are not affected. -/
theorem C206_partial (as bs : List Str) {is ss is' ss' : List Cfg} (ha : Line as is ss) (hb : Line bs is' ss') (v : Str) (hv : (splitOn ',' v).length ≠ 3) :
    doConfigSettings (as ++ ("+uvm_set_config_int=".toList ++ v) :: bs) = is ++ [.error] ++ is' ++ (ss ++ ss') ∧
    doConfigSettings (as ++ ("+uvm_set_config_string=".toList ++ v) :: bs) = is ++ is' ++ (ss ++ [.error] ++ ss') := by
  have pe : ∀ b, processConfig v b = .error := by
    intro b
    unfold processConfig
    split
    · rename_i h; rw [h] at hv; exact absurd rfl hv
    · rfl
  have app : ∀ l m, intPart (l ++ m) = intPart l ++ intPart m ∧ strPart (l ++ m) = strPart l ++ strPart m := by
    intro l m
    constructor <;> simp [intPart, strPart, argsNamed]
  obtain ⟨a1, a2, a3, a4⟩ := line_parts ha
  obtain ⟨b1, b2, b3, b4⟩ := line_parts hb
  constructor
  · obtain ⟨h1, h2, h3⟩ := int_named "+uvm_set_config_int=" (.inl rfl) v
    obtain ⟨p1, p2⟩ := parts_cons ("+uvm_set_config_int=".toList ++ v) bs
    rw [doConfig_parts, (app _ _).1, (app _ _).2, p1, p2, h1, h2, h3, pe, a1, a2, b1, b2, processAll_id (by simp [a3, a4, b3, b4])]
    simp
  · obtain ⟨h1, h2, h3⟩ := str_named "+uvm_set_config_string=" (.inl rfl) v
    obtain ⟨p1, p2⟩ := parts_cons ("+uvm_set_config_string=".toList ++ v) bs
    rw [doConfig_parts, (app _ _).1, (app _ _).2, p1, p2, h1, h2, h3, pe, a1, a2, b1, b2, processAll_id (by simp [a3, a4, b3, b4])]
    simp

/-- A value that is not a number raises an exception, and the settings after it are lost. -/
theorem C206_value_fails (c f t : Str) (hc : ',' ∉ c) (hf : ',' ∉ f) (ht : ',' ∉ t) (hn : cfgInt t = none) (bs : List Str) :
    doConfigSettings (("+uvm_set_config_int=".toList ++ (c ++ ',' :: (f ++ ',' :: t))) :: bs) = [.raised] := by
  obtain ⟨h1, h2, h3⟩ := int_named "+uvm_set_config_int=" (.inl rfl) (c ++ ',' :: (f ++ ',' :: t))
  obtain ⟨p1, p2⟩ := parts_cons ("+uvm_set_config_int=".toList ++ (c ++ ',' :: (f ++ ',' :: t))) bs
  rw [doConfig_parts, p1, p2, h1, h2, h3]
  simp [processConfig, split3 hc hf ht, hn, processAll]

/-- Arguments whose name only begins like the name of a setting are taken as settings too, cut in the wrong place. -/
theorem C206_name_fails : doConfigSettings ["+uvm_set_config_integer=a,b,5".toList] = [.set "ger=a".toList "b".toList (.int 5)] := by decide +kernel

example : cfgInt "8'hff".toList = none ∧ cfgInt "'HFF".toList = none ∧ cfgInt "on".toList = none := by decide +kernel
example : (splitOn ',' "top,count".toList).length ≠ 3 := by decide

/-! ## C207: the maximum quit count -/

/-- The first setting decides: `n` and `n,YES` set the count, and it can be changed later. -/
theorem C207_partial (p : Proc) (q : Quit) (hq : q.flag ≠ .bool false) (t : Str) (n : Nat) (ht : Denotes 10 t n) (v : Str) (hv : v = t ∨ v = t ++ ",YES".toList)
    (hf : First p.argv "+UVM_MAX_QUIT_COUNT=".toList v) (m : Nat) (o : Flag) :
    ∃ q', doMaxQuit p q = some q' ∧ q'.count = n ∧ (setMaxQuit q' m o).count = m := by
  obtain ⟨r, hr⟩ := first_value hf
  have hc := Denotes.noComma ht
  have hs : maxQuitOf q v = some (setMaxQuit q n (.int 1)) := by
    rcases hv with rfl | rfl
    · simp [maxQuitOf, splitOn_word _ _ hc, ht.pyInt]
    · have : t ++ ",YES".toList = t ++ ',' :: "YES".toList := rfl
      rw [this]
      simp [maxQuitOf, splitOn_append _ _ _ hc, ht.pyInt, splitOn]
  refine ⟨_, by rw [doMaxQuit, hr]; exact hs, ?_, ?_⟩
  · have : ¬ (n : Int) < 0 := by omega
    simp [setMaxQuit, hq, this]
  · have h1 : ¬ (n : Int) < 0 := by omega
    have h2 : ¬ (m : Int) < 0 := by omega
    simp [setMaxQuit, hq, h1, h2]

/-- Without a setting nothing changes; a count that may not be overridden stays through settings and calls. -/
theorem C207_kept_partial (p : Proc) (q : Quit) :
    ((∀ a ∈ p.argv, ¬ "+UVM_MAX_QUIT_COUNT=".toList <+: a) → doMaxQuit p q = some q) ∧
    (q.flag = .bool false → (∀ q', doMaxQuit p q = some q' → q' = q) ∧ ∀ n o, setMaxQuit q n o = q) := by
  constructor
  · intro h
    rw [doMaxQuit, no_value h]
  · intro h
    have hs : ∀ n o, setMaxQuit q n o = q := fun n o => by simp [setMaxQuit, h]
    refine ⟨?_, hs⟩
    intro q' he
    unfold doMaxQuit at he
    split at he
    · exact (Option.some.inj he).symm
    · unfold maxQuitOf at he
      split at he
      · simp at he
      · split at he
        · simp at he
        · simp only [hs] at he
          repeat' split at he
          all_goals exact (Option.some.inj he).symm

/-- A count set with `False` as flag is kept through all later calls; a negative count means 0. -/
theorem C207_call_partial (q : Quit) (hq : q.flag ≠ .bool false) (n : Int) (calls : List (Int × Flag)) :
    (calls.foldl (fun q c => setMaxQuit q c.1 c.2) (setMaxQuit q n (.bool false))).count = max n 0 := by
  have h1 : (setMaxQuit q n (.bool false)).count = max n 0 := by
    simp only [setMaxQuit, if_neg hq]
    split <;> omega
  have h2 : ∀ (cs : List (Int × Flag)) (q : Quit), q.flag = .bool false → cs.foldl (fun q c => setMaxQuit q c.1 c.2) q = q := by
    intro cs
    induction cs with
    | nil => intros; rfl
    | cons c cs ih =>
      intro q h
      rw [List.foldl_cons]
      have : setMaxQuit q c.1 c.2 = q := by simp [setMaxQuit, h]
      rw [this]
      exact ih q h
  rw [h2 _ _ (by simp [setMaxQuit, hq]), h1]

/-- `n,NO` does not keep the count from being changed: the flag stored is `0`, which is not `False`. -/
theorem C207_no_fails (p : Proc) (q : Quit) (hq : q.flag ≠ .bool false) (t : Str) (n : Nat) (ht : Denotes 10 t n)
    (hf : First p.argv "+UVM_MAX_QUIT_COUNT=".toList (t ++ ",NO".toList)) (m : Nat) (o : Flag) :
    ∃ q', doMaxQuit p q = some q' ∧ q'.count = n ∧ (setMaxQuit q' m o).count = m := by
  obtain ⟨r, hr⟩ := first_value hf
  have hc := Denotes.noComma ht
  have hs : maxQuitOf q (t ++ ",NO".toList) = some (setMaxQuit q n (.int 0)) := by
    have : t ++ ",NO".toList = t ++ ',' :: "NO".toList := rfl
    rw [this]
    simp [maxQuitOf, splitOn_append _ _ _ hc, ht.pyInt, splitOn]
  refine ⟨_, by rw [doMaxQuit, hr]; exact hs, ?_, ?_⟩
  · have : ¬ (n : Int) < 0 := by omega
    simp [setMaxQuit, hq, this]
  · have h1 : ¬ (n : Int) < 0 := by omega
    have h2 : ¬ (m : Int) < 0 := by omega
    simp [setMaxQuit, hq, h1, h2]

/-- A setting whose second word is neither is ignored without a message; a count that is no number raises. -/
theorem C207_word_fails (q : Quit) : maxQuitOf q "5,no".toList = some q ∧ maxQuitOf q "five".toList = none := by
  constructor
  · have h1 : splitOn ',' "5,no".toList = ["5".toList, "no".toList] := by decide
    have h2 : pyInt 10 "5".toList = some 5 := by decide +kernel
    simp only [maxQuitOf, h1, h2]
    rw [if_neg (by decide), if_neg (by decide)]
  · have h1 : splitOn ',' "five".toList = ["five".toList] := by decide
    have h2 : pyInt 10 "five".toList = none := by decide +kernel
    simp only [maxQuitOf, h1, h2]

example : doMaxQuit (Cmdline.extract ["sim".toList, "+UVM_MAX_QUIT_COUNT=5,NO".toList]) ⟨0, .bool true⟩ = some ⟨5, .int 0⟩ ∧
    setMaxQuit ⟨5, .int 0⟩ 9 (.bool true) = ⟨9, .bool true⟩ := by decide +kernel
example : First (Cmdline.extract ["sim".toList, "+UVM_MAX_QUIT_COUNT=5,NO".toList]).argv "+UVM_MAX_QUIT_COUNT=".toList "5,NO".toList :=
  ⟨["sim".toList], [], by decide +kernel, by decide +kernel⟩

/-! ## C208: `set_timeout` -/

/-- After any history of `set_timeout` calls on a fresh root the timeout is that of the first call that forbids overriding,
else that of the last call. -/
theorem C208_set_timeout (start : SvText.Val) (calls : List (SvText.Val × Bool)) :
    (calls.foldl (fun t c => setTimeout t c.1 (if c.2 then 1 else 0)) ⟨start, 1⟩).value = timeoutAfter start calls := by
  have stick : ∀ (cs : List (SvText.Val × Bool)) (v : SvText.Val), (cs.foldl (fun t c => setTimeout t c.1 (if c.2 then 1 else 0)) ⟨v, 0⟩) = ⟨v, 0⟩ := by
    intro cs v
    induction cs with
    | nil => rfl
    | cons c cs ih => exact ih
  induction calls generalizing start with
  | nil => rfl
  | cons c cs ih =>
    obtain ⟨v, b⟩ := c
    cases b with
    | true => exact ih v
    | false =>
      rw [List.foldl_cons]
      have : setTimeout ⟨start, 1⟩ v (if false = true then 1 else 0) = ⟨v, 0⟩ := by simp [setTimeout]
      rw [this, stick]
      rfl

example : timeoutAfter (.int 9200) [(.int 100, true), (.int 50, false), (.int 70, true)] = .int 50 := rfl

/-! ## C209: `+UVM_TIMEOUT` -/

/-- `+UVM_TIMEOUT=n` sets the timeout to 0, whatever `n`. -/
theorem C209_number_fails (p : Proc) (t : Timeout) (ht : t.flag ≠ 0) (v : Str) (n : Nat) (hv : Denotes 10 v n) (hf : First p.argv "+UVM_TIMEOUT=".toList v) :
    doTimeout p t = some ⟨.int 0, 1⟩ := by
  obtain ⟨r, hr⟩ := first_value hf
  have hs : sscanf v "%d,%s".toList = some [] :=
    SvText.C200_short (ks := [.d]) (more := [.s]) (.next (l := []) (by simp) (.next (l := [',']) (by simp) (.done (l := []) (by simp)))) (by simp) (.one (.d hv))
  rw [doTimeout, hr]
  simp only [timeoutOf]
  rw [hs]
  simp [setTimeout, ht]

/-- `+UVM_TIMEOUT=n,word` makes the word the timeout, and always one that can be overridden. -/
theorem C209_word_fails (p : Proc) (t : Timeout) (ht : t.flag ≠ 0) (v w : Str) (n : Nat) (hv : Denotes 10 v n) (hw : w ≠ []) (hw' : ∀ c ∈ w, SvText.wordChar c)
    (hf : First p.argv "+UVM_TIMEOUT=".toList (v ++ ',' :: w)) : doTimeout p t = some ⟨.str w, 1⟩ := by
  obtain ⟨r, hr⟩ := first_value hf
  have hs : sscanf (v ++ ',' :: w) "%d,%s".toList = some [.int n, .str w] :=
    SvText.C200_fields (ks := [.d, .s]) (.next (l := []) (by simp) (.next (l := [',']) (by simp) (.done (l := []) (by simp))))
      (.cons (.d hv) (by simp [SvText.wordChar]) (by decide) (.one (.s hw hw')))
  rw [doTimeout, hr]
  simp only [timeoutOf]
  rw [hs]
  simp [setTimeout, ht]

/-- Without the argument the timeout stays as it is; a timeout that may not be overridden stays anyway. -/
theorem C209_partial (p : Proc) (t : Timeout) :
    ((∀ a ∈ p.argv, ¬ "+UVM_TIMEOUT=".toList <+: a) → doTimeout p t = some t) ∧ (t.flag = 0 → ∀ t', doTimeout p t = some t' → t' = t) := by
  constructor
  · intro h
    rw [doTimeout, no_value h]
  · intro h t' he
    have hs : ∀ v o, setTimeout t v o = t := fun v o => by simp [setTimeout, h]
    unfold doTimeout at he
    split at he
    · exact (Option.some.inj he).symm
    · unfold timeoutOf at he
      simp only [hs] at he
      split at he
      · simp at he
      · repeat' split at he
        all_goals exact (Option.some.inj he).symm

example : doTimeout (Cmdline.extract ["+UVM_TIMEOUT=100,NO".toList]) ⟨.int 9200, 1⟩ = some ⟨.str "NO".toList, 1⟩ := by decide +kernel
example : doTimeout (Cmdline.extract ["+UVM_TIMEOUT=100".toList]) ⟨.int 9200, 1⟩ = some ⟨.int 0, 1⟩ := by decide +kernel

/-! ## C210: `+UVM_VERBOSITY` -/

theorem convertVerb_num {t : Str} {n : Nat} (h : Denotes 10 t n) : convertVerb t = -1 ∧ convertVerb ('-' :: t) = -1 := by
  have hd : ∀ c, t.head? = some c → c ∉ ['N', 'U', 'L', 'M', 'H', 'F', 'D'] := by
    intro c hc
    obtain ⟨d, hd, hl⟩ := h.mem c (List.mem_of_mem_head? hc)
    have := SvText.isDigit_cases (P := fun c d => d < 10 → c ∉ ['N', 'U', 'L', 'M', 'H', 'F', 'D']) (by decide +kernel) hd
    exact this hl
  have hne : ∀ s : String, (∃ c ∈ ['N', 'U', 'L', 'M', 'H', 'F', 'D'], s.toList.head? = some c) → t ≠ s.toList ∧ '-' :: t ≠ s.toList := by
    rintro s ⟨c, hc, hs⟩
    constructor
    · intro he; rw [← he] at hs; exact hd c hs hc
    · intro he
      rw [← he] at hs
      simp only [List.head?_cons, Option.some.injEq] at hs
      subst hs
      simp at hc
  have a : ∀ s ∈ ["NONE", "UVM_NONE", "LOW", "UVM_LOW", "MEDIUM", "UVM_MEDIUM", "HIGH", "UVM_HIGH", "FULL", "UVM_FULL", "DEBUG", "UVM_DEBUG"],
      ∃ c ∈ ['N', 'U', 'L', 'M', 'H', 'F', 'D'], s.toList.head? = some c := by decide +kernel
  have b := fun s hs => hne s (a s hs)
  constructor <;>
    simp only [convertVerb, b "NONE" (by simp), b "UVM_NONE" (by simp), b "LOW" (by simp), b "UVM_LOW" (by simp), b "MEDIUM" (by simp), b "UVM_MEDIUM" (by simp),
      b "HIGH" (by simp), b "UVM_HIGH" (by simp), b "FULL" (by simp), b "UVM_FULL" (by simp), b "DEBUG" (by simp), b "UVM_DEBUG" (by simp), if_false]

/-- The first `+UVM_VERBOSITY` argument decides: a name stands for its level and a number that is not 0 for itself. Without
one the verbosity is UVM_MEDIUM. -/
theorem C210_decided (p : Proc) :
    ((∀ a ∈ p.argv, ¬ "+UVM_VERBOSITY=".toList <+: a) → checkVerbosity p = some (200, false)) ∧
    (∀ s v, (s, v) ∈ named → First p.argv "+UVM_VERBOSITY=".toList s.toList → checkVerbosity p = some (v, false)) ∧
    (∀ (t : Str) (n : Nat), Denotes 10 t n → n ≠ 0 → First p.argv "+UVM_VERBOSITY=".toList t → checkVerbosity p = some ((n : Int), false)) ∧
    (∀ (t : Str) (n : Nat), Denotes 10 t n → n ≠ 0 → First p.argv "+UVM_VERBOSITY=".toList ('-' :: t) → checkVerbosity p = some (-(n : Int), false)) ∧
    (∀ t : Str, Denotes 10 t 0 → First p.argv "+UVM_VERBOSITY=".toList t → checkVerbosity p = some (200, true)) := by
  refine ⟨?_, ?_, ?_, ?_, ?_⟩
  · intro h
    rw [checkVerbosity, no_value h]
  · intro s v hs hf
    obtain ⟨r, hr⟩ := first_value hf
    rw [checkVerbosity, hr]
    have : ∀ e ∈ named, verbOf e.1.toList = some (e.2, false) := by decide +kernel
    exact this _ hs
  · intro t n ht hn hf
    obtain ⟨r, hr⟩ := first_value hf
    rw [checkVerbosity, hr]
    have : (n : Int) ≠ 0 := by omega
    simp only [verbOf, (convertVerb_num ht).1, ne_eq, not_true_eq_false, if_false, ht.pyInt, this]
  · intro t n ht hn hf
    obtain ⟨r, hr⟩ := first_value hf
    rw [checkVerbosity, hr]
    have : -(n : Int) ≠ 0 := by omega
    simp only [verbOf, (convertVerb_num ht).2, ne_eq, not_true_eq_false, if_false, ht.pyInt_neg, this]
  · intro t ht hf
    obtain ⟨r, hr⟩ := first_value hf
    rw [checkVerbosity, hr]
    simp only [verbOf, (convertVerb_num ht).1, ne_eq, not_true_eq_false, if_false, ht.pyInt]
    rfl

/-- Every component created afterwards starts with the verbosity its parent has at that moment. -/
theorem C210_inherits (s : Comps) (p : Nat) (hp : p < s.next) :
    ((step s (.new p)).h s.next).maxVerb = (s.h p).maxVerb ∧ ∀ d < s.next, (step s (.new p)).h d = s.h d := by
  simp only [step, if_pos hp, setH]
  refine ⟨by simp [hstep], ?_⟩
  intro d hd
  have : d ≠ s.next := by omega
  simp [this]

/-- So all components of a hierarchy of any shape have the verbosity of the command line, as long as nobody sets another. -/
theorem C210_components (v : Int) (parents : List Nat) (d : Nat) (hd : d < ((parents.map Op.new).foldl step (root v)).next) :
    (((parents.map Op.new).foldl step (root v)).h d).maxVerb = v := by
  have : ∀ (ps : List Nat) (s : Comps), (∀ d < s.next, (s.h d).maxVerb = v) → ∀ d < ((ps.map Op.new).foldl step s).next, (((ps.map Op.new).foldl step s).h d).maxVerb = v := by
    intro ps
    induction ps with
    | nil => intro s h d hd; exact h d hd
    | cons p ps ih =>
      intro s h
      refine ih (step s (.new p)) ?_
      intro d hd
      by_cases hp : p < s.next
      · obtain ⟨h1, h2⟩ := C210_inherits s p hp
        have hn : (step s (.new p)).next = s.next + 1 := by simp [step, hp]
        by_cases he : d = s.next
        · rw [he, h1]; exact h p hp
        · have : d < s.next := by omega
          rw [h2 d this]; exact h d this
      · have : step s (.new p) = s := by simp [step, hp]
        rw [this] at hd ⊢
        exact h d hd
  exact this parents (root v) (by intro d _; simp [root, hstep]) d hd

/-- If the parents exist, all components are there. -/
theorem C210_all_created (v : Int) (parents : List Nat) (hp : ∀ i (h : i < parents.length), parents[i] ≤ i) :
    ((parents.map Op.new).foldl step (root v)).next = parents.length + 1 := by
  have key : ∀ (ps : List Nat) (s : Comps), (∀ i (h : i < ps.length), ps[i] < s.next + i) → ((ps.map Op.new).foldl step s).next = s.next + ps.length := by
    intro ps
    induction ps with
    | nil => intro s _; rfl
    | cons p ps ih =>
      intro s hs
      have h0 : p < s.next := hs 0 (by simp)
      have hn : (step s (.new p)).next = s.next + 1 := by simp [step, h0]
      rw [List.map_cons, List.foldl_cons, ih _ (fun i hi => by have h1 : ps[i] < s.next + (i + 1) := hs (i + 1) (by simpa using hi); rw [hn]; omega), hn, List.length_cons]
      omega
  rw [key parents (root v) (fun i hi => by have := hp i hi; simp [root]; omega)]
  simp [root]; omega

example : checkVerbosity (Cmdline.extract ["+UVM_VERBOSITY=UVM_HIGH".toList, "+UVM_VERBOSITY=LOW".toList]) = some (300, false) := by decide +kernel
example : checkVerbosity (Cmdline.extract ["+UVM_VERBOSITY=250".toList]) = some (250, false) := by decide +kernel
example : (([0, 1, 1].map Op.new).foldl step (root 300)).next = 4 ∧ ((([0, 1, 1].map Op.new).foldl step (root 300)).h 3).maxVerb = 300 := by decide

/-! ## C211: hierarchical settings -/

theorem tree_reach (v : Int) (ops : List Op) : Tree (ops.foldl step (root v)) := by
  have : ∀ (ops : List Op) (s : Comps), Tree s → Tree (ops.foldl step s) := by
    intro ops
    induction ops with
    | nil => intro s h; exact h
    | cons o ops ih => intro s h; exact ih _ (h.step o)
  exact this ops _ (Tree.root v)

/-- In every hierarchy that can be built, a hierarchical setting is made, exactly once, for the component and everything below
it, and for nothing else; the hierarchy stays as it is. -/
theorem C211_hier (v : Int) (ops : List Op) (c : Nat) (op : HOp) (hc : c < (ops.foldl step (root v)).next) (d : Nat) :
    (Desc (ops.foldl step (root v)).kids c d → (step (ops.foldl step (root v)) (.hier c op)).h d = hstep ((ops.foldl step (root v)).h d) op) ∧
    (¬ Desc (ops.foldl step (root v)).kids c d → (step (ops.foldl step (root v)) (.hier c op)).h d = (ops.foldl step (root v)).h d) ∧
    (step (ops.foldl step (root v)) (.hier c op)).kids = (ops.foldl step (root v)).kids := by
  generalize hs : ops.foldl step (root v) = s at hc ⊢
  have ht : Tree s := hs ▸ tree_reach v ops
  simp only [step, if_pos hc]
  rw [hier_eq ht op s.next c s.h (by omega) hc]
  refine ⟨fun h => by simp [h], fun h => by simp [h], trivial⟩

/-- After `set_report_verbosity_level_hier` a component and all below it have this verbosity, until somebody sets another. -/
theorem C211_verbosity (v : Int) (ops : List Op) (c : Nat) (w : Int) (hc : c < (ops.foldl step (root v)).next) (d : Nat)
    (hd : Desc (ops.foldl step (root v)).kids c d) : ((step (ops.foldl step (root v)) (.hier c (.setVerbosityLevel w))).h d).maxVerb = w := by
  rw [(C211_hier v ops c _ hc d).1 hd]
  rfl

example : let s := ([0, 1, 1, 0].map Op.new).foldl step (root 200)
    Desc s.kids 1 3 ∧ ¬ Desc s.kids 1 4 ∧ ((step s (.hier 1 (.setVerbosityLevel 500))).h 3).maxVerb = 500 ∧
      ((step s (.hier 1 (.setVerbosityLevel 500))).h 4).maxVerb = 200 := by
  refine ⟨.step .refl (by decide), ?_, by decide, by decide⟩
  intro h
  have e := (C211_hier 200 ([0, 1, 1, 0].map Op.new) 1 (.setVerbosityLevel 500) (by decide) 4).1 h
  have := congrArg Handler.maxVerb e
  exact absurd this (by decide)

/-! ## C212: settings for a time -/

theorem durations_get : ∀ (l : List Setting) (last : Int) (i : Nat) (hi : i < l.length),
    (durations last l)[i]? = some ((l[i]).off - (if i = 0 then last else ((l[i - 1]?).map Setting.off).getD 0), l[i]) := by
  intro l
  induction l with
  | nil => intro last i hi; simp at hi
  | cons x xs ih =>
    intro last i hi
    cases i with
    | zero => rfl
    | succ j =>
      have hj : j < xs.length := by simpa using hi
      simp only [durations, List.getElem?_cons_succ, ih x.off j hj, List.getElem_cons_succ]
      cases j with
      | zero => simp
      | succ k =>
        have hk : k < xs.length := by omega
        simp [hk]

/-- Of two settings the later one is made at the difference of the times, which is not its time. -/
theorem C212_fails (a b : Setting) (ha : 0 < a.off) (hab : a.off < b.off) :
    forkTimes [a, b] = [(a.off, a), (b.off - a.off, b)] ∧ b.off - a.off ≠ b.off := by
  have hs : [a, b].mergeSort (fun a b => decide (a.off ≤ b.off)) = [a, b] := by
    apply List.mergeSort_of_pairwise
    simp
    omega
  constructor
  · simp [forkTimes, hs, durations]
  · omega

/-- The last setting can even be made before the first: at time 100 the level is the one meant for 100, from then on for ever. -/
theorem C212_order_fails (id : Option Str) (ph : Str) :
    forkTimes [⟨id, 300, ph, 100⟩, ⟨id, 0, ph, 150⟩] = [(100, ⟨id, 300, ph, 100⟩), (50, ⟨id, 0, ph, 150⟩)] :=
  (C212_fails ⟨id, 300, ph, 100⟩ ⟨id, 0, ph, 150⟩ (by simp) (by simp)).1

/-- Every setting is made once; the earliest one is made at its time; one behind another is made at its time exactly when
the other one's time is 0. -/
theorem C212_partial (l : List Setting) :
    ∃ s : List Setting, s.Perm l ∧ s.Pairwise (fun a b => a.off ≤ b.off) ∧ (forkTimes l).map Prod.snd = s ∧
      (∀ x, s[0]? = some x → (forkTimes l)[0]? = some (x.off, x)) ∧
      ∀ i x y, s[i]? = some x → s[i + 1]? = some y → (forkTimes l)[i + 1]? = some (y.off - x.off, y) ∧ (y.off - x.off = y.off ↔ x.off = 0) := by
  refine ⟨l.mergeSort fun a b => decide (a.off ≤ b.off), List.mergeSort_perm .., ?_, ?_, ?_, ?_⟩
  · have := List.pairwise_mergeSort (le := fun a b : Setting => decide (a.off ≤ b.off)) (by intro a b c h1 h2; simp at h1 h2 ⊢; omega)
      (by intro a b; simp; omega) l
    simpa using this
  · unfold forkTimes
    generalize l.mergeSort (fun a b => decide (a.off ≤ b.off)) = s
    have : ∀ (s : List Setting) (last : Int), (durations last s).map Prod.snd = s := by
      intro s
      induction s with
      | nil => intro _; rfl
      | cons x xs ih => intro last; simp [durations, ih]
    exact this s 0
  · intro x hx
    obtain ⟨hi, hx⟩ := List.getElem?_eq_some_iff.1 hx
    rw [forkTimes, durations_get _ _ _ hi, hx]
    simp
  · intro i x y hx hy
    obtain ⟨hj, hy⟩ := List.getElem?_eq_some_iff.1 hy
    constructor
    · rw [forkTimes, durations_get _ _ _ hj, hy]
      simp [hx]
    · omega

example : forkTimes [⟨none, 300, "time".toList, 100⟩] = [(100, ⟨none, 300, "time".toList, 100⟩)] := by
  simp [forkTimes, durations]

/-! ## C213: settings for a phase -/

/-- The start of any phase raises an exception for a component that has a setting for some phase. -/
theorem C213_fails (x : Setting) (l : List Setting) (phase : Str) (h : Handler) : applyPhase (x :: l) phase h = none := rfl

/-- Such a setting is what `+uvm_set_verbosity=comp,id,verbosity,phase` leaves for every component it matches. -/
theorem C213_pending_fails (mt : Str → Str → Bool) (toInt : Str → Option Int) (name c id v ph : Str) (vb : Int) (hc : ',' ∉ c) (hi : ',' ∉ id) (hv : ',' ∉ v)
    (hp : ',' ∉ ph) (hvb : convertVerb v = vb) (hvb' : vb ≠ -1) (hm : mt c name = true) (h1 : ph ≠ []) (h2 : ph ≠ "build".toList) (h3 : ph ≠ "time".toList) :
    Cmdline.setClVerb mt toInt true name [c ++ ',' :: (id ++ ',' :: (v ++ ',' :: ph))] = some [.later c id vb ph 0] := by
  have hs : splitOn ',' (c ++ ',' :: (id ++ ',' :: (v ++ ',' :: ph))) = [c, id, v, ph] := by
    rw [splitOn_append _ _ _ hc, splitOn_append _ _ _ hi, splitOn_append _ _ _ hv, splitOn_word _ _ hp]
  have hb : (vb == -1) = false := by simpa using hvb'
  have h1' : ph ≠ [] := h1
  have hr : Cmdline.verbRound mt toInt true name (c ++ ',' :: (id ++ ',' :: (v ++ ',' :: ph))) = .calls [.later c id vb ph 0] := by
    simp only [Cmdline.verbRound, hs, List.getElem?_cons_succ, List.getElem?_cons_zero, hvb, hb]
    rw [if_neg (by simp)]
    simp only [List.length_cons, List.length_nil]
    rw [if_neg (by omega)]
    simp only
    rw [if_pos hm, if_neg (fun h => by rcases h.1 with h | h | h <;> contradiction), if_pos h3]
  simp [Cmdline.setClVerb, Cmdline.verbLoop, hr]

/-- Components without such settings are not affected by the start of a phase. -/
theorem C213_partial (phase : Str) (h : Handler) : applyPhase [] phase h = some h := rfl

example : Cmdline.setClVerb (fun a b => a == b) (fun _ => none) true "top".toList ["top,_ALL_,UVM_HIGH,run".toList] =
    some [.later "top".toList "_ALL_".toList 300 "run".toList 0] := by decide +kernel

/-! ## C214: malformed verbosity settings -/

/-- The second of two good settings is reported as malformed, and a bad verbosity in it is not noticed. -/
theorem C214_second_fails :
    verbWarnings [] ["top,_ALL_,UVM_HIGH,build".toList, "top,_ALL_,UVM_LOW,build".toList] = some [.args "top,_ALL_,UVM_LOW,build".toList] ∧
    verbWarnings [] ["top,_ALL_,UVM_HIGH,build".toList, "top,_ALL_,LOUD,build".toList] = some [.args "top,_ALL_,LOUD,build".toList] := by decide +kernel

/-- A setting with fewer than three fields raises an exception instead, and so does a `+UVM_VERBOSITY` that is neither a name nor a
number. -/
theorem C214_raise_fails : verbWarnings [] ["top,_ALL_".toList] = none ∧ verbOf "LOUD".toList = none := by decide +kernel

/-- A single setting with three fields or more is reported exactly for what is wrong with it. -/
theorem C214_partial (v : Str) (a b c : Str) (r : List Str) (h : splitOn ',' v = a :: b :: c :: r) :
    ∃ ws, verbWarnings [] [v] = some ws ∧ (.args v ∈ ws ↔ (splitOn ',' v).length ≠ 4 ∧ (splitOn ',' v).length ≠ 5) ∧ (.verb v ∈ ws ↔ convertVerb c = -1) := by
  refine ⟨_, by simp only [verbWarnings, List.nil_append, h, List.getElem?_cons_succ, List.getElem?_cons_zero, Option.map_some]; rfl, ?_, ?_⟩
  · by_cases h1 : convertVerb c = -1
    · by_cases h2 : (a :: b :: c :: r).length < 4 ∨ (a :: b :: c :: r).length > 5
      · rw [if_pos h1, if_pos h2]
        simp only [h]
        simp
        simp at h2
        omega
      · rw [if_pos h1, if_neg h2]
        simp only [h]
        simp
        simp at h2
        omega
    · by_cases h2 : (a :: b :: c :: r).length < 4 ∨ (a :: b :: c :: r).length > 5
      · rw [if_neg h1, if_pos h2]
        simp only [h]
        simp
        simp at h2
        omega
      · rw [if_neg h1, if_neg h2]
        simp only [h]
        simp
        simp at h2
        omega
  · by_cases h1 : convertVerb c = -1
    · simp [h1]
    · by_cases h2 : (a :: b :: c :: r).length < 4 ∨ (a :: b :: c :: r).length > 5 <;> simp only [h2, if_true, if_false, h1] <;> simp

example : verbWarnings [] ["top,_ALL_,LOUD".toList] = some [.args "top,_ALL_,LOUD".toList, .verb "top,_ALL_,LOUD".toList] := by decide +kernel

/-! ## C215: overrides -/

/-- Type overrides of the command line have no effect. -/
theorem C215_type_fails (v : Str) : doFactorySettings ["+uvm_set_type_override=".toList ++ v] = [] := by
  have h : ("+UVM_SET_INST_OVERRIDE".toList.isPrefixOf ("+uvm_set_type_override=".toList ++ v) || "+uvm_set_inst_override".toList.isPrefixOf ("+uvm_set_type_override=".toList ++ v)) = false := by
    simp [List.isPrefixOf]
  simp only [doFactorySettings, argsNamed, List.filter_cons, h]
  simp [processType]

/-- Instance overrides are made in order, each with the types and the path it gives; settings with another number of fields are
reported and make none. -/
theorem C215_partial (vs : List Str) :
    doFactorySettings (vs.map fun v => "+uvm_set_inst_override=".toList ++ v) =
      vs.flatMap fun v => match splitOn ',' v with | [r, o, p] => [.inst r o p] | _ => [.error] := by
  have h1 : ∀ v : Str, ("+UVM_SET_INST_OVERRIDE".toList.isPrefixOf ("+uvm_set_inst_override=".toList ++ v) || "+uvm_set_inst_override".toList.isPrefixOf ("+uvm_set_inst_override=".toList ++ v)) = true := by
    intro v; simp [List.isPrefixOf]
  have h2 : ∀ v : Str, ("+UVM_SET_TYPE_OVERRIDE".toList.isPrefixOf ("+uvm_set_inst_override=".toList ++ v) || "+uvm_set_type_override".toList.isPrefixOf ("+uvm_set_inst_override=".toList ++ v)) = false := by
    intro v; simp [List.isPrefixOf]
  have hd : ∀ v : Str, ("+uvm_set_inst_override=".toList ++ v).drop 23 = v := by intro v; simp
  induction vs with
  | nil => rfl
  | cons v vs ih =>
    simp only [doFactorySettings, argsNamed, List.map_cons, List.filter_cons, h1, h2, if_true, List.flatMap_cons, hd] at ih ⊢
    rw [List.append_assoc]
    simp only [Bool.false_eq_true, if_false]
    rw [ih]
    rfl

example : doFactorySettings ["+uvm_set_inst_override=base,derived,top.env".toList, "+uvm_set_type_override=base,derived".toList] =
    [.inst "base".toList "derived".toList "top.env".toList] := by decide +kernel

end Verif.RootSettings
