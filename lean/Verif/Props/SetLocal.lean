import Verif.Lemmas.SetLocal
import Verif.Model.Text
/-
Settings of registered fields by name, through objects of objects.
-/

namespace Verif.SetLocal

open Spec (dotted GoodName GoodEnv settable Reach Named TreeLike)

/-! ### Lemmas about calls -/

/-- One round of the two plain loops. -/
theorem int_loop {E : Env} {pat : Str} {v : Val} {o : Nat} (fs : List Field) (hf : ∀ f ∈ fs, GoodName f.name) (s : St)
    (hs : ∀ y ∈ s.scope.stack, GoodName y) :
    (setIntFields E pat v o fs s).scope.stack = s.scope.stack ∧ (setIntFields E pat v o fs s).busy = s.busy ∧
    (setIntFields E pat v o fs s).exc = s.exc ∧
    ∀ q x, ((q = o ∧ (∃ f ∈ fs, f.name = x ∧ f.readOnly = false) ∧ E.isMatch pat (dotted (s.scope.stack ++ [x])) = true) →
        (setIntFields E pat v o fs s).attr q x = v) ∧
      (¬ (q = o ∧ (∃ f ∈ fs, f.name = x ∧ f.readOnly = false) ∧ E.isMatch pat (dotted (s.scope.stack ++ [x])) = true) →
        (setIntFields E pat v o fs s).attr q x = s.attr q x) := by
  induction fs generalizing s with
  | nil => exact ⟨rfl, rfl, rfl, fun q x => ⟨by simp, fun _ => rfl⟩⟩
  | cons f fs ih =>
    have hg := hf f (by simp)
    have ht := text_setArg s.scope f.name hs hg
    simp only [setIntFields]
    rw [ht]
    generalize hs1 : ({ (if E.isMatch pat (dotted (s.scope.stack ++ [f.name])) then
        (if f.readOnly then ({ s with scope := ScopeStack.step s.scope (.setArg f.name) } : St)
         else { s with scope := ScopeStack.step s.scope (.setArg f.name), attr := put s.attr o f.name v, status := true })
        else { s with scope := ScopeStack.step s.scope (.setArg f.name) }) with
      scope := ScopeStack.step (if E.isMatch pat (dotted (s.scope.stack ++ [f.name])) then
        (if f.readOnly then ({ s with scope := ScopeStack.step s.scope (.setArg f.name) } : St)
         else { s with scope := ScopeStack.step s.scope (.setArg f.name), attr := put s.attr o f.name v, status := true })
        else { s with scope := ScopeStack.step s.scope (.setArg f.name) }).scope (.unsetArg f.name) } : St) = s1
    have e1 : s1.scope.stack = s.scope.stack := by
      rw [← hs1]; show (ScopeStack.step _ _).stack = _
      rw [stack_unsetArg]
      by_cases hm : E.isMatch pat (dotted (s.scope.stack ++ [f.name])) = true <;> cases hr : f.readOnly <;>
        simp [hm, stack_setArg]
    have e2 : s1.busy = s.busy := by
      rw [← hs1]
      by_cases hm : E.isMatch pat (dotted (s.scope.stack ++ [f.name])) = true <;> cases hr : f.readOnly <;> simp [hm]
    have e3 : s1.exc = s.exc := by
      rw [← hs1]
      by_cases hm : E.isMatch pat (dotted (s.scope.stack ++ [f.name])) = true <;> cases hr : f.readOnly <;> simp [hm]
    have e4 : s1.attr = if E.isMatch pat (dotted (s.scope.stack ++ [f.name])) = true ∧ f.readOnly = false then put s.attr o f.name v
        else s.attr := by
      rw [← hs1]
      by_cases hm : E.isMatch pat (dotted (s.scope.stack ++ [f.name])) = true <;> cases hr : f.readOnly <;> simp [hm]
    obtain ⟨h1, h2, h3, h4⟩ := ih (fun g hg => hf g (by simp [hg])) s1 (by rw [e1]; exact hs)
    refine ⟨h1.trans e1, h2.trans e2, h3.trans e3, fun q x => ?_⟩
    obtain ⟨h5, h6⟩ := h4 q x
    rw [e1] at h5 h6
    by_cases hl : q = o ∧ (∃ f ∈ fs, f.name = x ∧ f.readOnly = false) ∧ E.isMatch pat (dotted (s.scope.stack ++ [x])) = true
    · refine ⟨fun _ => h5 hl, fun hn => absurd ⟨hl.1, ?_, hl.2.2⟩ hn⟩
      obtain ⟨g, hg, hr⟩ := hl.2.1
      exact ⟨g, by simp [hg], hr⟩
    · have h7 := h6 hl
      constructor
      · rintro ⟨rfl, ⟨g, hg, rfl, hr⟩, hm⟩
        rcases List.mem_cons.1 hg with rfl | hg
        · rw [h7, e4, if_pos ⟨hm, hr⟩]; simp [put]
        · exact absurd ⟨rfl, ⟨g, hg, rfl, hr⟩, hm⟩ hl
      · intro hn
        rw [h7, e4]
        split <;> rename_i hc
        · simp only [put]
          rw [if_neg]
          rintro ⟨rfl, rfl⟩
          exact hn ⟨rfl, ⟨f, by simp, rfl, hc.2⟩, hc.1⟩
        · rfl

theorem str_loop {E : Env} {pat : Str} {v : Val} {o : Nat} (fs : List Field) (hf : ∀ f ∈ fs, GoodName f.name) (s : St)
    (hs : ∀ y ∈ s.scope.stack, GoodName y) :
    (setStrFields E pat v o fs s).scope.stack = s.scope.stack ∧ (setStrFields E pat v o fs s).busy = s.busy ∧
    (setStrFields E pat v o fs s).exc = s.exc ∧
    ∀ q x, ((q = o ∧ (∃ f ∈ fs, f.name = x ∧ f.readOnly = false) ∧ E.isMatch pat (dotted (s.scope.stack ++ [x])) = true) →
        (setStrFields E pat v o fs s).attr q x = v) ∧
      (¬ (q = o ∧ (∃ f ∈ fs, f.name = x ∧ f.readOnly = false) ∧ E.isMatch pat (dotted (s.scope.stack ++ [x])) = true) →
        (setStrFields E pat v o fs s).attr q x = s.attr q x) := by
  induction fs generalizing s with
  | nil => exact ⟨rfl, rfl, rfl, fun q x => ⟨by simp, fun _ => rfl⟩⟩
  | cons f fs ih =>
    have hg := hf f (by simp)
    have ht := text_setArg s.scope f.name hs hg
    simp only [setStrFields]
    rw [ht]
    generalize hs1 : (if E.isMatch pat (dotted (s.scope.stack ++ [f.name])) then
        (if f.readOnly then ({ s with scope := ScopeStack.step s.scope (.setArg f.name) } : St)
         else { s with scope := ScopeStack.step s.scope (.setArg f.name), attr := put s.attr o f.name v, status := true })
        else { s with scope := ScopeStack.step s.scope (.setArg f.name) } : St) = s1
    have e1 : s1.scope.stack = s.scope.stack := by
      rw [← hs1]
      by_cases hm : E.isMatch pat (dotted (s.scope.stack ++ [f.name])) = true <;> cases hr : f.readOnly <;>
        simp [hm, stack_setArg]
    have e2 : s1.busy = s.busy := by
      rw [← hs1]
      by_cases hm : E.isMatch pat (dotted (s.scope.stack ++ [f.name])) = true <;> cases hr : f.readOnly <;> simp [hm]
    have e3 : s1.exc = s.exc := by
      rw [← hs1]
      by_cases hm : E.isMatch pat (dotted (s.scope.stack ++ [f.name])) = true <;> cases hr : f.readOnly <;> simp [hm]
    have e4 : s1.attr = if E.isMatch pat (dotted (s.scope.stack ++ [f.name])) = true ∧ f.readOnly = false then put s.attr o f.name v
        else s.attr := by
      rw [← hs1]
      by_cases hm : E.isMatch pat (dotted (s.scope.stack ++ [f.name])) = true <;> cases hr : f.readOnly <;> simp [hm]
    obtain ⟨h1, h2, h3, h4⟩ := ih (fun g hg => hf g (by simp [hg])) s1 (by rw [e1]; exact hs)
    refine ⟨h1.trans e1, h2.trans e2, h3.trans e3, fun q x => ?_⟩
    obtain ⟨h5, h6⟩ := h4 q x
    rw [e1] at h5 h6
    by_cases hl : q = o ∧ (∃ f ∈ fs, f.name = x ∧ f.readOnly = false) ∧ E.isMatch pat (dotted (s.scope.stack ++ [x])) = true
    · refine ⟨fun _ => h5 hl, fun hn => absurd ⟨hl.1, ?_, hl.2.2⟩ hn⟩
      obtain ⟨g, hg, hr⟩ := hl.2.1
      exact ⟨g, by simp [hg], hr⟩
    · have h7 := h6 hl
      constructor
      · rintro ⟨rfl, ⟨g, hg, rfl, hr⟩, hm⟩
        rcases List.mem_cons.1 hg with rfl | hg
        · rw [h7, e4, if_pos ⟨hm, hr⟩]; simp [put]
        · exact absurd ⟨rfl, ⟨g, hg, rfl, hr⟩, hm⟩ hl
      · intro hn
        rw [h7, e4]
        split <;> rename_i hc
        · simp only [put]
          rw [if_neg]
          rintro ⟨rfl, rfl⟩
          exact hn ⟨rfl, ⟨f, by simp, rfl, hc.2⟩, hc.1⟩
        · rfl

/-- The container after a call that did not raise. -/
theorem call_stack {E : Env} (hE : GoodEnv E) (fuel : Nat) (s : St) (c : Call) (hs : ∀ y ∈ s.scope.stack, GoodName y)
    (h : (call E fuel s c).exc = none) : (call E fuel s c).scope.stack = s.scope.stack := by
  cases c with
  | int o pat n =>
    simp only [call, autoPlain, List.not_mem_nil, ↓reduceIte]
    exact (int_loop (E.fields o) (hE.names o) { s with busy := [] ++ [o], status := false, exc := none } hs).1
  | str o pat t =>
    simp only [call, autoPlain, List.not_mem_nil, ↓reduceIte]
    exact (str_loop (E.fields o) (hE.names o) { s with busy := [] ++ [o], status := false, exc := none } hs).1
  | obj o pat v => exact (keep_auto hE pat (objVal v) fuel o _ h).1

/-- No call of the history ended with an exception. -/
def Quiet (E : Env) (fuel : Nat) (s : St) : List Call → Prop
  | [] => True
  | c :: cs => (call E fuel s c).exc = none ∧ Quiet E fuel (call E fuel s c) cs

theorem quiet_stack {E : Env} (hE : GoodEnv E) (fuel : Nat) (cs : List Call) (s : St) (hs : ∀ y ∈ s.scope.stack, GoodName y)
    (h : Quiet E fuel s cs) : (calls E fuel s cs).scope.stack = s.scope.stack := by
  induction cs generalizing s with
  | nil => rfl
  | cons c cs ih =>
    have h1 := call_stack hE fuel s c hs h.1
    show (calls E fuel (call E fuel s c) cs).scope.stack = _
    rw [ih _ (by rw [h1]; exact hs) h.2, h1]

/-! ### C265: integers and texts -/

/-- After any history of settings that did not raise, `set_int_local` and `set_string_local` set exactly the fields of the object
that may be set and whose name matches the pattern; they never raise. -/
theorem C265_plain (E : Env) (hE : GoodEnv E) (fuel : Nat) (a : Nat → Str → Val) (cs : List Call) (h : Quiet E fuel (fresh a) cs)
    (o : Nat) (pat : Str) (n : Int) (t : Str) (q : Nat) (x : Str) :
    let s := calls E fuel (fresh a) cs
    ((call E fuel s (.int o pat n)).exc = none ∧ (call E fuel s (.str o pat t)).exc = none) ∧
    ((q = o ∧ settable E o x ∧ E.isMatch pat x = true) →
      (call E fuel s (.int o pat n)).attr q x = .int n ∧ (call E fuel s (.str o pat t)).attr q x = .str t) ∧
    (¬ (q = o ∧ settable E o x ∧ E.isMatch pat x = true) →
      (call E fuel s (.int o pat n)).attr q x = s.attr q x ∧ (call E fuel s (.str o pat t)).attr q x = s.attr q x) := by
  intro s
  have hst : s.scope.stack = [] := quiet_stack hE fuel cs (fresh a) (by simp [fresh, ScopeStack.init]) h
  have hs : ∀ y ∈ s.scope.stack, GoodName y := by rw [hst]; simp
  have hx : dotted ([] ++ [x]) = x := by simp [dotted]
  simp only [call, autoPlain, List.not_mem_nil, ↓reduceIte]
  obtain ⟨_, _, i3, i4⟩ := int_loop (E := E) (pat := pat) (v := .int n) (o := o) (E.fields o) (hE.names o)
    { s with busy := [] ++ [o], status := false, exc := none } hs
  obtain ⟨_, _, t3, t4⟩ := str_loop (E := E) (pat := pat) (v := .str t) (o := o) (E.fields o) (hE.names o)
    { s with busy := [] ++ [o], status := false, exc := none } hs
  have i5 := i4 q x
  have t5 := t4 q x
  dsimp only at i5 t5
  rw [hst, hx] at i5 t5
  exact ⟨⟨i3, t3⟩, fun hh => ⟨i5.1 hh, t5.1 hh⟩, fun hh => ⟨i5.2 hh, t5.2 hh⟩⟩

/-! ### C266: objects -/

/-- After any history of settings that did not raise: `set_object_local` with a pattern with a dot or a wildcard, on an object
below which the objects form a tree, sets exactly the fields the pattern names, at every depth, if it does not raise. -/
theorem C266_tree (E : Env) (hE : GoodEnv E) (fuel : Nat) (a : Nat → Str → Val) (cs : List Call) (h : Quiet E fuel (fresh a) cs)
    (o : Nat) (pat : Str) (v : Option Nat) (hp : '.' ∈ pat ∨ '*' ∈ pat)
    (ht : TreeLike E pat (calls E fuel (fresh a) cs).attr [] o)
    (he : (call E fuel (calls E fuel (fresh a) cs) (.obj o pat v)).exc = none) (q : Nat) (x : Str) :
    (Named E pat (calls E fuel (fresh a) cs).attr [] o q x →
      (call E fuel (calls E fuel (fresh a) cs) (.obj o pat v)).attr q x = objVal v) ∧
    (¬ Named E pat (calls E fuel (fresh a) cs).attr [] o q x →
      (call E fuel (calls E fuel (fresh a) cs) (.obj o pat v)).attr q x = (calls E fuel (fresh a) cs).attr q x) := by
  have hst : (calls E fuel (fresh a) cs).scope.stack = [] := quiet_stack hE fuel cs (fresh a) (by simp [fresh, ScopeStack.init]) h
  have hpl : pathLike pat = true := by
    unfold pathLike
    rw [List.any_eq_true]
    rcases hp with h | h
    · exact ⟨_, h, by simp⟩
    · exact ⟨_, h, by simp⟩
  have hd := auto_tree hE (objVal v) hpl fuel o { calls E fuel (fresh a) cs with busy := [], status := false, exc := none }
    (by show ∀ y ∈ (calls E fuel (fresh a) cs).scope.stack, GoodName y; rw [hst]; simp) rfl he
    (by show TreeLike E pat _ (calls E fuel (fresh a) cs).scope.stack o; rw [hst]; exact ht) (by simp) q x
  dsimp only at hd
  rw [hst] at hd
  exact hd

theorem flat_loop {E : Env} {pat : Str} {v : Val} {rec : Nat → St → St} {o : Nat} (hp : pathLike pat = false) (fs : List Field) (s : St)
    (he : s.exc = none) : setObjFields E pat v rec o fs s = setStrFields E pat v o fs s := by
  induction fs generalizing s with
  | nil => rfl
  | cons f fs ih =>
    have e : setObjField E pat v rec o f s =
        if E.isMatch pat (text (ScopeStack.step s.scope (.setArg f.name))) then
          if f.readOnly then { s with scope := ScopeStack.step s.scope (.setArg f.name) }
          else { s with scope := ScopeStack.step s.scope (.setArg f.name), attr := put s.attr o f.name v, status := true }
        else { s with scope := ScopeStack.step s.scope (.setArg f.name) } := by
      unfold setObjField
      simp only [hp, Bool.false_eq_true, and_false, ↓reduceIte]
    have e2 : (setObjField E pat v rec o f s).exc = none := by
      rw [e]; split
      · split <;> exact he
      · exact he
    simp only [setObjFields, setStrFields]
    rw [e2, if_neg (by simp), ih _ e2, e]

/-- With a pattern without dot and wildcard `set_object_local` sets exactly the fields of the object itself whose names match and
that may be set, whatever the objects refer to, and never raises. -/
theorem C266_flat (E : Env) (hE : GoodEnv E) (fuel : Nat) (hfuel : 0 < fuel) (a : Nat → Str → Val) (cs : List Call)
    (h : Quiet E fuel (fresh a) cs) (o : Nat) (pat : Str) (v : Option Nat) (hp : '.' ∉ pat ∧ '*' ∉ pat) (q : Nat) (x : Str) :
    let s := calls E fuel (fresh a) cs
    (call E fuel s (.obj o pat v)).exc = none ∧
    ((q = o ∧ settable E o x ∧ E.isMatch pat x = true) → (call E fuel s (.obj o pat v)).attr q x = objVal v) ∧
    (¬ (q = o ∧ settable E o x ∧ E.isMatch pat x = true) → (call E fuel s (.obj o pat v)).attr q x = s.attr q x) := by
  intro s
  have hst : s.scope.stack = [] := quiet_stack hE fuel cs (fresh a) (by simp [fresh, ScopeStack.init]) h
  have hpl : pathLike pat = false := by
    unfold pathLike
    rw [List.any_eq_false]
    intro c hc
    have h1 : c ≠ '.' := fun e => hp.1 (e ▸ hc)
    have h2 : c ≠ '*' := fun e => hp.2 (e ▸ hc)
    simp [h1, h2]
  obtain ⟨n, rfl⟩ : ∃ n, fuel = n + 1 := ⟨fuel - 1, by omega⟩
  obtain ⟨_, _, t3, t4⟩ := str_loop (E := E) (pat := pat) (v := objVal v) (o := o) (E.fields o) (hE.names o)
    { s with busy := [] ++ [o], status := false, exc := none } (by show ∀ y ∈ s.scope.stack, GoodName y; rw [hst]; simp)
  have t5 := t4 q x
  dsimp only at t5
  rw [hst, show dotted ([] ++ [x]) = x by simp [dotted]] at t5
  have e : call E (n + 1) s (.obj o pat v) = { setStrFields E pat (objVal v) o (E.fields o)
      { s with busy := [] ++ [o], status := false, exc := none } with busy :=
        (setStrFields E pat (objVal v) o (E.fields o) { s with busy := [] ++ [o], status := false, exc := none }).busy.dropLast } := by
    simp only [call, autoObj, List.not_mem_nil, ↓reduceIte]
    rw [flat_loop hpl _ _ rfl, t3, if_neg (by simp)]
  rw [e]
  exact ⟨t3, t5.1, t5.2⟩

/-- A call with an object ends, also where the objects refer to each other in circles: never more steps deep than there are
objects. -/
theorem C266_ends (E : Env) (N fuel : Nat) (hN : N < fuel) (s : St) (o : Nat) (ho : o < N) (pat : Str) (v : Option Nat)
    (hs : ∀ p x q, s.attr p x = .obj q → q < N) (hv : ∀ p, v = some p → p < N) :
    (call E fuel s (.obj o pat v)).exc ≠ some .fuel := by
  obtain ⟨n, rfl⟩ : ∃ n, fuel = n + 1 := ⟨fuel - 1, by omega⟩
  refine (ends_auto (E := E) (pat := pat) (v := objVal v) (N := N) (fun p e => ?_) n o
    { s with busy := [], status := false, exc := none } ho ⟨hs, by simp, by simp⟩ rfl (by simp; omega)).1
  cases v with
  | none => cases e
  | some p' => exact hv p (by cases e; rfl)

/-- A call that does not raise leaves the shared scope as it was. -/
theorem C266_restores (E : Env) (hE : GoodEnv E) (fuel : Nat) (s : St) (c : Call) (hs : ∀ y ∈ s.scope.stack, GoodName y)
    (h : (call E fuel s c).exc = none) : (call E fuel s c).scope.stack = s.scope.stack := call_stack hE fuel s c hs h

/-! A tree of objects: 0 has `sub` (object 1), `oth` (object 2); both have `cfg`; 1 has a read-only `ro`. -/

def n1 : Str := "sub".toList
def n2 : Str := "oth".toList
def n3 : Str := "cfg".toList
def n4 : Str := "ro".toList
def n5 : Str := "num".toList

def exEnv : Env where
  isMatch p s := Text.isMatch p s == some true
  fields o := if o = 0 then [⟨n1, false⟩, ⟨n2, false⟩] else if o = 1 then [⟨n3, false⟩, ⟨n4, true⟩]
    else if o = 2 then [⟨n3, false⟩] else if o = 3 then [⟨n5, false⟩, ⟨n1, false⟩, ⟨n3, false⟩] else []

def exAttr : Nat → Str → Val := fun o x =>
  if o = 0 ∧ x = n1 then .obj 1 else if o = 0 ∧ x = n2 then .obj 2 else if o = 3 ∧ x = n5 then .int 4 else .none

theorem exEnv_good : GoodEnv exEnv where
  names o f hf := by
    have : f.name = n1 ∨ f.name = n2 ∨ f.name = n3 ∨ f.name = n4 ∨ f.name = n5 := by
      simp only [exEnv] at hf
      split at hf
      · simp at hf; rcases hf with rfl | rfl <;> simp
      · split at hf
        · simp at hf; rcases hf with rfl | rfl <;> simp
        · split at hf
          · simp at hf; rcases hf with rfl; simp
          · split at hf
            · simp at hf; rcases hf with rfl | rfl | rfl <;> simp
            · simp at hf
    rcases this with e | e | e | e | e <;> (rw [e]; exact ⟨_, _, rfl, by decide, by decide, by decide⟩)
  nodup o := by
    simp only [exEnv]
    split
    · decide
    · split
      · decide
      · split
        · decide
        · split
          · decide
          · simp

theorem ex_reach {o : Nat} {pre π : List Str} {q : Nat} (h : Reach exEnv "sub.cfg".toList exAttr pre o π q) :
    (o = 0 → (π = [] ∧ q = 0) ∨ (π = [n1] ∧ q = 1) ∨ (π = [n2] ∧ q = 2)) ∧ ((o = 1 ∨ o = 2) → π = [] ∧ q = o) := by
  induction h with
  | here pre o => exact ⟨fun h => .inl ⟨rfl, h⟩, fun _ => ⟨rfl, rfl⟩⟩
  | down pre o x p π q h1 h2 h3 h4 ih =>
    refine ⟨fun ho => ?_, fun ho => ?_⟩
    · subst ho
      unfold exAttr at h3
      split at h3
      · injection h3 with h3; subst h3
        obtain ⟨rfl, rfl⟩ := ih.2 (.inl rfl)
        rename_i hx; exact .inr (.inl ⟨by rw [hx.2], rfl⟩)
      · split at h3
        · injection h3 with h3; subst h3
          obtain ⟨rfl, rfl⟩ := ih.2 (.inr rfl)
          rename_i hx; exact .inr (.inr ⟨by rw [hx.2], rfl⟩)
        · split at h3 <;> cases h3
    · have : exAttr o x = .none := by
        unfold exAttr
        rcases ho with rfl | rfl <;> simp
      rw [this] at h3; cases h3

/-- The hypotheses of `C266_tree` are met, and the setting of `sub.cfg` reaches object 1 and not object 2. -/
example : TreeLike exEnv "sub.cfg".toList exAttr [] 0 ∧
    (call exEnv 5 (fresh exAttr) (.obj 0 "sub.cfg".toList (some 9))).exc = none ∧
    (call exEnv 5 (fresh exAttr) (.obj 0 "sub.cfg".toList (some 9))).attr 1 n3 = .obj 9 ∧
    (call exEnv 5 (fresh exAttr) (.obj 0 "sub.cfg".toList (some 9))).attr 2 n3 = .none := by
  refine ⟨fun π π' q h h' => ?_, by decide +kernel, by decide +kernel, by decide +kernel⟩
  have e := (ex_reach h).1 rfl
  have e' := (ex_reach h').1 rfl
  rcases e with ⟨rfl, rfl⟩ | ⟨rfl, rfl⟩ | ⟨rfl, rfl⟩ <;> rcases e' with ⟨rfl, h⟩ | ⟨rfl, h⟩ | ⟨rfl, h⟩ <;>
    first | rfl | cases h

/-- Two objects that refer to each other: the call ends. -/
example : let E : Env := { exEnv with fields := fun _ => [⟨n1, false⟩, ⟨n3, false⟩] }
    let a : Nat → Str → Val := fun o x => if x = n1 then .obj (1 - o) else .none
    (call E 3 (fresh a) (.obj 0 "sub.cfg".toList (some 0))).exc = none ∧
    (call E 3 (fresh a) (.obj 0 "sub.cfg".toList (some 0))).attr 1 n3 = .obj 0 := by decide +kernel

/-! ### C267: after an exception -/

theorem raise_field {E : Env} {pat : Str} {v : Val} {rec : Nat → St → St}
    (hr : ∀ p s, s.exc = none → (rec p s).exc = some .attribute → ∃ l, (rec p s).scope.stack = s.scope.stack ++ l)
    {o : Nat} {f : Field} {s : St} (he : s.exc = none) (h : (setObjField E pat v rec o f s).exc = some .attribute) :
    ∃ l, l ≠ [] ∧ (setObjField E pat v rec o f s).scope.stack = s.scope.stack ++ l := by
  unfold setObjField at h ⊢
  dsimp only at h ⊢
  split at h <;> rename_i hm
  · split at h <;> (rw [show _ = s.exc from rfl, he] at h; cases h)
  · rw [if_neg hm]
    split at h <;> rename_i hd
    · rw [if_pos hd]
      have hdn : (ScopeStack.step (ScopeStack.step s.scope (.setArg f.name)) (.down f.name)).stack = s.scope.stack ++ [f.name] := by
        show (ScopeStack.step s.scope (.setArg f.name)).stack ++ [f.name] = _
        rw [stack_setArg]
      cases ha : s.attr o f.name with
      | none => exact ⟨[f.name], by simp, hdn⟩
      | int n => exact ⟨[f.name], by simp, hdn⟩
      | str n => exact ⟨[f.name], by simp, hdn⟩
      | obj p =>
        rw [ha] at h
        dsimp only at h ⊢
        split at h <;> rename_i hx
        · rw [if_pos hx]
          obtain ⟨l, hl⟩ := hr p { s with scope := ScopeStack.step (ScopeStack.step s.scope (.setArg f.name)) (.down f.name) } he h
          exact ⟨f.name :: l, by simp, by rw [hl, hdn]; simp⟩
        · exact absurd (show (rec p _).exc.isSome = true by rw [show (rec p _).exc = some .attribute from h]; rfl) hx
    · rw [show _ = s.exc from rfl, he] at h; cases h

theorem raise_fields {E : Env} (hE : GoodEnv E) {pat : Str} {v : Val} {rec : Nat → St → St} (hk : Keeps rec)
    (hr : ∀ p s, s.exc = none → (rec p s).exc = some .attribute → ∃ l, (rec p s).scope.stack = s.scope.stack ++ l)
    {o : Nat} (fs : List Field) (hf : ∀ f ∈ fs, GoodName f.name) {s : St} (he : s.exc = none)
    (h : (setObjFields E pat v rec o fs s).exc = some .attribute) :
    ∃ l, l ≠ [] ∧ (setObjFields E pat v rec o fs s).scope.stack = s.scope.stack ++ l := by
  induction fs generalizing s with
  | nil => simp [setObjFields, he] at h
  | cons f fs ih =>
    simp only [setObjFields] at h ⊢
    split at h <;> rename_i hx
    · rw [if_pos hx]; exact raise_field hr he h
    · rw [if_neg hx]
      have hx' : (setObjField E pat v rec o f s).exc = none := by simpa using hx
      obtain ⟨l, h1, h2⟩ := ih (fun g hg => hf g (by simp [hg])) hx' h
      exact ⟨l, h1, by rw [h2, (keep_field hk (hf f (by simp)) hx').1]⟩

theorem raise_auto {E : Env} (hE : GoodEnv E) {pat : Str} {v : Val} (n : Nat) (o : Nat) (s : St) (he : s.exc = none)
    (h : (autoObj E pat v n o s).exc = some .attribute) :
    ∃ l, l ≠ [] ∧ (autoObj E pat v n o s).scope.stack = s.scope.stack ++ l := by
  induction n generalizing o s with
  | zero => simp [autoObj] at h
  | succ n ih =>
    unfold autoObj at h ⊢
    split at h <;> rename_i hb
    · rw [he] at h; cases h
    · rw [if_neg hb]
      dsimp only at h ⊢
      have aux : (setObjFields E pat v (autoObj E pat v n) o (E.fields o) { s with busy := s.busy ++ [o] }).exc = some .attribute := by
        split at h <;> exact h
      obtain ⟨l, h1, h2⟩ := raise_fields (v := v) hE (keep_auto hE pat v n)
        (fun p s he h => (ih p s he h).elim fun l hl => ⟨l, hl.2⟩) (E.fields o) (hE.names o) (s := { s with busy := s.busy ++ [o] }) he aux
      rw [if_pos (by rw [aux]; rfl)]
      exact ⟨l, h1, h2⟩

/-- The user expects: whatever happened before, a setting of integers sets exactly the matching fields. -/
def C267_statement : Prop :=
  ∀ (E : Env), GoodEnv E → ∀ (fuel : Nat) (a : Nat → Str → Val) (cs : List Call) (o : Nat) (pat : Str) (n : Int) (q : Nat) (x : Str),
    ¬ (q = o ∧ settable E o x ∧ E.isMatch pat x = true) →
    (call E fuel (calls E fuel (fresh a) cs) (.int o pat n)).attr q x = (calls E fuel (fresh a) cs).attr q x

/-- The names a call that raised was at stay in the scope of all objects, and are part of every name looked at from then on. -/
theorem C267_scope_kept_fails (E : Env) (hE : GoodEnv E) (fuel : Nat) (s : St) (c : Call)
    (h : (call E fuel s c).exc = some .attribute) : ∃ l, l ≠ [] ∧ (call E fuel s c).scope.stack = s.scope.stack ++ l := by
  cases c with
  | int o pat n =>
    exfalso
    have : ∀ (fs : List Field) (t : St), (setIntFields E pat (.int n) o fs t).exc = t.exc := by
      intro fs
      induction fs with
      | nil => intro t; rfl
      | cons f fs ih =>
        intro t; simp only [setIntFields]; rw [ih]; dsimp only
        split
        · split <;> rfl
        · rfl
    simp only [call, autoPlain, List.not_mem_nil, ↓reduceIte] at h
    rw [this] at h; cases h
  | str o pat t =>
    exfalso
    have : ∀ (fs : List Field) (t' : St), (setStrFields E pat (.str t) o fs t').exc = t'.exc := by
      intro fs
      induction fs with
      | nil => intro t; rfl
      | cons f fs ih =>
        intro t; simp only [setStrFields]; rw [ih]
        split
        · split <;> rfl
        · rfl
    simp only [call, autoPlain, List.not_mem_nil, ↓reduceIte] at h
    rw [this] at h; cases h
  | obj o pat v => exact raise_auto hE fuel o _ rfl h

/-- Object 3 has an integer `num`, then `sub` and `cfg`.  A setting with a path raises at `num`; after that, setting `num` sets all
three fields. -/
theorem C267_after_exception_fails : ¬ C267_statement := fun h => by
  have := h exEnv exEnv_good 5 exAttr [.obj 3 "sub.cfg".toList (some 9)] 3 n5 7 3 n3
    (fun hh => by have := hh.2.2; revert this; decide +kernel)
  revert this; decide +kernel

end Verif.SetLocal
