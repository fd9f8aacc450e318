import Verif.Spec.MapSwitch
import Verif.Props.MapTree
/-!
# C331, C332: the switches of maps
-/
namespace Verif.MapSwitch
open Verif.MapTree

theorem foldlM_sets {f : (Nat → Bool) → Nat → Option (Nat → Bool)} {on : Bool} {P : Nat → Nat → Prop} (l : List Nat)
    (h : ∀ c ∈ l, ∀ chk, ∃ chk', f chk c = some chk' ∧ ∀ x, (P x c → chk' x = on) ∧ (¬ P x c → chk' x = chk x)) (chk : Nat → Bool) :
    ∃ chk', l.foldlM f chk = some chk' ∧ ∀ x, ((∃ c ∈ l, P x c) → chk' x = on) ∧ ((∀ c ∈ l, ¬ P x c) → chk' x = chk x) := by
  induction l generalizing chk with
  | nil => exact ⟨chk, rfl, fun x => ⟨by simp, fun _ => rfl⟩⟩
  | cons c l ih =>
    obtain ⟨c1, e1, h1⟩ := h c (by simp) chk
    obtain ⟨c2, e2, h2⟩ := ih (fun d hd => h d (by simp [hd])) c1
    refine ⟨c2, by simp only [List.foldlM_cons, e1]; exact e2, fun x => ⟨?_, fun hn => ?_⟩⟩
    · rintro ⟨d, hd, hP⟩
      by_cases hex : ∃ d ∈ l, P x d
      · exact (h2 x).1 hex
      · rw [(h2 x).2 fun d hd hp => hex ⟨d, hd, hp⟩]
        rcases List.mem_cons.1 hd with rfl | hd
        · exact (h1 x).1 hP
        · exact absurd ⟨d, hd, hP⟩ hex
    · rw [(h2 x).2 fun d hd => hn d (by simp [hd]), (h1 x).2 (hn c (by simp))]

theorem setCheck_spec {bp : Nat → Option Nat} {rank : Nat → Nat} {n : Nat} (hb : BlockTree bp rank n) {t : MapTree.State} (hi : Inv bp t) (on : Bool) :
    ∀ (d m : Nat), n ≤ rank (t.map m).block + d → ∀ fuel, d < fuel → ∀ chk, ∃ chk', setCheck t on fuel chk m = some chk' ∧
      ∀ x, (Within t x m → chk' x = on) ∧ (¬ Within t x m → chk' x = chk x) := by
  intro d
  induction d with
  | zero => intro m h; have := hb.2 (t.map m).block; omega
  | succ d ih =>
    intro m h fuel hf chk
    obtain ⟨f, rfl⟩ : ∃ f, fuel = f + 1 := ⟨fuel - 1, by omega⟩
    obtain ⟨c1, e1, h1⟩ := foldlM_sets (f := setCheck t on f) (on := on) (P := Within t) (keys t m) (by
      intro c hc chk
      refine ih c ?_ f (by omega) chk
      have := rank_par hb hi c m ((hi.both c m).2 hc)
      omega) (upd chk m on)
    have hw : ∀ x, Within t x m ↔ x = m ∨ ∃ c ∈ keys t m, Within t x c := by
      intro x
      constructor
      · rintro (h | h)
        · exact .inl h
        · rcases under_last h with h | ⟨c, hc, h⟩
          · exact .inr ⟨x, (hi.both x m).1 h, .inl rfl⟩
          · exact .inr ⟨c, (hi.both c m).1 hc, .inr h⟩
      · rintro (h | ⟨c, hc, h⟩)
        · exact .inl h
        · have hp := (hi.both c m).2 hc
          rcases h with rfl | h
          · exact .inr (.base hp)
          · exact .inr (under_trans h (.base hp))
    refine ⟨c1, e1, fun x => ⟨fun hx => ?_, fun hx => ?_⟩⟩
    · by_cases hex : ∃ c ∈ keys t m, Within t x c
      · exact (h1 x).1 hex
      · rw [(h1 x).2 fun c hc hp => hex ⟨c, hc, hp⟩]
        rcases (hw x).1 hx with rfl | h
        · simp [upd]
        · exact absurd h hex
    · rw [(h1 x).2 fun c hc hp => hx ((hw x).2 (.inr ⟨c, hc, hp⟩)), upd, if_neg fun e => hx (.inl e)]

/-- What can be reached keeps the maps of `MapTree` reachable. -/
theorem run_reach {bp : Nat → Option Nat} {rank : Nat → Nat} {n : Nat} (hb : BlockTree bp rank n) (ops : List Op) (s : State)
    (h : MapTree.Reachable bp n s.t) (hl : AllLegal bp n s ops) : ∃ s', run bp n s ops = some s' ∧ MapTree.Reachable bp n s'.t := by
  induction ops generalizing s with
  | nil => exact ⟨s, rfl, h⟩
  | cons op ops ih =>
    have key : ∃ s1, step bp n s op = some s1 ∧ MapTree.Reachable bp n s1.t := by
      have hop := hl [] op ops s rfl rfl
      cases op with
      | build op => exact ⟨_, rfl, .step h op hop⟩
      | check m on =>
        obtain ⟨c, e, _⟩ := setCheck_spec hb (inv_reach hb h) on n m (by omega) (n + 1) (by omega) s.check
        exact ⟨{ s with check := c }, by simp only [step, e]; rfl, h⟩
      | auto m on => exact ⟨_, rfl, h⟩
    obtain ⟨s1, e1, h1⟩ := key
    obtain ⟨s2, e2, h2⟩ := ih s1 h1 (by
      intro b o a s' he hr
      exact hl (op :: b) o a s' (by rw [he]; rfl) (by simp only [run, List.foldlM_cons, e1]; exact hr))
    exact ⟨s2, by simp only [run, List.foldlM_cons, e1]; exact e2, h2⟩

theorem keep {bp : Nat → Option Nat} {rank : Nat → Nat} {n : Nat} (hb : BlockTree bp rank n) (x : Nat) (ops : List Op) (s s' : State)
    (h : MapTree.Reachable bp n s.t) (hl : AllLegal bp n s ops) (hm : Missed bp n s x ops) (hr : run bp n s ops = some s') : s'.check x = s.check x := by
  induction ops generalizing s with
  | nil => simp only [run, List.foldlM_nil, Option.pure_def, Option.some.injEq] at hr; rw [hr]
  | cons op ops ih =>
    have hop := hl [] op ops s rfl rfl
    have hno := hm [] op ops s rfl rfl
    have key : ∃ s1, step bp n s op = some s1 ∧ MapTree.Reachable bp n s1.t ∧ s1.check x = s.check x := by
      cases op with
      | build op => exact ⟨_, rfl, .step h op hop, rfl⟩
      | check m on =>
        obtain ⟨c, e, hc⟩ := setCheck_spec hb (inv_reach hb h) on n m (by omega) (n + 1) (by omega) s.check
        exact ⟨{ s with check := c }, by simp only [step, e]; rfl, h, (hc x).2 hno⟩
      | auto m on => exact ⟨_, rfl, h, rfl⟩
    obtain ⟨s1, e1, h1, h2⟩ := key
    rw [← h2]
    refine ih s1 h1 ?_ ?_ ?_
    · intro b o a s' he hr
      exact hl (op :: b) o a s' (by rw [he]; rfl) (by simp only [run, List.foldlM_cons, e1]; exact hr)
    · intro b o a s' he hr
      exact hm (op :: b) o a s' (by rw [he]; rfl) (by simp only [run, List.foldlM_cons, e1]; exact hr)
    · simp only [run, List.foldlM_cons, e1] at hr; exact hr

theorem run_split {bp : Nat → Option Nat} {n : Nat} (a b : List Op) (s : State) : run bp n s (a ++ b) = (run bp n s a).bind fun s1 => run bp n s1 b := by
  simp only [run, List.foldlM_append]; rfl

/-- C331. `set_check_on_read` always ends, and sets the switch of the map and of all maps below it, and of no other. -/
theorem C331_set (bp : Nat → Option Nat) (rank : Nat → Nat) (n : Nat) (hb : BlockTree bp rank n) (s : State) (h : MapTree.Reachable bp n s.t)
    (m : Nat) (on : Bool) : ∃ s', step bp n s (.check m on) = some s' ∧ s'.t = s.t ∧ s'.auto = s.auto ∧
      ∀ x, (Within s.t x m → s'.check x = on) ∧ (¬ Within s.t x m → s'.check x = s.check x) := by
  obtain ⟨c, e, hc⟩ := setCheck_spec hb (inv_reach hb h) on n m (by omega) (n + 1) (by omega) s.check
  exact ⟨{ s with check := c }, by simp only [step, e]; rfl, rfl, rfl, hc⟩

/-- C331. After any history of making maps, putting them into each other and setting switches, the switch of a map is what it was last set to: by
itself or through a map it was in at that time. -/
theorem C331_last (bp : Nat → Option Nat) (rank : Nat → Nat) (n : Nat) (hb : BlockTree bp rank n) (before after : List Op) (a : Nat) (on : Bool) (x : Nat)
    (hl : AllLegal bp n init (before ++ .check a on :: after)) (s1 s2 : State) (h1 : run bp n init before = some s1) (hx : Within s1.t x a)
    (h2 : step bp n s1 (.check a on) = some s2) (hm : Missed bp n s2 x after) :
    ∃ s', run bp n init (before ++ .check a on :: after) = some s' ∧ s'.check x = on := by
  have hl1 : AllLegal bp n init before := fun b o c s' he hr => hl b o (c ++ .check a on :: after) s' (by rw [he]; simp) hr
  obtain ⟨s1', e1, r1⟩ := run_reach hb before init .init hl1
  rw [h1] at e1
  obtain rfl := Option.some.inj e1
  obtain ⟨s2', e2, f1, _, f3⟩ := C331_set bp rank n hb s1 r1 a on
  rw [h2] at e2
  obtain rfl := Option.some.inj e2
  have r2 : MapTree.Reachable bp n s2.t := f1 ▸ r1
  have hl2 : AllLegal bp n s2 after := by
    intro b o c s' he hr
    refine hl (before ++ .check a on :: b) o c s' (by rw [he]; simp) ?_
    rw [run_split, h1]
    show run bp n s1 (.check a on :: b) = _
    simp only [run, List.foldlM_cons, h2]; exact hr
  obtain ⟨s', e3, _⟩ := run_reach hb after s2 r2 hl2
  refine ⟨s', ?_, ?_⟩
  · rw [run_split, h1]
    show run bp n s1 (.check a on :: after) = _
    simp only [run, List.foldlM_cons, h2]; exact e3
  · rw [keep hb x after s2 s' r2 hl2 hm e3]; exact (f3 x).1 hx

/-- C331. Never set, it is on. -/
theorem C331_never (bp : Nat → Option Nat) (rank : Nat → Nat) (n : Nat) (hb : BlockTree bp rank n) (ops : List Op) (x : Nat)
    (hl : AllLegal bp n init ops) (hm : Missed bp n init x ops) : ∃ s, run bp n init ops = some s ∧ s.check x = true := by
  obtain ⟨s, e, _⟩ := run_reach hb ops init .init hl
  exact ⟨s, e, keep hb x ops init s .init hl hm e⟩

/-- C331. Reads through a map are checked exactly if the root map predicts and the map's own switch is on. -/
theorem C331_checked (bp : Nat → Option Nat) (rank : Nat → Nat) (n : Nat) (hb : BlockTree bp rank n) (s : State) (h : MapTree.Reachable bp n s.t) (m : Nat) :
    ∃ r, (s.t.map r).parent = none ∧ Within s.t m r ∧ predicts s n m = some (s.auto r) ∧ checks s n m = some (s.auto r && s.check m) := by
  obtain ⟨r, h1, h2, h3⟩ := (C254_forest bp rank n hb s.t h).2.1 m
  exact ⟨r, h2, h3, by simp [predicts, h1 n (Nat.le_refl _)], by simp [checks, h1 n (Nat.le_refl _)]⟩

/-- C332. Until some map is set to predict, no access updates the mirror or is checked. -/
theorem C332_never_partial (bp : Nat → Option Nat) (rank : Nat → Nat) (n : Nat) (hb : BlockTree bp rank n) (ops : List Op) (hl : AllLegal bp n init ops)
    (ha : ∀ m, Op.auto m true ∉ ops) (x : Nat) :
    ∃ s, run bp n init ops = some s ∧ predicts s n x = some false ∧ checks s n x = some false := by
  obtain ⟨s, e, hr⟩ := run_reach hb ops init .init hl
  have key : ∀ (ops : List Op) (s s' : State), (∀ m, Op.auto m true ∉ ops) → (∀ y, s.auto y = false) → run bp n s ops = some s' → ∀ y, s'.auto y = false := by
    intro ops
    induction ops with
    | nil => intro s s' _ h e y; cases e; exact h y
    | cons op ops ih =>
      intro s s' hno h e
      simp only [run, List.foldlM_cons] at e
      obtain ⟨s1, e1, e2⟩ := Option.bind_eq_some_iff.1 e
      refine ih s1 s' (fun m hm => hno m (by simp [hm])) (fun y => ?_) e2
      cases op with
      | build op => cases e1; exact h y
      | check m on =>
        obtain ⟨c, _, rfl⟩ := Option.map_eq_some_iff.1 e1
        exact h y
      | auto m on =>
        cases e1
        cases on with
        | true => exact absurd (by simp) (hno m)
        | false => simp only [setAuto, upd]; split <;> simp [h]
  have hf := key ops init s ha (fun _ => rfl) e
  obtain ⟨r, h1, _, _⟩ := (C254_forest bp rank n hb s.t hr).2.1 x
  exact ⟨s, e, by simp [predicts, h1 n (Nat.le_refl _), hf], by simp [checks, h1 n (Nat.le_refl _), hf]⟩

/-- C332 fails. `set_auto_predict` of a map that is a submap changes nothing about the accesses through it, or through any other map. -/
theorem C332_submap_fails (bp : Nat → Option Nat) (rank : Nat → Nat) (n : Nat) (hb : BlockTree bp rank n) (s : State) (h : MapTree.Reachable bp n s.t)
    (m p : Nat) (hp : (s.t.map m).parent = some p) (on : Bool) (x : Nat) :
    ∃ s', step bp n s (.auto m on) = some s' ∧ s'.auto m = on ∧ predicts s' n x = predicts s n x ∧ checks s' n x = checks s n x := by
  refine ⟨_, rfl, by simp [setAuto, upd], ?_, ?_⟩ <;>
  · obtain ⟨r, h1, h2, _⟩ := (C254_forest bp rank n hb s.t h).2.1 x
    have hne : r ≠ m := fun e => by rw [e, hp] at h2; simp at h2
    simp [predicts, checks, h1 n (Nat.le_refl _), setAuto, upd, hne]

/-- C332. Of a root map it decides for the accesses through it and all maps below it, and for no others. -/
theorem C332_root_partial (bp : Nat → Option Nat) (rank : Nat → Nat) (n : Nat) (hb : BlockTree bp rank n) (s : State) (h : MapTree.Reachable bp n s.t)
    (m : Nat) (hp : (s.t.map m).parent = none) (on : Bool) :
    ∃ s', step bp n s (.auto m on) = some s' ∧ ∀ x, (Within s.t x m → predicts s' n x = some on) ∧ (¬ Within s.t x m → predicts s' n x = predicts s n x) := by
  refine ⟨_, rfl, fun x => ?_⟩
  obtain ⟨r, h1, h2, h3⟩ := (C254_forest bp rank n hb s.t h).2.1 x
  have hroot : predicts s n x = some (s.auto r) := by simp [predicts, h1 n (Nat.le_refl _)]
  have hroot' : predicts { s with auto := setAuto s.auto m on } n x = some (setAuto s.auto m on r) := by simp [predicts, h1 n (Nat.le_refl _)]
  refine ⟨fun hx => ?_, fun hx => ?_⟩
  · have hrm : r = m := by
      rcases hx with rfl | hx
      · rcases h3 with h3 | h3
        · exact h3.symm
        · exact absurd h3 (not_under hp)
      · rcases h3 with rfl | h3
        · exact absurd hx (not_under h2)
        · rcases under_compare hx h3 with e | e | e
          · exact e.symm
          · exact absurd e (not_under hp)
          · exact absurd e (not_under h2)
    rw [hroot', hrm]; simp [setAuto, upd]
  · have hne : r ≠ m := fun e => hx (e ▸ h3)
    rw [hroot', hroot]; simp [setAuto, upd, hne]

/-! ### A case: three maps, one in the other, and a fourth put in after the switch was set -/

def egBp : Nat → Option Nat := fun b => if b = 0 then none else if b ≤ 3 then some (b - 1) else none

theorem egTree : BlockTree egBp (fun b => if b ≤ 3 then b else 0) 4 := by
  refine ⟨fun b p h => ?_, fun b => ?_⟩
  · unfold egBp at h
    split at h
    · simp at h
    · split at h
      · simp only [Option.some.injEq] at h; subst h
        simp only [show b ≤ 3 by assumption, show b - 1 ≤ 3 by omega, if_true]; omega
      · simp at h
  · show (if b ≤ 3 then b else 0) < 4
    split <;> omega

def egOps : List Op := [.build (.create 0 0 4 0), .build (.create 1 0 4 0), .build (.create 2 0 4 0), .build (.create 2 0x100 4 0),
  .build (.addSubmap 0 (some 1) 0), .build (.addSubmap 1 (some 2) 0), .check 0 false, .check 2 true, .build (.addSubmap 1 (some 3) 0x40), .auto 0 true]

example : (run egBp 4 init egOps).map (fun s => ((List.range 4).map s.check, (List.range 4).map (checks s 4))) =
    some ([false, false, true, true], [some false, some false, some true, some true]) := by decide

example : ∃ s, MapTree.Reachable egBp 4 s ∧ (s.map 2).parent = some 1 ∧ (s.map 0).parent = none ∧ Within s 2 0 := by
  refine ⟨_, .step (.step (.step (.step (.step .init (.create 0 0 4 0) trivial) (.create 1 0 4 0) trivial) (.create 2 0 4 0) trivial)
    (.addSubmap 0 (some 1) 0) ⟨by decide, fun x hx => by cases hx; decide⟩) (.addSubmap 1 (some 2) 0) ⟨by decide, fun x hx => by cases hx; decide⟩,
    by decide, by decide, .inr (.up (p := 1) (by decide) (.base (by decide)))⟩

end Verif.MapSwitch
