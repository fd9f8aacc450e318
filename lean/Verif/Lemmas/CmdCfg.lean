import Verif.Model.CmdCfg
import Verif.Spec.RootSettings
import Verif.Props.RootSettings
import Verif.Lemmas.BuildCfg
/-! # Lemmas: a setting of a new key wins over those of its level and deeper ones -/
namespace Verif.BuildCfg
open Verif.Resource
open Verif.RootSettings (Cfg Val doConfigSettings Line)
open Verif.Text (Str)
variable {V : Type}

/-- The level of a call. -/
def lev (e : Env V) (c : Call V) : Nat := if c.build then depth e c.ctx else 0

theorem settle_mem {e : Env V} {l : List (Setting V)} {c : Call V} {s : Setting V} (h : s ∈ settle e l c) :
    s ∈ l ∨ (s.ctx = c.ctx ∧ s.path = instName e c.ctx c.inst ∧ s.level = lev e c) := by
  unfold settle at h
  dsimp only at h
  split at h
  · rcases List.mem_cons.1 h with rfl | h
    · exact .inr ⟨rfl, rfl, rfl⟩
    · exact .inl h
  · rcases List.mem_append.1 h with h | h
    · exact .inl (List.mem_filter.1 h).1
    · obtain rfl := List.mem_singleton.1 h
      exact .inr ⟨rfl, rfl, rfl⟩

theorem settles_mem {e : Env V} {calls : List (Call V)} {l : List (Setting V)} {s : Setting V} (h : s ∈ calls.foldl (settle e) l) :
    s ∈ l ∨ ∃ c ∈ calls, s.ctx = c.ctx ∧ s.path = instName e c.ctx c.inst ∧ s.level = lev e c := by
  induction calls generalizing l with
  | nil => exact .inl h
  | cons c calls ih =>
    rcases ih h with h | ⟨c', hc', h⟩
    · rcases settle_mem h with h | h
      · exact .inl h
      · exact .inr ⟨c, by simp, h⟩
    · exact .inr ⟨c', by simp [hc'], h⟩

theorem settle_new {e : Env V} {l : List (Setting V)} {c : Call V}
    (h : l.find? (fun s => s.ctx == c.ctx && s.path == instName e c.ctx c.inst) = none) :
    settle e l c = ⟨c.ctx, instName e c.ctx c.inst, if e.eqv e.none c.val then e.none else c.val, lev e c⟩ :: l := by
  unfold settle
  dsimp only
  rw [h]; rfl

/-- `s` is in front of all matching settings that are not deeper. -/
def Leads (mt : String → Bool) (s : Setting V) (l : List (Setting V)) : Prop :=
  ∃ front back, l = front ++ s :: back ∧ (∀ x ∈ front, mt x.path = true → s.level < x.level) ∧ ∀ x ∈ back, mt x.path = true → s.level ≤ x.level

theorem leads_settle {e : Env V} {mt : String → Bool} {s : Setting V} {l : List (Setting V)} (h : Leads mt s l) (c : Call V)
    (hk : ¬ (s.ctx = c.ctx ∧ s.path = instName e c.ctx c.inst)) (hd : mt (instName e c.ctx c.inst) = true → s.level < lev e c) :
    Leads mt s (settle e l c) := by
  obtain ⟨front, back, rfl, h1, h2⟩ := h
  unfold settle
  dsimp only
  split
  · refine ⟨_ :: front, back, rfl, ?_, h2⟩
    intro x hx hm
    rcases List.mem_cons.1 hx with rfl | hx
    · exact hd hm
    · exact h1 x hx hm
  · rename_i old _
    have hs : (!(s.ctx == c.ctx && s.path == instName e c.ctx c.inst)) = true := by
      simp only [Bool.not_eq_true', Bool.and_eq_false_iff, beq_eq_false_iff_ne]
      by_cases hc : s.ctx = c.ctx
      · exact .inr fun hp => hk ⟨hc, hp⟩
      · exact .inl hc
    rw [List.filter_append, List.filter_cons, if_pos hs]
    refine ⟨front.filter fun s => !(s.ctx == c.ctx && s.path == instName e c.ctx c.inst),
      (back.filter fun s => !(s.ctx == c.ctx && s.path == instName e c.ctx c.inst)) ++
        [⟨c.ctx, instName e c.ctx c.inst, if e.eqv old.val c.val then old.val else c.val, if c.build then depth e c.ctx else 0⟩],
      by simp only [List.append_assoc, List.cons_append], ?_, ?_⟩
    · exact fun x hx => h1 x (List.mem_filter.1 hx).1
    · intro x hx hm
      rcases List.mem_append.1 hx with hx | hx
      · exact h2 x (List.mem_filter.1 hx).1 hm
      · obtain rfl := List.mem_singleton.1 hx
        exact Nat.le_of_lt (hd hm)

theorem leads_settles {e : Env V} {mt : String → Bool} {s : Setting V} (calls : List (Call V)) {l : List (Setting V)} (h : Leads mt s l)
    (hk : ∀ c ∈ calls, ¬ (s.ctx = c.ctx ∧ s.path = instName e c.ctx c.inst))
    (hd : ∀ c ∈ calls, mt (instName e c.ctx c.inst) = true → s.level < lev e c) : Leads mt s (calls.foldl (settle e) l) := by
  induction calls generalizing l with
  | nil => exact h
  | cons c calls ih =>
    exact ih (leads_settle h c (hk c (by simp)) (hd c (by simp))) (fun c' hc' => hk c' (by simp [hc'])) (fun c' hc' => hd c' (by simp [hc']))

theorem leads_found {mt : String → Bool} {s t : Setting V} {l pre post : List (Setting V)} (h : Leads mt s l) (hm : mt s.path = true)
    (hq : (l.filter fun x => mt x.path) = pre ++ t :: post) (h1 : ∀ x ∈ pre, t.level < x.level) (h2 : ∀ x ∈ post, t.level ≤ x.level) : t = s := by
  obtain ⟨front, back, rfl, g1, g2⟩ := h
  rw [List.filter_append, List.filter_cons, if_pos hm] at hq
  have g1' : ∀ x ∈ front.filter (fun x => mt x.path), s.level < x.level := fun x hx => g1 x (List.mem_filter.1 hx).1 (List.mem_filter.1 hx).2
  have g2' : ∀ x ∈ back.filter (fun x => mt x.path), s.level ≤ x.level := fun x hx => g2 x (List.mem_filter.1 hx).1 (List.mem_filter.1 hx).2
  generalize front.filter (fun x => mt x.path) = fr at *
  generalize back.filter (fun x => mt x.path) = bk at *
  rcases List.append_eq_append_iff.1 hq with ⟨k, hk1, hk2⟩ | ⟨k, hk1, hk2⟩
  · cases k with
    | nil => simp only [List.nil_append, List.cons.injEq] at hk2; exact hk2.1.symm
    | cons y k =>
      simp only [List.cons_append, List.cons.injEq] at hk2
      have a := h1 s (by rw [hk1, hk2.1]; simp)
      have b := g2' t (by rw [hk2.2]; simp)
      omega
  · cases k with
    | nil => simp only [List.nil_append, List.cons.injEq] at hk2; exact hk2.1
    | cons y k =>
      simp only [List.cons_append, List.cons.injEq] at hk2
      have a := g1' t (by rw [hk1, hk2.1]; simp)
      have b := h2 s (by rw [hk2.2]; simp)
      omega

/-- A setting whose key is new wins if all matching settings before are of its level or deeper, and all matching ones after it are deeper. -/
theorem fresh_wins (e : Env V) (a : Bool) (pre post : List (Call V)) (c : Call V) (ctx : Nat) (inst : String) (hf : c.field ≠ "")
    (hcol : NoCollision e (pre ++ c :: post)) (hm : c.Matches e (instName e ctx inst) c.field) (hnew : ∀ c' ∈ pre, ¬ c'.SameKey e c)
    (hpre : ∀ c' ∈ pre, c'.Matches e (instName e ctx inst) c.field → lev e c ≤ lev e c')
    (hpost : ∀ c' ∈ post, c'.Matches e (instName e ctx inst) c.field → lev e c < lev e c' ∧ ¬ c'.SameKey e c) :
    ∃ w, cfgGet e (setAll e a (pre ++ c :: post)) ctx inst c.field = some w ∧ SameVal e w c.val := by
  obtain ⟨hnone, hsome⟩ := C24_exact_partial e a (pre ++ c :: post) hcol ctx inst c.field hf
  let mt := fun p : String => e.matchScope p (instName e ctx inst)
  let s : Setting V := ⟨c.ctx, instName e c.ctx c.inst, if e.eqv e.none c.val then e.none else c.val, lev e c⟩
  have hlead : Leads mt s (settled e c.field (pre ++ c :: post)) := by
    unfold settled
    rw [List.filter_append, List.filter_cons, if_pos (by simp), List.foldl_append, List.foldl_cons]
    refine leads_settles _ ?_ ?_ ?_
    · have hnf : ((pre.filter fun c' => c'.field == c.field).foldl (settle e) []).find?
          (fun s => s.ctx == c.ctx && s.path == instName e c.ctx c.inst) = none := by
        rw [List.find?_eq_none]
        intro x hx hk
        simp only [Bool.and_eq_true, beq_iff_eq] at hk
        rcases settles_mem hx with h | ⟨c', hc', h1, h2, _⟩
        · cases h
        · have hc'' := List.mem_filter.1 hc'
          exact hnew c' hc''.1 ⟨h1.symm.trans hk.1, h2.symm.trans hk.2, beq_iff_eq.1 hc''.2⟩
      rw [settle_new hnf]
      refine ⟨[], _, rfl, nofun, ?_⟩
      intro x hx hmx
      rcases settles_mem hx with h | ⟨c', hc', _, h2, h3⟩
      · cases h
      · have hc'' := List.mem_filter.1 hc'
        rw [h3]
        exact hpre c' hc''.1 ⟨beq_iff_eq.1 hc''.2, by rw [← h2]; exact hmx⟩
    · intro c' hc' hk
      have hc'' := List.mem_filter.1 hc'
      have hf' := beq_iff_eq.1 hc''.2
      exact (hpost c' hc''.1 ⟨hf', by rw [← hk.2]; exact hm.2⟩).2 ⟨hk.1.symm, hk.2.symm, hf'⟩
    · intro c' hc' hmx
      have hc'' := List.mem_filter.1 hc'
      exact (hpost c' hc''.1 ⟨beq_iff_eq.1 hc''.2, hmx⟩).1
  cases hg : cfgGet e (setAll e a (pre ++ c :: post)) ctx inst c.field with
  | none =>
    exfalso
    have := hnone.1 hg
    obtain ⟨fr, bk, he, _⟩ := hlead
    have hin : s ∈ (settled e c.field (pre ++ c :: post)).filter fun s => e.matchScope s.path (instName e ctx inst) :=
      List.mem_filter.2 ⟨by rw [he]; simp, hm.2⟩
    rw [this] at hin; cases hin
  | some w =>
    obtain ⟨p, t, q, h1, h2, h3, h4⟩ := hsome w hg
    have := leads_found hlead hm.2 h1 h3 h4
    subst this
    refine ⟨w, rfl, ?_⟩
    rw [← h2]
    show SameVal e (if e.eqv e.none c.val then e.none else c.val) c.val
    split
    · rename_i h; exact .inr h
    · exact .inl rfl

end Verif.BuildCfg
