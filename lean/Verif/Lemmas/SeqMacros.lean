import Verif.Spec.SeqMacros
/-! # Lemmas about sequence macros -/
namespace Verif.SeqMacros
open Spec

/-- The calls around one item. -/
def frame (me q x : Nat) (p : Int) (r : Bool) : List Ev :=
  ([.grant me q p, .preDo me true] ++ (if r = true then [.randomized x] else []) ++ [.midDo me x]) ++ .send me q x :: [.done me q, .endTr q x, .postDo me x]

def isSend : Ev → Bool | .send .. => true | _ => false
def isGrant : Ev → Bool | .grant .. => true | _ => false

inductive Blocks : List Ev → Prop where
  | nil : Blocks []
  | item (me q x p r) {l} : Blocks l → Blocks (frame me q x p r ++ l)
  | one (e) {l} : isSend e = false → isGrant e = false → Blocks l → Blocks (e :: l)

theorem Blocks.append {l m : List Ev} (hl : Blocks l) (hm : Blocks m) : Blocks (l ++ m) := by
  induction hl with
  | nil => exact hm
  | item me q x p r _ ih => rw [List.append_assoc]; exact .item _ _ _ _ _ ih
  | one e h1 h2 _ ih => exact .one _ h1 h2 ih

theorem sent_frame (pr : Int) (b : Bool) (me q x : Nat) (p : Int) (r : Bool) (l : List Ev) :
    sent pr b (frame me q x p r ++ l) = ⟨me, x, p, r⟩ :: sent p r l := by
  cases r <;> simp [frame, sent]

theorem sent_one (pr : Int) (b : Bool) (e : Ev) (l : List Ev) (h1 : isSend e = false) (h2 : isGrant e = false) : ∃ b', sent pr b (e :: l) = sent pr b' l := by
  cases e
  case send => cases h1
  case grant => cases h2
  case randomized => exact ⟨true, rfl⟩
  all_goals exact ⟨b, rfl⟩

theorem Blocks.sent_any {l : List Ev} (h : Blocks l) : ∀ p q a b, sent p a l = sent q b l := by
  induction h with
  | nil => intro _ _ _ _; rfl
  | item me q x p r _ _ => intro _ _ _ _; rw [sent_frame, sent_frame]
  | one e h1 h2 _ ih =>
    intro p q a b
    obtain ⟨_, e1⟩ := sent_one p a e _ h1 h2
    obtain ⟨_, e2⟩ := sent_one q b e _ h1 h2
    rw [e1, e2]; exact ih _ _ _ _

theorem Blocks.sent_cons {l : List Ev} (h : Blocks l) (p : Int) (b : Bool) (e : Ev) (h1 : isSend e = false) (h2 : isGrant e = false) :
    sent p b (e :: l) = sent p b l := by
  obtain ⟨_, e1⟩ := sent_one p b e l h1 h2
  rw [e1]; exact h.sent_any _ _ _ _

theorem Blocks.sent_append {l m : List Ev} (hl : Blocks l) (hm : Blocks m) : ∀ p b, sent p b (l ++ m) = sent p b l ++ sent p b m := by
  induction hl with
  | nil => intro _ _; rfl
  | item me q x p r _ ih =>
    intro p' b'
    rw [List.append_assoc, sent_frame, sent_frame, ih, hm.sent_any p' p b' r]; rfl
  | one e h1 h2 hl ih => intro p b; rw [List.cons_append, (hl.append hm).sent_cons _ _ _ h1 h2, hl.sent_cons _ _ _ h1 h2, ih]

theorem cut {α : Type} (P : α → Bool) : ∀ (A B a b : List α) (e e' : α), (∀ y ∈ A, P y = false) → (∀ y ∈ B, P y = false) → P e = true → P e' = true →
    a ++ e :: b = A ++ e' :: B → a = A ∧ e = e' ∧ b = B := by
  intro A
  induction A with
  | nil =>
    intro B a b e e' _ hB he _ h
    cases a with
    | nil => simp at h; exact ⟨rfl, h.1, h.2⟩
    | cons y a =>
      simp at h
      have : e ∈ B := by rw [← h.2]; simp
      rw [hB e this] at he; cases he
  | cons z A ih =>
    intro B a b e e' hA hB he he' h
    cases a with
    | nil =>
      simp at h
      rw [h.1, hA z (by simp)] at he; cases he
    | cons y a =>
      simp at h
      obtain ⟨r1, r2, r3⟩ := ih B a b e e' (fun y hy => hA y (by simp [hy])) hB he he' h.2
      exact ⟨by rw [h.1, r1], r2, r3⟩

theorem Blocks.framed {l : List Ev} (h : Blocks l) : Framed l := by
  induction h with
  | nil => intro a b me q x h; simp at h
  | item me q x p r hl ih =>
    intro a b me' q' x' h
    rcases List.append_eq_append_iff.1 h with ⟨c, e1, e2⟩ | ⟨c, e1, e2⟩
    · obtain ⟨⟨a', p', r', h1⟩, h2⟩ := ih c b me' q' x' e2
      exact ⟨⟨frame me q x p r ++ a', p', r', by rw [e1, h1]; simp⟩, h2⟩
    · cases c with
      | nil =>
        simp at e1 e2
        obtain ⟨⟨a', p', r', h1⟩, h2⟩ := ih [] b me' q' x' (by simpa using e2.symm)
        exact ⟨⟨a ++ a', p', r', by simp at h1⟩, h2⟩
      | cons y c =>
        simp only [List.cons_append, List.cons.injEq] at e2
        obtain ⟨rfl, e3⟩ := e2
        obtain ⟨f1, f2, f3⟩ := cut isSend _ _ _ _ _ _ (by cases r <;> simp [isSend]) (by simp [isSend]) rfl rfl e1.symm
        injection f2 with g1 g2 g3
        subst g1 g2 g3
        exact ⟨⟨[], p, r, by rw [f1]; rfl⟩, _, by rw [e3, f3]⟩
  | one e h1 h2 _ ih =>
    intro a b me q x h
    cases a with
    | nil => simp at h; rw [h.1] at h1; cases h1
    | cons y a =>
      simp only [List.cons_append, List.cons.injEq] at h
      obtain ⟨⟨a', p', r', g1⟩, g2⟩ := ih a b me q x h.2
      exact ⟨⟨y :: a', p', r', by rw [g1]; simp⟩, g2⟩

theorem Blocks.grants {l : List Ev} (h : Blocks l) : (l.filter isGrant).length = (l.filter isSend).length := by
  induction h with
  | nil => rfl
  | item me q x p r hl ih => cases r <;> simp [frame, List.filter_append, List.filter_cons, isGrant, isSend, ih]
  | one e h1 h2 _ ih => simp [List.filter_cons, h1, h2, ih]

/-- What a body does: `w`: the items wanted. -/
structure Does (s : St) (r : St × Out) (w : List Want) : Prop where
  log : ∃ l, r.1.log = s.log ++ l ∧ Blocks l ∧ (r.2 = .ok → ∀ p b, sent p b l = w)
  keeps : r.2 = .ok → ∀ z, s.running z = true → r.1.prio z = s.prio z ∧ r.1.running z = true

theorem Does.refl (s : St) : Does s (s, .ok) [] := ⟨⟨[], by simp, .nil, fun _ _ _ => rfl⟩, fun _ _ h => ⟨rfl, h⟩⟩

theorem Does.then {s : St} {r : St × Out} {w w' : List Want} {f : St → St × Out} (h1 : Does s r w) (h2 : r.2 = .ok → Does r.1 (f r.1) w') :
    Does s (andThen r f) (w ++ w') := by
  unfold andThen
  cases ho : r.2 with
  | ok =>
    obtain ⟨⟨l, e1, b1, q1⟩, k1⟩ := h1
    obtain ⟨⟨m, e2, b2, q2⟩, k2⟩ := h2 ho
    refine ⟨⟨l ++ m, by rw [e2, e1]; simp, b1.append b2, fun h p _ => ?_⟩, fun h z hz => ?_⟩
    · rw [b1.sent_append b2, q1 ho, q2 h]
    · obtain ⟨a1, a2⟩ := k1 ho z hz
      obtain ⟨c1, c2⟩ := k2 h z a2
      exact ⟨c1.trans a1, c2⟩
  | fatal =>
    obtain ⟨⟨l, e1, b1, _⟩, _⟩ := h1
    exact ⟨⟨l, e1, b1, fun h => by simp [ho] at h⟩, fun h => by simp [ho] at h⟩
  | fuel =>
    obtain ⟨⟨l, e1, b1, _⟩, _⟩ := h1
    exact ⟨⟨l, e1, b1, fun h => by simp [ho] at h⟩, fun h => by simp [ho] at h⟩

/-- `start_item` and `finish_item`. -/
theorem does_item (s : St) (me x : Nat) (p : Int) (q : Option Nat) (r : Bool) :
    Does s (andThen (startItem s me x p q) fun s => finishItem (if r = true then s.add [.randomized x] else s) me x) [⟨me, x, effective (s.prio me) p, r⟩] := by
  unfold startItem
  cases hq : (q.or (s.sqr x)).or (s.sqr me) with
  | none => exact ⟨⟨[], by simp [andThen], .nil, fun h => by simp [andThen] at h⟩, fun h => by simp [andThen] at h⟩
  | some q' =>
    have hf : ∀ s' : St, s'.sqr x = some q' → finishItem s' me x = (s'.add [.midDo me x, .send me q' x, .done me q', .endTr q' x, .postDo me x], .ok) := by
      intro s' h; simp [finishItem, h]
    simp only [andThen]
    rw [hf _ (by cases r <;> simp [St.add, setContext, upd])]
    refine ⟨⟨frame me q' x (effective (s.prio me) p) r, ?_, by simpa using Blocks.item me q' x _ r .nil, fun _ p' b' => ?_⟩, fun _ z hz => ?_⟩
    · cases r <;> simp [St.add, setContext, frame, effective]
    · have := sent_frame p' b' me q' x (effective (s.prio me) p) r []
      simpa [sent] using this
    · cases r <;> exact ⟨rfl, hz⟩

theorem does_start (sub : Nat → St → St × Out) (w : Nat → Int → List Want) (hsub : ∀ x s, s.running x = true → Does s (sub x s) (w x (s.prio x)))
    (s : St) (x me : Nat) (q : Option Nat) (p : Int) : Does s (start sub s x me q p) (w x (effective (s.prio me) p)) := by
  have stop : ∀ w', Does s (setContext s x me q, .fatal) w' :=
    fun w' => ⟨⟨[], by simp [setContext], .nil, fun h => by cases h⟩, fun h => by cases h⟩
  unfold start
  simp only
  split
  · exact stop _
  · next hr =>
    split
    · exact stop _
    · have hr : s.running x = false := by simpa [setContext] using hr
      generalize hs1 : ({ setContext s x me q with prio := upd (setContext s x me q).prio x (if p < 0 then (setContext s x me q).prio me else p), running := upd (setContext s x me q).running x true } : St) = s1
      have a1 : s1.log = s.log := by rw [← hs1]; rfl
      have a2 : s1.running x = true := by rw [← hs1]; simp [upd]
      have a3 : s1.prio x = effective (s.prio me) p := by rw [← hs1]; simp [upd, effective, setContext]
      have a4 : ∀ z, s.running z = true → s1.prio z = s.prio z ∧ s1.running z = true := by
        intro z hz
        have : z ≠ x := fun e => by rw [e, hr] at hz; cases hz
        rw [← hs1]; simp [upd, this, setContext, hz]
      have hd := hsub x (s1.add [.preStart x, .preDo me false, .midDo me x, .body x]) a2
      generalize hg : sub x (s1.add [.preStart x, .preDo me false, .midDo me x, .body x]) = g at hd
      obtain ⟨⟨l, e1, b1, q1⟩, k1⟩ := hd
      have b0 : Blocks [.preStart x, .preDo me false, .midDo me x, .body x] := .one _ rfl rfl (.one _ rfl rfl (.one _ rfl rfl (.one _ rfl rfl .nil)))
      have b2 : Blocks [.postDo me x, .postStart x] := .one _ rfl rfl (.one _ rfl rfl .nil)
      have s0 : ∀ p b, sent p b [.preStart x, .preDo me false, .midDo me x, .body x] = [] := fun _ _ => rfl
      have s2 : ∀ p b, sent p b [.postDo me x, .postStart x] = [] := fun _ _ => rfl
      have e1 : g.1.log = s.log ++ ([.preStart x, .preDo me false, .midDo me x, .body x] ++ l) := by rw [e1]; simp [St.add, a1]
      unfold andThen
      cases ho : g.2 with
      | ok =>
        refine ⟨⟨[.preStart x, .preDo me false, .midDo me x, .body x] ++ l ++ [.postDo me x, .postStart x], ?_, (b0.append b1).append b2, fun _ p' _ => ?_⟩, fun _ z hz => ?_⟩
        · show g.1.log ++ _ = _
          rw [e1]; simp
        · rw [(b0.append b1).sent_append b2, b0.sent_append b1, s0, s2, q1 ho]
          simp only [List.nil_append, List.append_nil, St.add, a3]
        · obtain ⟨c1, c2⟩ := a4 z hz
          obtain ⟨d1, d2⟩ := k1 ho z (by simpa [St.add] using c2)
          have : z ≠ x := fun e => by rw [e, hr] at hz; cases hz
          simp only [St.add, upd, this, if_false]
          exact ⟨by rw [d1]; simpa [St.add] using c1, d2⟩
      | fatal => exact ⟨⟨_, e1, b0.append b1, fun h => by simp [ho] at h⟩, fun h => by simp [ho] at h⟩
      | fuel => exact ⟨⟨_, e1, b0.append b1, fun h => by simp [ho] at h⟩, fun h => by simp [ho] at h⟩

theorem Does.before {s s' : St} {r : St × Out} {w : List Want} (e : Ev) (h1 : isSend e = false) (h2 : isGrant e = false) (hs : s' = s.add [e]) (h : Does s' r w) :
    Does s r w := by
  subst hs
  obtain ⟨⟨l, e1, b1, q1⟩, k1⟩ := h
  refine ⟨⟨e :: l, by rw [e1]; simp [St.add], .one _ h1 h2 b1, fun ho p _ => ?_⟩, k1⟩
  rw [b1.sent_cons _ _ _ h1 h2, q1 ho]

/-- One macro call. -/
def wants (env : Env) (w : Nat → Int → List Want) (me : Nat) (pr : Int) : Cmd → List Want
  | .do_ x _ p => if env.isSeq (env.over (env.type x)) then w x (effective pr p) else [⟨me, x, effective pr p, true⟩]
  | .send x p => if env.isSeq (env.type x) then w x (effective pr p) else [⟨me, x, effective pr p, false⟩]
  | .items x p _ => [⟨me, x, effective pr p, false⟩]

theorem does_exec (env : Env) (sub : Nat → St → St × Out) (w : Nat → Int → List Want) (hsub : ∀ x s, s.running x = true → Does s (sub x s) (w x (s.prio x)))
    (me : Nat) (s : St) (c : Cmd) : Does s (exec env sub me s c) (wants env w me (s.prio me) c) := by
  cases c with
  | do_ x t p =>
    simp only [exec, wants]
    refine Does.before (.created (env.over (env.type x)) me ((t.get s me).or (s.sqr me))) rfl rfl rfl ?_
    by_cases hk : env.isSeq (env.over (env.type x)) = true
    · simp only [hk, if_true]
      by_cases hn : env.noRand x = true
      · simp only [hn, if_true]
        exact does_start sub w hsub _ x me _ p
      · simp only [hn]
        exact Does.before (.randomized x) rfl rfl rfl (does_start sub w hsub _ x me _ p)
    · simp only [hk]
      exact does_item _ me x p none true
  | send x p =>
    simp only [exec, wants]
    by_cases hk : env.isSeq (env.type x) = true
    · simp only [hk, if_true]
      exact does_start sub w hsub _ x me _ p
    · simp only [hk]
      exact does_item _ me x p none false
  | items x p q => exact does_item _ me x p q false

theorem does_cmds (env : Env) (sub : Nat → St → St × Out) (w : Nat → Int → List Want) (hsub : ∀ x s, s.running x = true → Does s (sub x s) (w x (s.prio x)))
    (me : Nat) (s0 : St) (hme : s0.running me = true) : ∀ (cs : List Cmd) (r : St × Out) (w0 : List Want), Does s0 r w0 →
      Does s0 (cs.foldl (fun r c => andThen r fun s => exec env sub me s c) r) (w0 ++ cs.flatMap (wants env w me (s0.prio me))) := by
  intro cs
  induction cs with
  | nil => intro r w0 h; simpa using h
  | cons c cs ih =>
    intro r w0 h
    rw [List.foldl_cons, List.flatMap_cons, ← List.append_assoc]
    refine ih _ _ (h.then fun ho => ?_)
    have := does_exec env sub w hsub me r.1 c
    rwa [(h.keeps ho me hme).1] at this

theorem does_body (env : Env) : ∀ n me s, s.running me = true → Does s (runBody env n me s) (wanted env n me (s.prio me)) := by
  intro n
  induction n with
  | zero => intro me s _; exact ⟨⟨[], by simp [runBody], .nil, fun h => by cases h⟩, fun h => by cases h⟩
  | succ n ih =>
    intro me s h
    have := does_cmds env (runBody env n) (wanted env n) ih me s h (env.body me) (s, .ok) [] (Does.refl s)
    simp only [List.nil_append] at this
    exact this

end Verif.SeqMacros
