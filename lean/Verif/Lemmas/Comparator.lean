import Verif.Spec.Comparator
import Verif.Lemmas.TlmFifo
namespace Verif.Comparator
open Verif
variable {α : Type}
abbrev Fifo (α : Type) := TlmFifo.State α

theorem fifo_get_nil (s : Fifo α) (hi : s.m.tasks 0 = .idle) (hq : s.m.queue = []) :
    ∃ s', TlmFifo.step s (.callGet 0) = (s', .blocked) ∧ s'.m.queue = [] ∧ TlmFifo.inGet (s'.m.tasks 0) = true := by
  have e : TlmFifo.step s (.callGet 0) = TlmFifo.after { s with pending := s.pending + 1 }
      (Mailbox.getLoop s.m 0).1 (Mailbox.getLoop s.m 0).2 := by simp [TlmFifo.step, hi, Mailbox.step]
  rw [TlmFifo.getLoop_nil s.m 0 hq] at e
  refine ⟨_, e, ?_, ?_⟩
  · simp [TlmFifo.after, Mailbox.waitWrite, Mailbox.setTask, hq]
  · simp [TlmFifo.after, Mailbox.waitWrite, Mailbox.setTask, TlmFifo.inGet]

theorem fifo_get_cons (s : Fifo α) (hi : s.m.tasks 0 = .idle) {x : α} {q : List α} (hq : s.m.queue = x :: q) :
    ∃ s', TlmFifo.step s (.callGet 0) = (s', .gotten 0 x) ∧ s'.m.queue = q ∧ s'.m.tasks 0 = .idle := by
  have e : TlmFifo.step s (.callGet 0) = TlmFifo.after { s with pending := s.pending + 1 }
      (Mailbox.getLoop s.m 0).1 (Mailbox.getLoop s.m 0).2 := by simp [TlmFifo.step, hi, Mailbox.step]
  rw [TlmFifo.getLoop_cons s.m 0 hq] at e
  refine ⟨_, e, ?_, ?_⟩
  · simp [TlmFifo.after, Mailbox.setTask, Mailbox.setRead]
  · simp [TlmFifo.after, Mailbox.setTask]

theorem fifo_resume_nil (s : Fifo α) (hi : s.m.tasks 0 = .getWoken) (hq : s.m.queue = []) :
    ∃ s', TlmFifo.step s (.resume 0) = (s', .blocked) ∧ s'.m.queue = [] ∧ TlmFifo.inGet (s'.m.tasks 0) = true := by
  have e : TlmFifo.step s (.resume 0) = TlmFifo.after s
      (Mailbox.getLoop { s.m with writeFired := false } 0).1 (Mailbox.getLoop { s.m with writeFired := false } 0).2 := by
    simp [TlmFifo.step, hi, Mailbox.step]
  rw [TlmFifo.getLoop_nil { s.m with writeFired := false } 0 hq] at e
  refine ⟨_, e, ?_, ?_⟩
  · simp [TlmFifo.after, Mailbox.waitWrite, Mailbox.setTask, hq]
  · simp [TlmFifo.after, Mailbox.waitWrite, Mailbox.setTask, TlmFifo.inGet]

theorem fifo_resume_cons (s : Fifo α) (hi : s.m.tasks 0 = .getWoken) {x : α} {q : List α} (hq : s.m.queue = x :: q) :
    ∃ s', TlmFifo.step s (.resume 0) = (s', .gotten 0 x) ∧ s'.m.queue = q ∧ s'.m.tasks 0 = .idle := by
  have e : TlmFifo.step s (.resume 0) = TlmFifo.after s
      (Mailbox.getLoop { s.m with writeFired := false } 0).1 (Mailbox.getLoop { s.m with writeFired := false } 0).2 := by
    simp [TlmFifo.step, hi, Mailbox.step]
  rw [TlmFifo.getLoop_cons { s.m with writeFired := false } 0 hq] at e
  refine ⟨_, e, ?_, ?_⟩
  · simp [TlmFifo.after, Mailbox.setTask, Mailbox.setRead]
  · simp [TlmFifo.after, Mailbox.setTask]

theorem fifo_resume_wait (s : Fifo α) (hi : s.m.tasks 0 = .getWait) : TlmFifo.step s (.resume 0) = (s, .nothing) := by
  simp [TlmFifo.step, hi, Mailbox.step, TlmFifo.after]

theorem fifo_write (s : Fifo α) (x : α) (h : Mailbox.Inv 0 s.m) :
    (TlmFifo.step s (.write x)).1.m.queue = s.m.queue ++ [x] ∧
    (∀ u, TlmFifo.inGet ((TlmFifo.step s (.write x)).1.m.tasks u) = TlmFifo.inGet (s.m.tasks u)) ∧
    (∀ u, s.m.tasks u = .idle → (TlmFifo.step s (.write x)).1.m.tasks u = .idle) := by
  have hc : Mailbox.canPut s.m = true := by simp [Mailbox.canPut, h.size]
  have e : (TlmFifo.step s (.write x)).1.m = (Mailbox.step s.m (.tryPut x)).1 := by
    simp [TlmFifo.step, TlmFifo.tryPut_eq, hc]
  rw [e]
  refine ⟨TlmFifo.mb_tryPut_queue _ _ hc, ?_, ?_⟩
  · intro u; simp only [Mailbox.step, hc, if_true]
    exact TlmFifo.inGet_setWrite { s.m with queue := s.m.queue ++ [x] } u
  · intro u hu; simp only [Mailbox.step, hc, if_true, Mailbox.setWrite, hu]

/-- The transaction `run_phase` is holding. -/
def held : Pc α → List α
  | .waitA b => [b]
  | _ => []

/-- What is true between segments: `P` published so far, `A`, `B` written so far. -/
structure Good (comp : α → α → Bool) (s : State α) (P : List (Pair α)) (A B : List α) : Prop where
  invB : Mailbox.Inv 0 s.before.m
  invA : Mailbox.Inv 0 s.after.m
  oks : ∀ p ∈ P, p.ok = comp p.second p.first
  bs : B = P.map (·.second) ++ held s.pc ++ s.before.m.queue
  as : A = P.map (·.first) ++ s.after.m.queue
  tb : match s.pc with
    | .waitB => TlmFifo.inGet (s.before.m.tasks 0) = true
    | _ => s.before.m.tasks 0 = .idle
  ta : match s.pc with
    | .waitA _ => TlmFifo.inGet (s.after.m.tasks 0) = true
    | _ => s.after.m.tasks 0 = .idle

/-- What is true inside a segment, at line 163. -/
structure Top (comp : α → α → Bool) (s : State α) (P : List (Pair α)) (A B : List α) : Prop where
  invB : Mailbox.Inv 0 s.before.m
  invA : Mailbox.Inv 0 s.after.m
  oks : ∀ p ∈ P, p.ok = comp p.second p.first
  bs : B = P.map (·.second) ++ s.before.m.queue
  as : A = P.map (·.first) ++ s.after.m.queue
  tb : s.before.m.tasks 0 = .idle
  ta : s.after.m.tasks 0 = .idle

/-- Counters move with what is published. -/
structure Cnt (s s' : State α) (out : List (Pair α)) : Prop where
  hits : s'.nMatch = s.nMatch + (out.filter (·.ok)).length
  misses : s'.nMismatch = s.nMismatch + (out.filter (fun p => !p.ok)).length

theorem fifo_inv {k : Int} {s : Fifo α} (h : Mailbox.Inv k s.m) (e : TlmFifo.Ev α) :
    Mailbox.Inv k (TlmFifo.step s e).1.m := (TlmFifo.acc_step s e).inv k h

theorem compareOne_eq (comp : α → α → Bool) (s : State α) (b a : α) :
    (compareOne comp s b a).2 = ⟨a, b, comp b a⟩ ∧ (compareOne comp s b a).1.before = s.before ∧
    (compareOne comp s b a).1.after = s.after ∧ (compareOne comp s b a).1.pc = s.pc ∧
    Cnt s (compareOne comp s b a).1 [⟨a, b, comp b a⟩] := by
  cases h : comp b a <;> simp [compareOne, h] <;> constructor <;> simp

theorem Cnt.trans {s s' s'' : State α} {o o' : List (Pair α)} (h : Cnt s s' o) (h' : Cnt s' s'' o') :
    Cnt s s'' (o ++ o') := by
  constructor
  · rw [h'.hits, h.hits]; simp; omega
  · rw [h'.misses, h.misses]; simp; omega

/-- The comparison made at the end of a round re-establishes `Top`. -/
theorem top_compare (comp : α → α → Bool) (s : State α) {P : List (Pair α)} {A B : List α} (b a : α) (q : List α)
    (invB : Mailbox.Inv 0 s.before.m) (invA : Mailbox.Inv 0 s.after.m) (oks : ∀ p ∈ P, p.ok = comp p.second p.first)
    (bs : B = P.map (·.second) ++ [b] ++ s.before.m.queue) (hq : s.after.m.queue = q) (as : A = P.map (·.first) ++ a :: q)
    (tb : s.before.m.tasks 0 = .idle) (ta : s.after.m.tasks 0 = .idle) :
    Top comp (compareOne comp s b a).1 (P ++ [(compareOne comp s b a).2]) A B := by
  obtain ⟨e1, e2, e3, e4, _⟩ := compareOne_eq comp s b a
  rw [e1]
  refine ⟨by rw [e2]; exact invB, by rw [e3]; exact invA, ?_, ?_, ?_, by rw [e2]; exact tb, by rw [e3]; exact ta⟩
  · intro p hp
    simp only [List.mem_append, List.mem_singleton] at hp
    rcases hp with hp | rfl
    · exact oks p hp
    · rfl
  · rw [e2, bs]; simp
  · rw [e3, as, hq]; simp

theorem getAfter_good (comp : α → α → Bool) (next : State α → State α × List (Pair α)) (s : State α) (b : α)
    {P : List (Pair α)} {A B : List α} (invB : Mailbox.Inv 0 s.before.m) (invA : Mailbox.Inv 0 s.after.m)
    (oks : ∀ p ∈ P, p.ok = comp p.second p.first)
    (bs : B = P.map (·.second) ++ [b] ++ s.before.m.queue) (as : A = P.map (·.first) ++ s.after.m.queue)
    (tb : s.before.m.tasks 0 = .idle) (ta : s.after.m.tasks 0 = .idle)
    (hn : ∀ (s' : State α) (P' : List (Pair α)), Top comp s' P' A B → s'.before = s.before →
      Good comp (next s').1 (P' ++ (next s').2) A B ∧ Cnt s' (next s').1 (next s').2) :
    Good comp (getAfter comp next s b).1 (P ++ (getAfter comp next s b).2) A B ∧
      Cnt s (getAfter comp next s b).1 (getAfter comp next s b).2 := by
  cases hq : s.after.m.queue with
  | nil =>
    obtain ⟨f, e, h1, h2⟩ := fifo_get_nil s.after ta hq
    have hi : Mailbox.Inv 0 f.m := by have := fifo_inv invA (.callGet 0); rw [e] at this; exact this
    simp only [getAfter, e]
    refine ⟨⟨invB, hi, by simpa using oks, by simpa [held] using bs, by simpa [h1, hq] using as, tb, h2⟩, ?_⟩
    constructor <;> simp
  | cons a q =>
    obtain ⟨f, e, h1, h2⟩ := fifo_get_cons s.after ta hq
    have hi : Mailbox.Inv 0 f.m := by have := fifo_inv invA (.callGet 0); rw [e] at this; exact this
    simp only [getAfter, e]
    have ht := top_compare comp { s with after := f } (P := P) (A := A) (B := B) b a q invB hi oks bs h1
      (by rw [as, hq]) tb h2
    have hc := compareOne_eq comp { s with after := f } b a
    obtain ⟨g, c⟩ := hn _ _ ht hc.2.1
    constructor
    · rw [List.append_assoc] at g; exact g
    · have c1 : Cnt s (compareOne comp { s with after := f } b a).1 [(compareOne comp { s with after := f } b a).2] := by
        rw [hc.1]; exact ⟨hc.2.2.2.2.hits, hc.2.2.2.2.misses⟩
      exact c1.trans c

theorem getBefore_good (comp : α → α → Bool) (n : Nat) (s : State α) {P : List (Pair α)} {A B : List α}
    (h : Top comp s P A B) (hn : s.before.m.queue.length < n) :
    Good comp (getBefore comp n s).1 (P ++ (getBefore comp n s).2) A B ∧
      Cnt s (getBefore comp n s).1 (getBefore comp n s).2 := by
  induction n generalizing s P with
  | zero => omega
  | succ n ih =>
    cases hq : s.before.m.queue with
    | nil =>
      obtain ⟨f, e, h1, h2⟩ := fifo_get_nil s.before h.tb hq
      have hi : Mailbox.Inv 0 f.m := by have := fifo_inv h.invB (.callGet 0); rw [e] at this; exact this
      simp only [getBefore, e]
      refine ⟨⟨hi, h.invA, by simpa using h.oks, by simpa [held, h1, hq] using h.bs, by simpa using h.as, h2, h.ta⟩, ?_⟩
      constructor <;> simp
    | cons b q =>
      obtain ⟨f, e, h1, h2⟩ := fifo_get_cons s.before h.tb hq
      have hi : Mailbox.Inv 0 f.m := by have := fifo_inv h.invB (.callGet 0); rw [e] at this; exact this
      simp only [getBefore, e]
      have hl : f.m.queue.length < n := by rw [h1]; rw [hq] at hn; simp at hn; omega
      have := getAfter_good comp (getBefore comp n) { s with before := f } b (P := P) (A := A) (B := B) hi h.invA h.oks
        (by rw [h.bs, hq]; simp [h1]) h.as h2 h.ta
        (fun s' P' ht hb => ih s' ht (by rw [hb]; exact hl))
      exact ⟨this.1, ⟨this.2.hits, this.2.misses⟩⟩

theorem init_good (comp : α → α → Bool) : Good comp (init : State α) [] [] [] := by
  refine ⟨Mailbox.inv_init 0, Mailbox.inv_init 0, by simp, rfl, rfl, rfl, rfl⟩

theorem inGet_cases {t : Mailbox.Task α} (h : TlmFifo.inGet t = true) : t = .getWait ∨ t = .getWoken := by
  cases t <;> simp [TlmFifo.inGet] at h ⊢

theorem Cnt.refl (s : State α) : Cnt s s [] := ⟨by simp, by simp⟩

theorem step_good (comp : α → α → Bool) (s : State α) (e : Ev α) {P : List (Pair α)} {A B : List α}
    (h : Good comp s P A B) :
    Good comp (step comp s e).1 (P ++ (step comp s e).2) (A ++ afters [e]) (B ++ befores [e]) ∧
    (e ≠ .flush → Cnt s (step comp s e).1 (step comp s e).2) := by
  obtain ⟨sb, sa, nm, nmm, pc⟩ := s
  obtain ⟨invB, invA, oks, bs, as, tb, ta⟩ := h
  simp only at invB invA bs as tb ta
  have same : Good comp ⟨sb, sa, nm, nmm, pc⟩ (P ++ []) (A ++ []) (B ++ []) := by
    simp only [List.append_nil]; exact ⟨invB, invA, oks, bs, as, tb, ta⟩
  cases e with
  | start =>
    cases pc with
    | notStarted =>
      simp only [step, afters, befores, List.append_nil]
      have := getBefore_good comp (sb.m.queue.length + 1) ⟨sb, sa, nm, nmm, .notStarted⟩ (P := P) (A := A) (B := B)
        ⟨invB, invA, oks, by rw [bs]; simp [held], as, tb, ta⟩ (Nat.lt_succ_self _)
      exact ⟨this.1, fun _ => this.2⟩
    | waitB => simp only [step]; exact ⟨same, fun _ => Cnt.refl _⟩
    | waitA b => simp only [step]; exact ⟨same, fun _ => Cnt.refl _⟩
  | resume =>
    cases pc with
    | notStarted => simp only [step]; exact ⟨same, fun _ => Cnt.refl _⟩
    | waitB =>
      rcases inGet_cases tb with hw | hw
      · simp only [step, fifo_resume_wait sb hw]; exact ⟨same, fun _ => Cnt.refl _⟩
      · have hbs : B = P.map (·.second) ++ sb.m.queue := by rw [bs]; simp [held]
        cases hq : sb.m.queue with
        | nil =>
          obtain ⟨f, e, h1, h2⟩ := fifo_resume_nil sb hw hq
          have hi : Mailbox.Inv 0 f.m := by have := fifo_inv invB (.resume 0); rw [e] at this; exact this
          simp only [step, e, afters, befores, List.append_nil]
          refine ⟨⟨hi, invA, oks, by simpa [held, h1, hq] using hbs, as, ?_, ?_⟩, fun _ => ⟨by simp, by simp⟩⟩
          · exact h2
          · exact ta
        | cons b q =>
          obtain ⟨f, e, h1, h2⟩ := fifo_resume_cons sb hw hq
          have hi : Mailbox.Inv 0 f.m := by have := fifo_inv invB (.resume 0); rw [e] at this; exact this
          simp only [step, e, afters, befores, List.append_nil]
          have := getAfter_good comp (getBefore comp (sb.m.queue.length + 1)) ⟨f, sa, nm, nmm, .waitB⟩ b
            (P := P) (A := A) (B := B) hi invA oks (by rw [hbs, hq]; simp [h1]) as h2 ta
            (fun s' P' ht hb => getBefore_good comp _ s' ht (by rw [hb, hq]; simp [h1]; omega))
          exact ⟨this.1, fun _ => ⟨this.2.hits, this.2.misses⟩⟩
    | waitA b =>
      rcases inGet_cases ta with hw | hw
      · simp only [step, fifo_resume_wait sa hw]; exact ⟨same, fun _ => Cnt.refl _⟩
      · have hbs : B = P.map (·.second) ++ [b] ++ sb.m.queue := by rw [bs]; simp [held]
        cases hq : sa.m.queue with
        | nil =>
          obtain ⟨f, e, h1, h2⟩ := fifo_resume_nil sa hw hq
          have hi : Mailbox.Inv 0 f.m := by have := fifo_inv invA (.resume 0); rw [e] at this; exact this
          simp only [step, e, afters, befores, List.append_nil]
          refine ⟨⟨invB, hi, oks, by simpa [held] using hbs, by simpa [h1, hq] using as, ?_, ?_⟩,
            fun _ => ⟨by simp, by simp⟩⟩
          · exact tb
          · exact h2
        | cons a q =>
          obtain ⟨f, e, h1, h2⟩ := fifo_resume_cons sa hw hq
          have hi : Mailbox.Inv 0 f.m := by have := fifo_inv invA (.resume 0); rw [e] at this; exact this
          simp only [step, e, afters, befores, List.append_nil]
          have ht := top_compare comp ⟨sb, f, nm, nmm, .waitA b⟩ (P := P) (A := A) (B := B) b a q invB hi oks hbs h1
            (by rw [as, hq]) tb h2
          have hc := compareOne_eq comp ⟨sb, f, nm, nmm, .waitA b⟩ b a
          obtain ⟨g, c⟩ := getBefore_good comp (sb.m.queue.length + 1) _ ht (by rw [hc.2.1]; simp)
          constructor
          · rw [List.append_assoc] at g; exact g
          · intro _
            have c1 : Cnt ⟨sb, sa, nm, nmm, .waitA b⟩ (compareOne comp ⟨sb, f, nm, nmm, .waitA b⟩ b a).1
                [(compareOne comp ⟨sb, f, nm, nmm, .waitA b⟩ b a).2] := by
              rw [hc.1]; exact ⟨hc.2.2.2.2.hits, hc.2.2.2.2.misses⟩
            exact c1.trans c
  | writeBefore x =>
    obtain ⟨w1, w2, w3⟩ := fifo_write sb x invB
    simp only [step, afters, befores, List.append_nil]
    refine ⟨⟨fifo_inv invB _, invA, oks, ?_, as, ?_, ta⟩, fun _ => ⟨by simp, by simp⟩⟩
    · rw [bs, w1]; simp
    · cases pc <;> simp only at tb ⊢
      · exact w3 0 tb
      · rw [w2]; exact tb
      · exact w3 0 tb
  | writeAfter x =>
    obtain ⟨w1, w2, w3⟩ := fifo_write sa x invA
    simp only [step, afters, befores, List.append_nil]
    refine ⟨⟨invB, fifo_inv invA _, oks, bs, ?_, tb, ?_⟩, fun _ => ⟨by simp, by simp⟩⟩
    · rw [as, w1]; simp
    · cases pc <;> simp only at ta ⊢
      · exact w3 0 ta
      · exact w3 0 ta
      · rw [w2]; exact ta
  | flush =>
    simp only [step, afters, befores, List.append_nil]
    exact ⟨⟨invB, invA, oks, bs, as, tb, ta⟩, fun h => absurd rfl h⟩

theorem afters_cons (e : Ev α) (es : List (Ev α)) : afters (e :: es) = afters [e] ++ afters es := by
  cases e <;> rfl
theorem befores_cons (e : Ev α) (es : List (Ev α)) : befores (e :: es) = befores [e] ++ befores es := by
  cases e <;> rfl

theorem run_good (comp : α → α → Bool) (s : State α) (es : List (Ev α)) {P : List (Pair α)} {A B : List α}
    (h : Good comp s P A B) :
    Good comp (run (step comp) s es).1 (P ++ (run (step comp) s es).2.flatten) (A ++ afters es) (B ++ befores es) := by
  induction es generalizing s P A B with
  | nil => simpa [run, afters, befores] using h
  | cons e es ih =>
    have := ih _ (step_good comp s e h).1
    rw [afters_cons, befores_cons]
    simp only [run, List.flatten_cons]
    simpa [List.append_assoc] using this

theorem run_counts (comp : α → α → Bool) (s : State α) (es : List (Ev α)) {P : List (Pair α)} {A B : List α}
    (h : Good comp s P A B) (acc : List (Pair α)) (h1 : s.nMatch = (acc.filter (·.ok)).length)
    (h2 : s.nMismatch = (acc.filter (fun p => !p.ok)).length) :
    (run (step comp) s es).1.nMatch = ((sinceFlush acc es (run (step comp) s es).2).filter (·.ok)).length ∧
    (run (step comp) s es).1.nMismatch =
      ((sinceFlush acc es (run (step comp) s es).2).filter (fun p => !p.ok)).length := by
  induction es generalizing s P A B acc with
  | nil => simp [run, sinceFlush, h1, h2]
  | cons e es ih =>
    have g := step_good comp s e h
    by_cases he : e = .flush
    · subst he
      simp only [run, sinceFlush]
      exact ih _ g.1 [] (by simp [step]) (by simp [step])
    · have c := g.2 he
      have := ih _ g.1 (acc ++ (step comp s e).2) (by rw [c.hits, h1]; simp) (by rw [c.misses, h2]; simp)
      cases e <;> first | exact absurd rfl he | exact this

end Verif.Comparator
