import Verif.Lemmas.SeqMacros
/-! # Properties of the sequence macros -/
namespace Verif.SeqMacros
open Spec

/-- C223. Whatever macros a running sequence and the sequences it starts call: each item is sent by the sequence that was granted access, to the sequencer that granted it, once
per grant, after `pre_do`, the random values (which are drawn after the grant) and `mid_do`, and before `post_do`; also if the run ends early. -/
theorem C223_framed (env : Env) (n me : Nat) (s : St) (h : s.running me = true) :
    ∃ l, (runBody env n me s).1.log = s.log ++ l ∧ Framed l ∧ GrantsUsed l := by
  obtain ⟨⟨l, e, b, _⟩, _⟩ := does_body env n me s h
  exact ⟨l, e, b.framed, b.grants⟩

/-- C223. If no fatal error stops the run, the items are sent in program order, the items of a sequence started by a macro in its place, each at its own priority: the one given
to the macro or else that of the sequence, which gets it the same way from the macro that starts it; exactly the `do` macros draw random values between
the grant and the sending. -/
theorem C223_order (env : Env) (n me : Nat) (s : St) (h : s.running me = true) (hok : (runBody env n me s).2 = .ok) (p : Int) (b : Bool) :
    ∃ l, (runBody env n me s).1.log = s.log ++ l ∧ sent p b l = wanted env n me (s.prio me) := by
  obtain ⟨⟨l, e, _, q⟩, _⟩ := does_body env n me s h
  exact ⟨l, e, q hok p b⟩

/-- Sequence 0 sends item 10, starts sequence 1 (which sends item 11) at priority 7, and sends item 12 at priority 3. Types: 0 sequences, 1 items. -/
def exEnv : Env where
  type x := if x < 10 then 0 else 1
  over t := t
  isSeq t := t == 0
  body x := if x = 0 then [.do_ 10 .own (-1), .do_ 1 .own 7, .send 12 3] else if x = 1 then [.items 11 (-1) none, .do_ 10 .own 2] else []
  noRand _ := false

def exSt : St := { sqr := fun x => if x = 0 then some 100 else none, prio := fun _ => 100, running := fun x => x == 0 }

example : exSt.running 0 = true ∧ (runBody exEnv 2 0 exSt).2 = .ok ∧
    wanted exEnv 2 0 100 = [⟨0, 10, 100, true⟩, ⟨1, 11, 7, false⟩, ⟨1, 10, 2, true⟩, ⟨0, 12, 3, false⟩] := by decide +kernel

/-- What C224 asks for: an item given to a macro with a sequencer is sent to this sequencer. -/
def SentTo (env : Env) (sub : Nat → St → St × Out) (me x : Nat) (q : Nat) (p : Int) (s : St) : Prop :=
  ∃ a b, (exec env sub me s (.do_ x (.on (some q)) p)).1.log = s.log ++ a ++ .send me q x :: b

theorem do_item_log (env : Env) (sub : Nat → St → St × Out) (me x : Nat) (t : Target) (p : Int) (s : St) (hi : env.isSeq (env.over (env.type x)) = false)
    (q' : Nat) (hs : (s.sqr x).or (s.sqr me) = some q') :
    (exec env sub me s (.do_ x t p)).1.log = s.log ++ .created (env.over (env.type x)) me ((t.get s me).or (s.sqr me)) ::
      frame me q' x (effective (s.prio me) p) true := by
  have h1 : ∀ l, ((none : Option Nat).or ((s.add l).sqr x)).or ((s.add l).sqr me) = some q' := fun _ => hs
  simp only [exec, hi, Bool.false_eq_true, if_false, startItem, h1, andThen]
  simp [finishItem, St.add, setContext, upd, frame, effective]

/-- C224, violated: an item that has a sequencer, or is sent by a sequence with another sequencer, is not sent to the sequencer given to the macro (`uvm_do_on`,
`uvm_do_on_with`, `uvm_do_on_pri_with`): only the object made by the factory is told of it. -/
theorem C224_sequencer_fails (env : Env) (sub : Nat → St → St × Out) (me x q q' : Nat) (p : Int) (s : St) (hi : env.isSeq (env.over (env.type x)) = false)
    (hs : (s.sqr x).or (s.sqr me) = some q') (hq : q' ≠ q) :
    ¬ SentTo env sub me x q p s ∧ ∃ a b, (exec env sub me s (.do_ x (.on (some q)) p)).1.log = s.log ++ a ++ .send me q' x :: b := by
  have h := do_item_log env sub me x (.on (some q)) p s hi q' hs
  constructor
  · rintro ⟨a, b, h'⟩
    rw [h', List.append_assoc, List.append_cancel_left_eq] at h
    have : (Ev.send me q x) ∈ a ++ .send me q x :: b := by simp
    rw [h] at this
    simp [frame] at this
    exact hq this.symm
  · exact ⟨.created (env.over (env.type x)) me (some q) :: ([.grant me q' (effective (s.prio me) p), .preDo me true] ++ [.randomized x] ++ [.midDo me x]),
      [.done me q', .endTr q' x, .postDo me x], by rw [h]; simp [frame, Target.get]⟩

example : exEnv.isSeq (exEnv.over (exEnv.type 10)) = false ∧ (exSt.sqr 10).or (exSt.sqr 0) = some 100 ∧ 100 ≠ 200 := by decide

/-- C224, what holds: an item that already belongs to the sequencer, or to none while the sequence does, is sent to it; so is an item made by `uvm_create_on` and
sent by `uvm_send`; `start_item` obeys its argument; and a sequence started by a macro belongs to the sequencer given to the macro. -/
theorem C224_sequencer_partial (env : Env) (sub : Nat → St → St × Out) (me x q : Nat) (p : Int) (s : St) :
    (env.isSeq (env.over (env.type x)) = false → (s.sqr x).or (s.sqr me) = some q → SentTo env sub me x q p s) ∧
    (env.isSeq (env.type x) = false → s.sqr x = some q →
      (exec env sub me s (.send x p)).1.log = s.log ++ frame me q x (effective (s.prio me) p) false) ∧
    (exec env sub me s (.items x p (some q))).1.log = s.log ++ frame me q x (effective (s.prio me) p) false ∧
    (env.isSeq (env.over (env.type x)) = true → s.running x = false → -1 ≤ p →
      ∃ s', s'.sqr x = some q ∧ s'.parent x = some me ∧ s'.prio x = effective (s.prio me) p ∧ s'.running x = true ∧
        ((sub x s').2 = .ok → exec env sub me s (.do_ x (.on (some q)) p) =
          (({ (sub x s').1 with running := upd (sub x s').1.running x false } : St).add [.postDo me x, .postStart x], .ok))) := by
  refine ⟨?_, ?_, ?_, ?_⟩
  · intro hi hs
    refine ⟨.created (env.over (env.type x)) me (some q) :: ([.grant me q (effective (s.prio me) p), .preDo me true] ++ [.randomized x] ++ [.midDo me x]),
      [.done me q, .endTr q x, .postDo me x], ?_⟩
    rw [do_item_log env sub me x (.on (some q)) p s hi q hs]; simp [frame, Target.get]
  · intro hi hs
    simp [exec, hi, startItem, hs, andThen, finishItem, St.add, setContext, upd, frame, effective]
  · simp [exec, startItem, andThen, finishItem, St.add, setContext, upd, frame, effective]
  · intro hi hr hp
    have key : ∀ s1 : St, s1.running x = false → s1.sqr = s.sqr → s1.prio = s.prio →
        ∃ s', s'.sqr x = some q ∧ s'.parent x = some me ∧ s'.prio x = effective (s.prio me) p ∧ s'.running x = true ∧
        ((sub x s').2 = .ok → start sub s1 x me (some q) p =
          (({ (sub x s').1 with running := upd (sub x s').1.running x false } : St).add [.postDo me x, .postStart x], .ok)) := by
      intro s1 h1 h2 h3
      have hp' : ¬ p < -1 := by omega
      refine ⟨({ setContext s1 x me (some q) with prio := upd s1.prio x (if p < 0 then s1.prio me else p), running := upd s1.running x true } : St).add
        [.preStart x, .preDo me false, .midDo me x, .body x], ?_, ?_, ?_, ?_, fun ho => ?_⟩
      · simp [setContext, St.add, upd]
      · simp [setContext, St.add, upd]
      · simp [St.add, upd, effective, h3]
      · simp [St.add, upd]
      · rw [start]
        simp only
        rw [if_neg (by simp [setContext, h1]), if_neg hp', andThen]
        simp only [setContext] at ho ⊢
        rw [ho]
    simp only [exec, hi, if_true, Target.get]
    split
    · exact key _ hr rfl rfl
    · exact key _ hr rfl rfl

example : exEnv.isSeq (exEnv.over (exEnv.type 1)) = true ∧ exSt.running 1 = false ∧ (-1 : Int) ≤ 7 := by decide

/-- C225, violated: the macros send the object they are given even if the factory makes another type instead of its type. -/
theorem C225_factory_fails (env : Env) (sub : Nat → St → St × Out) (me x : Nat) (t : Target) (p : Int) (s : St) (hi : env.isSeq (env.over (env.type x)) = false)
    (hs : (s.sqr x).or (s.sqr me) ≠ none) (hov : env.over (env.type x) ≠ env.type x) :
    ∃ l y q, (exec env sub me s (.do_ x t p)).1.log = s.log ++ l ∧ Ev.send me q y ∈ l ∧ env.type y ≠ env.over (env.type x) ∧
      ∃ c, Ev.created (env.over (env.type x)) me c ∈ l := by
  obtain ⟨q', hq'⟩ := Option.ne_none_iff_exists'.1 hs
  exact ⟨_, x, q', do_item_log env sub me x t p s hi q' hq', by simp [frame], fun h => hov h.symm, (t.get s me).or (s.sqr me), by simp⟩

example : (({ exEnv with over := fun t => if t = 1 then 2 else t } : Env).over (exEnv.type 10)) = 2 ∧ exEnv.type 10 = 1 ∧ exEnv.isSeq 2 = false := by decide

/-- C225, what holds: the object that is created has the type the factory chooses, the sequence as its creator and the sequencer given; without an override the object sent
has the type the factory chooses. -/
theorem C225_factory_partial (env : Env) (sub : Nat → St → St × Out) (me x : Nat) (q : Nat) (p : Int) (s : St) (hi : env.isSeq (env.over (env.type x)) = false)
    (hs : (s.sqr x).or (s.sqr me) ≠ none) :
    ∃ l y q', (exec env sub me s (.do_ x (.on (some q)) p)).1.log = s.log ++ .created (env.over (env.type x)) me (some q) :: l ∧ Ev.send me q' y ∈ l ∧
      (env.over (env.type x) = env.type x → env.type y = env.over (env.type x)) := by
  obtain ⟨q', hq'⟩ := Option.ne_none_iff_exists'.1 hs
  refine ⟨_, x, q', do_item_log env sub me x (.on (some q)) p s hi q' hq', by simp [frame], fun h => h.symm⟩

end Verif.SeqMacros
