import Verif.Lemmas.Comparator
/-! # C45: the in-order comparator under every interleaving -/
namespace Verif.Comparator
open Verif
variable {α : Type}

theorem published_eq (comp : α → α → Bool) (es : List (Ev α)) :
    published comp es = pairUp comp ((published comp es).map (·.first)) ((published comp es).map (·.second)) := by
  have g := run_good comp init es (init_good comp)
  simp only [List.nil_append] at g
  have h : ∀ P : List (Pair α), (∀ p ∈ P, p.ok = comp p.second p.first) →
      P = pairUp comp (P.map (·.first)) (P.map (·.second)) := by
    intro P hP
    induction P with
    | nil => rfl
    | cons p P ih =>
      have h1 := hP p (List.mem_cons_self ..)
      have h2 := ih (fun q hq => hP q (List.mem_cons_of_mem _ hq))
      simp only [List.map_cons, pairUp, List.zipWith_cons_cons] at h2 ⊢
      rw [← h2, ← h1]
  exact h _ g.oks

theorem pairUp_prefix (comp : α → α → Bool) (P : List (Pair α)) (q r : List α)
    (h : P = pairUp comp (P.map (·.first)) (P.map (·.second))) :
    P = (pairUp comp (P.map (·.first) ++ q) (P.map (·.second) ++ r)).take P.length := by
  unfold pairUp at *
  rw [List.zipWith_append (by simp), List.take_append_of_le_length (by simp), ← h]
  simp

/-- C45. After any interleaving of writes, start, resumptions and flushes, for every comparison function: what was
published is a prefix of the position-by-position pairing of everything written to the after export with
everything written to the before export. -/
theorem C45_prefix (comp : α → α → Bool) (es : List (Ev α)) :
    published comp es = (pairUp comp (afters es) (befores es)).take (published comp es).length := by
  have g := run_good comp init es (init_good comp)
  have e := published_eq comp es
  simp only [List.nil_append] at g
  have ha := g.as; have hb := g.bs
  rw [ha, hb, List.append_assoc]
  exact pairUp_prefix comp _ _ _ e

/-- C45. Once the comparator runs and the scheduler has nothing left to resume, exactly the first
min(#before, #after) pairs have been compared and published, each once, in order. -/
theorem C45_all_pairs (comp : α → α → Bool) (es : List (Ev α))
    (hs : Settled (runS (step comp) init es)) :
    published comp es = pairUp comp (afters es) (befores es) ∧
    (published comp es).length = min (befores es).length (afters es).length := by
  have g := run_good comp init es (init_good comp)
  simp only [List.nil_append] at g
  have pre := C45_prefix comp es
  obtain ⟨h0, h1, h2⟩ := hs
  have hlen : (published comp es).length = min (befores es).length (afters es).length := by
    have la := congrArg List.length g.as
    have lb := congrArg List.length g.bs
    simp only [List.length_append, List.length_map] at la lb
    change _ = (published comp es).length + _ at la
    change _ = (published comp es).length + _ + _ at lb
    have tb := g.tb; have ta := g.ta
    unfold runS at h0 h1 h2
    generalize run (step comp) init es = r at *
    obtain ⟨⟨sb, sa, nm, nmm, pc⟩, out⟩ := r
    cases pc with
    | notStarted => exact absurd rfl h0
    | waitB =>
      have hw : sb.m.tasks 0 = .getWait := (inGet_cases tb).resolve_right h1
      have := g.invB.noLostGet 0 (.inl hw)
      simp only at this la lb
      rw [this] at lb
      simp [held] at lb
      omega
    | waitA b =>
      have hw : sa.m.tasks 0 = .getWait := (inGet_cases ta).resolve_right h2
      have := g.invA.noLostGet 0 (.inl hw)
      simp only at this la lb
      rw [this] at la
      simp [held] at la lb
      omega
  refine ⟨?_, hlen⟩
  rw [pre, List.take_of_length_le]
  rw [hlen]; unfold pairUp; rw [List.length_zipWith]; omega

/-- C45. `m_matches` and `m_mismatches` count the matching and mismatching pairs published since the last `flush`. -/
theorem C45_counts (comp : α → α → Bool) (es : List (Ev α)) :
    let r := run (step comp) init es
    r.1.nMatch = ((sinceFlush [] es r.2).filter (·.ok)).length ∧
    r.1.nMismatch = ((sinceFlush [] es r.2).filter (fun p => !p.ok)).length :=
  run_counts comp init es (init_good comp) [] rfl rfl

/-- C45. Without `flush`, once settled: matches plus mismatches is min(#before, #after), and the matches are the
positions at which the two streams agree under the comparison function. -/
theorem C45_total (comp : α → α → Bool) (es : List (Ev α)) (hf : ∀ e ∈ es, e ≠ .flush)
    (hs : Settled (runS (step comp) init es)) :
    let s := runS (step comp) init es
    s.nMatch + s.nMismatch = min (befores es).length (afters es).length ∧
    s.nMatch = ((pairUp comp (afters es) (befores es)).filter (·.ok)).length := by
  have hc := C45_counts comp es
  have key : ∀ (es : List (Ev α)) (ps : List (List (Pair α))) (acc : List (Pair α)), (∀ e ∈ es, e ≠ .flush) →
      es.length = ps.length → sinceFlush acc es ps = acc ++ ps.flatten := by
    intro es
    induction es with
    | nil => intro ps acc _ hl; cases ps <;> simp_all [sinceFlush]
    | cons e es ih =>
      intro ps acc hf hl
      cases ps with
      | nil => simp at hl
      | cons p ps =>
        have h1 := hf e (List.mem_cons_self ..)
        have := ih ps (acc ++ p) (fun e he => hf e (List.mem_cons_of_mem _ he)) (by simpa using hl)
        cases e <;> first | exact absurd rfl h1 | (simp only [sinceFlush]; rw [this]; simp)
  have hl : ∀ (es : List (Ev α)) (s : State α), es.length = (run (step comp) s es).2.length := by
    intro es; induction es with
    | nil => intro s; rfl
    | cons e es ih => intro s; simp only [run, List.length_cons]; rw [← ih]
  have e := key es _ [] hf (hl es init)
  simp only [List.nil_append] at e
  simp only at hc
  rw [e] at hc
  obtain ⟨c1, c2⟩ := hc
  obtain ⟨p1, p2⟩ := C45_all_pairs comp es hs
  have hp : (run (step comp) init es).2.flatten = published comp es := rfl
  rw [hp] at c1 c2
  constructor
  · rw [← p2]
    show (run (step comp) init es).1.nMatch + (run (step comp) init es).1.nMismatch = _
    rw [c1, c2]
    have : ∀ P : List (Pair α), (P.filter (·.ok)).length + (P.filter (fun p => !p.ok)).length = P.length := by
      intro P
      induction P with
      | nil => rfl
      | cons p P ih => cases h : p.ok <;> simp [h] <;> omega
    exact this _
  · show (run (step comp) init es).1.nMatch = _
    rw [c1, p1]

/-- C45. The comparator never stays asleep with work to do: whenever both streams have a transaction that is not yet
compared and the comparator runs, the scheduler has something to resume. -/
theorem C45_progress (comp : α → α → Bool) (es : List (Ev α)) (hs : (runS (step comp) init es).pc ≠ .notStarted)
    (h : (published comp es).length < min (befores es).length (afters es).length) :
    (runS (step comp) init es).before.m.tasks 0 = .getWoken ∨ (runS (step comp) init es).after.m.tasks 0 = .getWoken := by
  by_cases h1 : (runS (step comp) init es).before.m.tasks 0 = .getWoken
  · exact .inl h1
  · by_cases h2 : (runS (step comp) init es).after.m.tasks 0 = .getWoken
    · exact .inr h2
    · have := (C45_all_pairs comp es ⟨hs, h1, h2⟩).2
      omega

/-- Translation of an algorithmic comparator history to the inner comparator. -/
def inner {β : Type} (f : β → α) : AEv α β → Ev α
  | .start => .start
  | .resume => .resume
  | .write x => .writeBefore (f x)
  | .writeAfter x => .writeAfter x

/-- C45. The algorithmic comparator is the in-order comparator applied to the transformed before stream, call by
call, under every schedule. -/
theorem C45_algorithmic {β : Type} (comp : α → α → Bool) (f : β → α) (s : State α) (es : List (AEv α β)) :
    run (astep comp f) s es = run (step comp) s (es.map (inner f)) := by
  induction es generalizing s with
  | nil => rfl
  | cons e es ih =>
    have : astep comp f s e = step comp s (inner f e) := by cases e <;> rfl
    simp only [run, List.map_cons, this, ih]

/-- C45. Everything written to the before side of the algorithmic comparator arrives transformed, in order. -/
theorem C45_algorithmic_before {β : Type} (f : β → α) (es : List (AEv α β)) :
    befores (es.map (inner f)) = (es.filterMap (fun e => match e with | .write x => some x | _ => none)).map f := by
  induction es with
  | nil => rfl
  | cons e es ih => cases e <;> simp_all [befores, inner]

-- Non-vacuity: an interleaving with a mismatch; the first pair is compared when its second half arrives.
def sample : List (Ev Nat) :=
  [.writeBefore 1, .start, .writeAfter 1, .resume, .writeAfter 5, .writeAfter 7, .writeBefore 2, .resume, .writeBefore 7,
   .resume, .writeBefore 9, .resume]
example : published (fun b a => b == a) sample = [⟨1, 1, true⟩, ⟨5, 2, false⟩, ⟨7, 7, true⟩] := by decide
example : Settled (runS (step (fun b a => b == a)) init sample) := by
  refine ⟨?_, ?_, ?_⟩ <;> decide
example : ∀ e ∈ sample, e ≠ .flush := by decide
example : (runS (step (fun b a => b == a)) init sample).nMismatch = 1 := by decide
-- and one where a wake-up is pending
example : (runS (step (fun b a => b == a)) init [.start, .writeBefore 1, .writeAfter (1 : Nat)]).before.m.tasks 0 = .getWoken := by
  decide

end Verif.Comparator
