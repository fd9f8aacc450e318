import Verif.Spec.PhaseLook
/-!
# C249 – C251: adjacent phases, phases by name, waiting for the state of a phase
-/
namespace Verif.PhaseLook
open Verif.PhaseRun (Graph addKey expandOnce expand)

theorem mem_addKeys (l : List Nat) : ∀ (acc : List Nat) (x : Nat), x ∈ l.foldl addKey acc ↔ x ∈ acc ∨ x ∈ l := by
  induction l with
  | nil => intro acc x; simp
  | cons y l ih =>
    intro acc x
    rw [List.foldl_cons, ih, List.mem_cons]
    unfold addKey
    split
    · rename_i hy
      constructor
      · rintro (h | h)
        · exact .inl h
        · exact .inr (.inr h)
      · rintro (h | rfl | h)
        · exact .inl h
        · exact .inl hy
        · exact .inr h
    · rw [List.mem_append, List.mem_singleton, or_assoc]

theorem nodup_addKeys (l : List Nat) : ∀ (acc : List Nat), acc.Nodup → (l.foldl addKey acc).Nodup := by
  induction l with
  | nil => intro acc h; exact h
  | cons y l ih =>
    intro acc h
    apply ih
    unfold addKey
    split
    · exact h
    · rename_i hy
      exact List.nodup_append.2 ⟨h, by simp, by intro a ha b hb; simp at hb; subst hb; exact fun e => hy (e ▸ ha)⟩

/-- The phases reached from a list. -/
def Reach (G : Graph) (nx : Nat → List Nat) (d : List Nat) (b : Nat) : Prop := ∃ s ∈ d, Via G.kind nx s b

theorem via_other {G : Graph} {nx : Nat → List Nat} {s b : Nat} (h : G.kind s = .other) : Via G.kind nx s b ↔ ∃ t ∈ nx s, Via G.kind nx t b := by
  constructor
  · intro hv
    cases hv with
    | here h' => exact absurd h h'
    | on _ hc hv => exact ⟨_, hc, hv⟩
  · rintro ⟨t, ht, hv⟩; exact .on h ht hv

/-- One step of a round. -/
def one (G : Graph) (nx : Nat → List Nat) (acc : List Nat) (s : Nat) : List Nat :=
  if G.kind s = .other then (nx s).foldl addKey (acc.erase s) else acc

theorem one_spec (G : Graph) (nx : Nat → List Nat) (acc : List Nat) (s : Nat) (hn : acc.Nodup) (hs : s ∈ acc) :
    (one G nx acc s).Nodup ∧ (∀ b, Reach G nx (one G nx acc s) b ↔ Reach G nx acc b) ∧ (∀ x ∈ acc, x ≠ s → x ∈ one G nx acc s) := by
  unfold one
  by_cases h : G.kind s = .other
  · rw [if_pos h]
    refine ⟨nodup_addKeys _ _ (hn.erase s), fun b => ?_, fun x hx hne => ?_⟩
    · constructor
      · rintro ⟨x, hx, hv⟩
        rw [mem_addKeys] at hx
        rcases hx with hx | hx
        · exact ⟨x, List.mem_of_mem_erase hx, hv⟩
        · exact ⟨s, hs, .on h hx hv⟩
      · rintro ⟨x, hx, hv⟩
        by_cases he : x = s
        · subst he
          obtain ⟨t, ht, hv⟩ := (via_other h).1 hv
          exact ⟨t, (mem_addKeys _ _ _).2 (.inr ht), hv⟩
        · exact ⟨x, (mem_addKeys _ _ _).2 (.inl ((List.mem_erase_of_ne he).2 hx)), hv⟩
    · exact (mem_addKeys _ _ _).2 (.inl ((List.mem_erase_of_ne hne).2 hx))
  · rw [if_neg h]
    exact ⟨hn, fun b => Iff.rfl, fun x hx _ => hx⟩

theorem fold_spec (G : Graph) (nx : Nat → List Nat) : ∀ (l acc : List Nat), l.Nodup → acc.Nodup → (∀ x ∈ l, x ∈ acc) →
    (l.foldl (one G nx) acc).Nodup ∧ (∀ b, Reach G nx (l.foldl (one G nx) acc) b ↔ Reach G nx acc b) := by
  intro l
  induction l with
  | nil => intro acc _ hn _; exact ⟨hn, fun b => Iff.rfl⟩
  | cons s l ih =>
    intro acc hl hn hm
    obtain ⟨h1, h2, h3⟩ := one_spec G nx acc s hn (hm s List.mem_cons_self)
    obtain ⟨hs, hl'⟩ := List.nodup_cons.1 hl
    obtain ⟨a, b⟩ := ih (one G nx acc s) hl' h1 (fun x hx => h3 x (hm x (List.mem_cons_of_mem _ hx)) (fun e => hs (e ▸ hx)))
    exact ⟨a, fun x => (b x).trans (h2 x)⟩

theorem once_eq (G : Graph) (nx : Nat → List Nat) (d : List Nat) : expandOnce G nx d = d.foldl (one G nx) d := rfl

theorem once_spec (G : Graph) (nx : Nat → List Nat) (d : List Nat) (hn : d.Nodup) :
    (expandOnce G nx d).Nodup ∧ (∀ b, Reach G nx (expandOnce G nx d) b ↔ Reach G nx d b) :=
  fold_spec G nx d d hn hn fun _ h => h

/-- What is left to replace has a lower rank. -/
theorem fold_rank (G : Graph) (nx : Nat → List Nat) (rank : Nat → Nat) (hr : Acyclic nx rank) (m : Nat) : ∀ (l acc : List Nat), l.Nodup → acc.Nodup →
    (∀ x ∈ l, G.kind x = .other → rank x < m + 1) → (∀ x ∈ acc, G.kind x = .other → x ∈ l ∨ rank x < m) →
    ∀ x ∈ l.foldl (one G nx) acc, G.kind x = .other → rank x < m := by
  intro l
  induction l with
  | nil =>
    intro acc _ _ _ h x hx ho
    rcases h x hx ho with h | h
    · cases h
    · exact h
  | cons s l ih =>
    intro acc hl hn hm h
    obtain ⟨hs, hl'⟩ := List.nodup_cons.1 hl
    rw [List.foldl_cons]
    have hone : (one G nx acc s).Nodup := by
      unfold one
      split
      · exact nodup_addKeys _ _ (hn.erase s)
      · exact hn
    apply ih _ hl' hone (fun x hx => hm x (List.mem_cons_of_mem _ hx))
    intro x hx ho
    unfold one at hx
    split at hx
    · rename_i hk
      rw [mem_addKeys] at hx
      rcases hx with hx | hx
      · have hne : x ≠ s := by rintro rfl; exact (List.Nodup.not_mem_erase hn) hx
        rcases h x (List.mem_of_mem_erase hx) ho with h | h
        · rcases List.mem_cons.1 h with h | h
          · exact absurd h hne
          · exact .inl h
        · exact .inr h
      · have h1 := hr s x hx
        have h2 := hm s List.mem_cons_self hk
        exact .inr (by omega)
    · rename_i hk
      rcases h x hx ho with h | h
      · rcases List.mem_cons.1 h with h | h
        · subst h; exact absurd ho hk
        · exact .inl h
      · exact .inr h

theorem expand_spec (G : Graph) (nx : Nat → List Nat) : ∀ (fuel : Nat) (d r : List Nat), d.Nodup → expand G nx fuel d = some r →
    r.Nodup ∧ ∀ b, b ∈ r ↔ Reach G nx d b := by
  have key : ∀ d : List Nat, d.all (fun s => G.kind s ≠ .other) = true → ∀ b, b ∈ d ↔ Reach G nx d b := by
    intro d h b
    have hall : ∀ s ∈ d, G.kind s ≠ .other := fun s hs => by simpa using List.all_eq_true.1 h s hs
    constructor
    · intro hb; exact ⟨b, hb, .here (hall b hb)⟩
    · rintro ⟨s, hs, hv⟩
      cases hv with
      | here => exact hs
      | on h' _ _ => exact absurd h' (hall s hs)
  intro fuel
  induction fuel with
  | zero =>
    intro d r hn h
    simp only [expand] at h
    split at h
    · rename_i hall
      cases h
      exact ⟨hn, key d hall⟩
    · cases h
  | succ fuel ih =>
    intro d r hn h
    simp only [expand] at h
    split at h
    · rename_i hall
      cases h
      exact ⟨hn, key d hall⟩
    · obtain ⟨h1, h2⟩ := once_spec G nx d hn
      obtain ⟨a, b⟩ := ih _ _ h1 h
      exact ⟨a, fun x => (b x).trans (h2 x)⟩

theorem expand_ends (G : Graph) (nx : Nat → List Nat) (rank : Nat → Nat) (hr : Acyclic nx rank) : ∀ (m : Nat) (d : List Nat), d.Nodup →
    (∀ x ∈ d, G.kind x = .other → rank x < m) → ∃ r, ∀ fuel, m ≤ fuel → expand G nx fuel d = some r := by
  intro m
  induction m with
  | zero =>
    intro d _ h
    have hall : d.all (fun s => G.kind s ≠ .other) = true := by
      rw [List.all_eq_true]; intro s hs
      have := h s hs
      simp only [ne_eq, decide_not, Bool.not_eq_true', decide_eq_false_iff_not]
      intro ho; exact absurd (this ho) (by omega)
    exact ⟨d, fun fuel _ => by cases fuel <;> simp only [expand, hall, if_true]⟩
  | succ m ih =>
    intro d hn h
    by_cases hall : d.all (fun s => G.kind s ≠ .other) = true
    · exact ⟨d, fun fuel _ => by cases fuel <;> simp only [expand, hall, if_true]⟩
    · obtain ⟨h1, _⟩ := once_spec G nx d hn
      obtain ⟨r, hr'⟩ := ih (expandOnce G nx d) h1 (fold_rank G nx rank hr m d d hn hn h (fun x hx _ => .inl hx))
      refine ⟨r, fun fuel hf => ?_⟩
      cases fuel with
      | zero => omega
      | succ fuel =>
        rw [expand, if_neg hall]
        exact hr' fuel (by omega)

/-- C249.  In a schedule without cycles `get_adjacent_successor_nodes` ends and gives exactly the phases that come first after a phase
(past schedules, domains and their ends), each once. -/
theorem C249_adjacent_successors (G : Graph) (rank : Nat → Nat) (hr : Acyclic G.succs rank) (p : Nat) (hn : (G.succs p).Nodup) :
    ∃ r k, (∀ fuel, k ≤ fuel → expand G G.succs fuel (G.succs p) = some r) ∧ r.Nodup ∧
      ∀ b, b ∈ r ↔ ∃ c ∈ G.succs p, Via G.kind G.succs c b := by
  obtain ⟨r, h⟩ := expand_ends G G.succs rank hr (rank p) (G.succs p) hn (fun x hx _ => hr p x hx)
  obtain ⟨a, b⟩ := expand_spec G G.succs (rank p) _ _ hn (h _ (Nat.le_refl _))
  exact ⟨r, rank p, h, a, b⟩

/-- Phase 0 before a schedule (1) of two parallel phases 2 and 3. -/
example : expand ⟨4, fun _ => [], fun p => if p = 0 then [1] else if p = 1 then [2, 3] else [], fun p => if p = 1 then .other else .task, fun _ => false⟩
    (fun p => if p = 0 then [1] else if p = 1 then [2, 3] else []) 4 [1] = some [2, 3] := by decide
example : Acyclic (fun p => if p = 0 then [1] else if p = 1 then [2, 3] else []) (fun p => if p = 0 then 2 else if p = 1 then 1 else 0) := by
  intro a b hb
  by_cases h0 : a = 0
  · subst h0; simp at hb; subst hb; decide
  · by_cases h1 : a = 1
    · subst h1; simp at hb; rcases hb with rfl | rfl <;> decide
    · simp [h0, h1] at hb

/-- The search in one direction. -/
theorem findName_sound (s : Phase.State) (nm : Nat → String) (nb : Nat → List Nat) (name : String) (stay : Bool) (orig : Nat) :
    ∀ (fuel a b : Nat), findName s nm nb name stay orig fuel a = some b → nm b = name ∧ Way nb (fun c => Phase.inScope s stay orig c = true) a b := by
  intro fuel
  induction fuel with
  | zero => intro a b h; cases h
  | succ fuel ih =>
    intro a b h
    simp only [findName] at h
    split at h
    · rename_i hn
      cases h
      exact ⟨hn, .here⟩
    · obtain ⟨c, hc, h⟩ := List.exists_of_findSome?_eq_some h
      split at h
      · rename_i hs
        obtain ⟨h1, h2⟩ := ih c b h
        exact ⟨h1, .on hc hs h2⟩
      · cases h

theorem findName_complete (s : Phase.State) (nm : Nat → String) (nb : Nat → List Nat) (name : String) (stay : Bool) (orig : Nat) (rank : Nat → Nat)
    (hr : Acyclic nb rank) : ∀ (a b : Nat), Way nb (fun c => Phase.inScope s stay orig c = true) a b → nm b = name →
      ∀ fuel, rank a < fuel → (findName s nm nb name stay orig fuel a).isSome = true := by
  intro a b h
  induction h with
  | here =>
    intro hb fuel hf
    cases fuel with
    | zero => omega
    | succ fuel => simp [findName, hb]
  | on hc hs _ ih =>
    rename_i a c b hway
    intro hb fuel hf
    cases fuel with
    | zero => omega
    | succ fuel =>
      simp only [findName]
      split
      · rfl
      · have h1 := hr a c hc
        have h2 := ih hb fuel (by omega)
        rw [List.findSome?_isSome_iff]
        exact ⟨c, hc, by rw [if_pos hs]; exact h2⟩

/-- C250.  In a schedule without cycles `find_by_name` gives a phase if and only if a phase of that name is before or after this one, on
a way within the scope asked for; and what it gives is such a phase. -/
theorem C250_find_by_name (s : Phase.State) (nm : Nat → String) (name : String) (stay : Bool) (a : Nat) (rp rs : Nat → Nat)
    (hp : Acyclic (Phase.preds s) rp) (hs : Acyclic (Phase.succs s) rs) (fuel : Nat) (h1 : rp a < fuel) (h2 : rs a < fuel) :
    ((findByName s nm name stay fuel a).isSome = true ↔
      ∃ b, nm b = name ∧ (Way (Phase.preds s) (fun c => Phase.inScope s stay a c = true) a b ∨
        Way (Phase.succs s) (fun c => Phase.inScope s stay a c = true) a b)) ∧
    (∀ b, findByName s nm name stay fuel a = some b → nm b = name ∧ (Way (Phase.preds s) (fun c => Phase.inScope s stay a c = true) a b ∨
        Way (Phase.succs s) (fun c => Phase.inScope s stay a c = true) a b)) := by
  have sound : ∀ b, findByName s nm name stay fuel a = some b → nm b = name ∧ (Way (Phase.preds s) (fun c => Phase.inScope s stay a c = true) a b ∨
        Way (Phase.succs s) (fun c => Phase.inScope s stay a c = true) a b) := by
    intro b h
    simp only [findByName] at h
    split at h
    · rename_i hn
      cases h
      exact ⟨hn, .inl .here⟩
    · split at h
      · rename_i x hx
        cases h
        obtain ⟨e1, e2⟩ := findName_sound _ _ _ _ _ _ _ _ _ hx
        exact ⟨e1, .inl e2⟩
      · obtain ⟨e1, e2⟩ := findName_sound _ _ _ _ _ _ _ _ _ h
        exact ⟨e1, .inr e2⟩
  refine ⟨⟨fun h => ?_, ?_⟩, sound⟩
  · obtain ⟨b, hb⟩ := Option.isSome_iff_exists.1 h
    exact ⟨b, sound b hb⟩
  · rintro ⟨b, hb, hw⟩
    simp only [findByName]
    split
    · rfl
    · split
      · rfl
      · rename_i hnone
        rcases hw with hw | hw
        · have := findName_complete s nm _ name stay a rp hp a b hw hb fuel h1
          rw [hnone] at this
          cases this
        · exact findName_complete s nm _ name stay a rs hs a b hw hb fuel h2

/-- A new domain (0) and its end (1): the end is found from the domain, the domain from its end. -/
example : findByName (Phase.newTop Phase.init .domain) (fun a => if a = 0 then "dom" else "dom_end") "dom_end" true 3 0 = some 1 ∧
    findByName (Phase.newTop Phase.init .domain) (fun a => if a = 0 then "dom" else "dom_end") "dom" true 3 1 = some 0 ∧
    findByName (Phase.newTop Phase.init .domain) (fun a => if a = 0 then "dom" else "dom_end") "run" true 3 1 = none := by decide
example : Acyclic (Phase.preds (Phase.newTop Phase.init .domain)) id := by
  intro a b hb
  by_cases h1 : a = 1
  · subst h1
    have : Phase.preds (Phase.newTop Phase.init .domain) 1 = [0] := by decide
    rw [this] at hb; simp at hb; subst hb; decide
  · by_cases h0 : a = 0
    · subst h0
      have : Phase.preds (Phase.newTop Phase.init .domain) 0 = [] := by decide
      rw [this] at hb; cases hb
    · have : Phase.preds (Phase.newTop Phase.init .domain) a = [] := by
        simp [Phase.newTop, Phase.preds, Phase.addPred, Phase.addSucc, Phase.new, Phase.set, Phase.init, h0, h1]
      rw [this] at hb; cases hb

theorem holds_iff (c : Call) (x : PhaseRun.St) : holds c.op c.state x = true ↔ Meets c x := by
  obtain ⟨op, st⟩ := c
  cases op <;> simp [holds, Meets, bne_iff_ne]

/-- C251, what holds: a task that waits while the phase is set to a state it waits for returns as soon as it runs, if the phase is not
set again before, and goes on waiting otherwise; a task returns only in a state it waits for. -/
theorem C251_wait_partial (s : State) (t : Nat) (c : Call) (x : PhaseRun.St) (hw : s.task t = .waiting c) :
    (Meets c x → (step (step s (.set x)) (.run t)).task t = .returned) ∧
    (¬ Meets c x → (step (step s (.set x)) (.run t)).task t = .waiting c) := by
  refine ⟨fun h => ?_, fun h => ?_⟩
  · have := (holds_iff c x).2 h
    simp [step, hw, wake, test, upd, this]
  · have : ¬ holds c.op c.state x = true := fun h' => h ((holds_iff c x).1 h')
    simp [step, hw, wake, test, upd, this]

theorem C251_returns_partial (s : State) (t : Nat) (o : Op) (h0 : s.task t ≠ .returned) (h : (step s o).task t = .returned) :
    ∃ c, (s.task t = .woken c ∨ o = .call t c) ∧ Meets c s.st := by
  have htest : ∀ u c, (test s u c).task t = .returned → t = u ∧ Meets c s.st := by
    intro u c h
    simp only [test, upd] at h
    split at h
    · rename_i e
      split at h
      · rename_i hh; exact ⟨e, (holds_iff c s.st).1 hh⟩
      · cases h
    · exact absurd h h0
  cases o with
  | set x =>
    simp only [step] at h
    cases ht : s.task t <;> simp [ht, wake] at h
    exact absurd ht h0
  | call u d =>
    simp only [step] at h
    split at h
    · obtain ⟨rfl, hm⟩ := htest u d h
      exact ⟨d, .inr rfl, hm⟩
    · simp only [upd] at h
      split at h
      · cases h
      · exact absurd h h0
  | run u =>
    simp only [step] at h
    split at h
    · rename_i c hc
      obtain ⟨rfl, hm⟩ := htest u c h
      exact ⟨c, .inl hc, hm⟩
    · exact absurd h h0

/-- C251 fails, whatever happened before: of two tasks that wait for a state one after the other, the second waits even if the phase is in
that state, and goes on waiting as long as the phase is not set again (a phase that is done never is). -/
theorem C251_second_waiter_fails (ops rest : List Op) (u t : Nat) (d c : Call) (hne : t ≠ u)
    (hrest : ∀ o ∈ rest, (∀ x, o ≠ .set x) ∧ (∀ e, o ≠ .call t e)) :
    (run init (ops ++ [.call u d, .call t c] ++ rest)).task t = .waiting c := by
  have hev : (step (run init ops) (.call u d)).ev = false := by
    simp only [step]
    split
    · rfl
    · rename_i h; simpa using h
  have h1 : (run init (ops ++ [.call u d, .call t c])).task t = .waiting c := by
    simp only [run, List.foldl_append, List.foldl_cons, List.foldl_nil]
    show (step (step (run init ops) (.call u d)) (.call t c)).task t = _
    rw [step, hev]
    simp [upd]
  unfold run at h1 ⊢
  rw [List.foldl_append]
  generalize List.foldl step init (ops ++ [.call u d, .call t c]) = s at h1
  induction rest generalizing s with
  | nil => exact h1
  | cons o l ih =>
    rw [List.foldl_cons]
    apply ih (fun o ho => hrest o (List.mem_cons_of_mem _ ho))
    obtain ⟨h2, h3⟩ := hrest o List.mem_cons_self
    have htest : ∀ v e, v ≠ t → (test s v e).task t = .waiting c := by
      intro v e hv
      simp only [test, upd, if_neg (Ne.symm hv)]
      exact h1
    cases o with
    | set x => exact absurd rfl (h2 x)
    | call v e =>
      have hv : v ≠ t := fun h => h3 e (by rw [h])
      simp only [step]
      split
      · exact htest v e hv
      · simp only [upd, if_neg (Ne.symm hv)]; exact h1
    | run v =>
      simp only [step]
      split
      · rename_i e he
        apply htest v e
        rintro rfl
        rw [h1] at he; cases he
      · exact h1

/-- The phase is done; two tasks ask for that. -/
example : (run init [.set .done, .call 1 ⟨.gte, 32⟩, .call 2 ⟨.gte, 32⟩]).task 1 = .returned ∧
    (run init [.set .done, .call 1 ⟨.gte, 32⟩, .call 2 ⟨.gte, 32⟩]).task 2 = .waiting ⟨.gte, 32⟩ ∧ Meets ⟨.gte, 32⟩ .done :=
  ⟨by decide, by decide, by show 32 ≤ 256; decide⟩

end Verif.PhaseLook
