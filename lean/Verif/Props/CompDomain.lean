import Verif.Lemmas.CompDomainOrder
/-!
# C268-C271: components and their phase domains
-/
namespace Verif.CompDomain
open Verif.PhaseRun (Wf Before St)
open Verif.Domain (docCommon docRuntime DocBefore)

/-- C268.  `set_domain` puts the domain into the component and, with `hier`, into every component below it, and into no other; nothing goes wrong. -/
theorem C268_set_domain {s : State} (h : Reach s) (c d : Nat) (hier : Bool) (hl : Legal s (.setDomain c d hier)) :
    (step s (.setDomain c d hier)).2 = true ∧ (step s (.setDomain c d hier)).1.comps.length = s.comps.length ∧
    ∀ k, k < s.comps.length →
      ((step s (.setDomain c d hier)).1.comps[k]?.map Comp.parent = s.comps[k]?.map Comp.parent) ∧
      ((k = c ∨ hier = true ∧ Below s.comps k c) → (step s (.setDomain c d hier)).1.comps[k]?.map Comp.domain = some d) ∧
      (¬ (k = c ∨ hier = true ∧ Below s.comps k c) → (step s (.setDomain c d hier)).1.comps[k]?.map Comp.domain = s.comps[k]?.map Comp.domain) := by
  obtain ⟨D, F, hI⟩ := inv_reach h
  obtain ⟨h1, h2, h3, h4⟩ := hl
  obtain ⟨s', D', F', e, _, _, _, _, g⟩ := setDomain_eff d s.comps.length c hier s D F hI.toIInv (known_of hI.toIInv h2 h3 h4) hI.pars (by omega) h1
  have e1 : (step s (.setDomain c d hier)).1 = s' := congrArg Prod.fst e
  have e2 : (step s (.setDomain c d hier)).2 = true := congrArg Prod.snd e
  rw [e1]
  exact ⟨e2, g.len, fun k hk => ⟨g.par k, g.hit k hk, fun hn => by rw [g.miss k hn]⟩⟩

/-- C268.  A new component is in the domain of its parent, and the others stay where they are; a new domain changes no component. -/
theorem C268_inherited {s : State} (p : Nat) (hl : Legal s (.newComp p)) (name : String) :
    (step s (.newComp p)).2 = true ∧ (step s (.newComp p)).1.comps.length = s.comps.length + 1 ∧
    (step s (.newComp p)).1.comps[s.comps.length]?.map Comp.parent = some (some p) ∧
    (step s (.newComp p)).1.comps[s.comps.length]?.map Comp.domain = s.comps[p]?.map Comp.domain ∧
    (∀ k, k < s.comps.length → (step s (.newComp p)).1.comps[k]? = s.comps[k]?) ∧
    (step s (.newDomain name)).1.comps = s.comps ∧ (step s (.newDomain name)).2 = true := by
  have hp : p < s.comps.length := hl
  have e : (step s (.newComp p)).1.comps = s.comps ++ [⟨some p, s.comps[p].domain⟩] := by
    show (newComp s p).comps = _
    unfold newComp; rw [List.getElem?_eq_getElem hp]
  rw [e]
  refine ⟨rfl, by simp, by simp, by simp [hp], fun k hk => List.getElem?_append_left hk, rfl, rfl⟩

/-- A test with two domains: component 2 is below 1, and 3 beside it. -/
def two : List Op := [.newDomain "d", .newDomain "e", .newComp 0, .newComp 1, .newComp 0, .setDomain 1 48 true, .setDomain 3 50 false]

theorem reach_two : Reach (run two) := by
  have l : ∀ (ops : List Op) (s : State), Reach s → (∀ i (h : i < ops.length), Legal ((ops.take i).foldl (fun s o => (step s o).1) s) ops[i]) →
      Reach (ops.foldl (fun s o => (step s o).1) s) := by
    intro ops
    induction ops with
    | nil => intro s h _; exact h
    | cons o ops ih =>
      intro s h hl
      exact ih _ (.step o h (hl 0 (by simp))) (fun i hi => hl (i + 1) (by simpa using hi))
  refine l two _ .start fun i hi => ?_
  have hi : i < 7 := hi
  rcases i with _ | _ | _ | _ | _ | _ | _ | i
  · show "d" ≠ "uvm_sched"; decide
  · show "e" ≠ "uvm_sched"; decide
  · show 0 < List.length _; decide +kernel
  · show 1 < List.length _; decide +kernel
  · show 0 < List.length _; decide +kernel
  · refine ⟨?_, ?_, ?_, ?_⟩ <;> decide +kernel
  · refine ⟨?_, ?_, ?_, ?_⟩ <;> decide +kernel
  · omega

example : (run two).comps = [⟨none, 20⟩, ⟨some 0, 48⟩, ⟨some 1, 48⟩, ⟨some 0, 50⟩] := by decide +kernel

/-- C269.  Whatever domains were created and given to components, every domain that a component is in has each of the documented run-time phases exactly
once and nothing else, and the common domain has each of the common phases exactly once. -/
theorem C269_phases {s : State} (h : Reach s) :
    (∀ x ∈ s.comps, ∀ name ∈ docRuntime, ∃ a, ∀ b, PhaseOf s x.domain name b ↔ b = a) ∧
    (∀ x ∈ s.comps, ∀ name b, PhaseOf s x.domain name b → name ∈ docRuntime) ∧
    (∀ name ∈ docCommon, ∃ a, ∀ b, PhaseOf s 0 name b ↔ b = a) := by
  obtain ⟨D, F, hI⟩ := inv_reach h
  have ndC : docCommon.Nodup := by decide
  have ndR : docRuntime.Nodup := by decide
  refine ⟨fun x hx name hn => ?_, fun x hx name b hb => ?_, fun name hn => ?_⟩
  · obtain ⟨e, he, hd⟩ := hI.comps x hx
    have c := hI.ph.cust e he
    obtain ⟨i, hi, rfl⟩ := List.getElem_of_mem hn
    have hi' : i < e.2.2.length := by rw [ns_length c]; exact hi
    refine ⟨e.2.2[i], fun b => ?_⟩
    rw [← hd, phaseOf_iff hI.toIInv he]
    constructor
    · rintro ⟨j, h1, h2⟩
      have := (List.getElem?_inj (i := i) (j := j) hi ndR).1 ((List.getElem?_eq_getElem hi).trans h2.symm)
      subst this
      rw [List.getElem?_eq_getElem hi'] at h1
      exact (Option.some.inj h1).symm
    · rintro rfl; exact ⟨i, List.getElem?_eq_getElem hi', List.getElem?_eq_getElem hi⟩
  · obtain ⟨e, he, hd⟩ := hI.comps x hx
    rw [← hd] at hb
    obtain ⟨i, _, h2⟩ := (phaseOf_iff hI.toIInv he).1 hb
    exact List.mem_of_getElem? h2
  · obtain ⟨i, hi, rfl⟩ := List.getElem_of_mem hn
    refine ⟨3 + 2 * i, fun b => ?_⟩
    rw [phaseOf_common_iff hI.toIInv]
    constructor
    · rintro ⟨j, h1, rfl, h2⟩
      have := (List.getElem?_inj (i := i) (j := j) hi ndC).1 ((List.getElem?_eq_getElem hi).trans h2.symm)
      omega
    · rintro rfl; exact ⟨i, hi, rfl, List.getElem?_eq_getElem hi⟩

/-- C269.  In every execution, the phases of each domain and the common phases follow the documented order: whatever happens to one (other than being
scheduled) happens after all that are documented to come before it were done. -/
theorem C269_order {s : State} (h : Reach s) (x : Comp) (hx : x ∈ s.comps) (ops : List PhaseRun.Op) (newer older : List (Nat × St)) (p q : Nat) (a b : String) (y : St)
    (hl : (PhaseRun.run (graph s) {} ops).log = newer ++ (q, y) :: older) (hy : y ≠ .scheduled)
    (hp : PhaseOf s x.domain a p ∨ PhaseOf s 0 a p) (hq : PhaseOf s x.domain b q ∨ PhaseOf s 0 b q) (hd : DocBefore a b) : (p, St.done) ∈ older := by
  obtain ⟨D, F, hI⟩ := inv_reach h
  obtain ⟨e, he, hed⟩ := hI.comps x hx
  rw [← hed] at hp hq
  obtain ⟨h1, h2⟩ := doc_before hI.toIInv he hp hq hd
  exact Domain.before_done (wf_graph hI.toIInv) ops h1 h2 newer older y hl hy

/-- C269.  Run-time phases of different domains do not wait for each other, and neither do they and the run phase. -/
theorem C269_apart {s : State} (h : Reach s) (x : Comp) (hx : x ∈ s.comps) (d q p : Nat) (a b : String) (hp : PhaseOf s x.domain a p) (hq : PhaseOf s d b q)
    (hd : d ≠ x.domain) (hb : b ∈ docRuntime ∨ b = "run") : ¬ Before (graph s) p q ∧ ¬ Before (graph s) q p := by
  obtain ⟨D, F, hI⟩ := inv_reach h
  obtain ⟨e, he, hed⟩ := hI.comps x hx
  have c := hI.ph.cust e he
  obtain ⟨nb1, nb2⟩ := not_before hI.toIInv
  rw [← hed] at hp hd
  obtain ⟨i, hi, _⟩ := (phaseOf_iff hI.toIInv he).1 hp
  have hpm := List.mem_of_getElem? hi
  have notStd : ∀ z, InDomain s.dom.ph z 0 → z ≠ p := fun z hz e => dom_ne_zero hI.toIInv he (inDomain_unique (ns_inDomain c hpm) (e ▸ hz))
  have std : ∀ z ∈ [3, 5, 7, 9, 11], InDomain s.dom.ph z 0 := by
    intro z hz
    have : ∀ z ∈ [3, 5, 7, 9, 11], ∃ i < 9, z = 3 + 2 * i := by decide
    obtain ⟨i, hi, rfl⟩ := this z hz
    exact (common_name hI.toIInv hi).2.2
  have hpn := (c.nodes p hpm).2.1
  by_cases hd0 : d = 0
  · subst hd0
    obtain ⟨j, hj, rfl, hbn⟩ := (phaseOf_common_iff hI.toIInv).1 hq
    have hbr : b = "run" := by
      rcases hb with hb | hb
      · exact absurd hb ((by decide : ∀ n ∈ docCommon, n ∉ docRuntime) b (List.mem_of_getElem? hbn))
      · exact hb
    subst hbr
    have : j = 4 := (List.getElem?_inj (i := j) (j := 4) (List.getElem?_eq_some_iff.1 hbn).1 (by decide)).1 (hbn.trans (by decide))
    subst this
    refine ⟨fun hbf => ?_, fun hbf => ?_⟩
    · rcases nb2 p hbf with h1 | h1
      · exact h1 hpn
      · exact notStd p (std p h1) rfl
    · rcases nb1 e he _ p hpm hbf with h1 | h1 | h1
      · exact notStd p (inDomain_unique (common_name hI.toIInv (i := 4) (by omega)).2.2 (ns_inDomain c h1) ▸ ns_inDomain c hpm) rfl
      · exact h1 hq.node
      · revert h1; decide
  · have hqn := hq.node
    rcases node_cases hI.toIInv hq.lt hqn with ⟨j, hj, rfl⟩ | ⟨e', he', hm⟩
    · exact absurd (inDomain_unique hq.dom (common_name hI.toIInv hj).2.2) hd0
    · have hd' := inDomain_unique hq.dom (ns_inDomain (hI.ph.cust e' he') hm)
      subst hd'
      have both : ∀ z, InDomain s.dom.ph z e.1 → InDomain s.dom.ph z e'.1 → False := fun z h1 h2 => hd (inDomain_unique h2 h1)
      have notStd' : ∀ z, InDomain s.dom.ph z 0 → z ≠ q := fun z hz e => hd0 (inDomain_unique (ns_inDomain (hI.ph.cust e' he') hm) (e ▸ hz))
      have n1 : ¬ Before (graph s) p q := fun hbf => by
        rcases nb1 e' he' p q hm hbf with h1 | h1 | h1
        · exact both p (ns_inDomain c hpm) (ns_inDomain (hI.ph.cust e' he') h1)
        · exact h1 hpn
        · exact notStd p (std p (by revert h1; simp; omega)) rfl
      have n2 : ¬ Before (graph s) q p := fun hbf => by
        rcases nb1 e he q p hpm hbf with h1 | h1 | h1
        · exact both q (ns_inDomain c h1) (ns_inDomain (hI.ph.cust e' he') hm)
        · exact h1 hqn
        · exact notStd' q (std q (by revert h1; simp; omega)) rfl
      exact ⟨n1, n2⟩

theorem getDomain_of {p : PS} {a d : Nat} (h : InDomain p a d) (h1 : p.kind a = .node) : ∀ n, (p.kind d = .domain ∧ (p.parent a = some d ∨ ∃ k, p.parent a = some k ∧ p.kind k = .schedule ∧ p.parent k = some d)) →
    Phase.getDomain p (n + 3) a = some d := by
  intro n hh
  obtain ⟨h2, h3 | ⟨k, h3, h4, h5⟩⟩ := hh
  · simp [Phase.getDomain, h1, h2, h3]
  · simp [Phase.getDomain, h1, h2, h3, h4, h5]

theorem takesPart_iff {s : State} {D : List (Nat × Nat × List Nat)} {F : List Nat} (h : IInv s D F) {c : Nat} {x : Comp} (hx : s.comps[c]? = some x) {a : Nat}
    (h1 : a < s.dom.ph.next) (h2 : s.dom.ph.kind a = .node) : takesPart s c a = true ↔ InDomain s.dom.ph a 0 ∨ InDomain s.dom.ph a x.domain := by
  have hle := h.ph.le
  obtain ⟨n, hn⟩ : ∃ n, s.dom.ph.next = n + 2 := ⟨s.dom.ph.next - 2, by omega⟩
  have key : ∃ d, InDomain s.dom.ph a d ∧ Phase.getDomain s.dom.ph (s.dom.ph.next + 1) a = some d := by
    rcases node_cases h h1 h2 with ⟨i, hi, rfl⟩ | ⟨e, he, hm⟩
    · obtain ⟨_, _, k3⟩ := common_name h hi
      refine ⟨0, k3, ?_⟩
      rw [hn]
      refine getDomain_of k3 h2 n ⟨(h.ph.std 0 (by omega)).1.trans (by decide +kernel), .inl ?_⟩
      have : ∀ i < 9, base.parent (3 + 2 * i) = some 0 := by decide +kernel
      exact (h.ph.std _ (by omega)).2.2.2.trans (this i hi)
    · have c := h.ph.cust e he
      refine ⟨e.1, ns_inDomain c hm, ?_⟩
      rw [hn]
      exact getDomain_of (ns_inDomain c hm) h2 n ⟨c.kd, .inr ⟨e.2.1, (c.nodes a hm).2.2, c.kk.1, c.kk.2⟩⟩
  obtain ⟨d, k1, k2⟩ := key
  have e1 : ∀ d', InDomain s.dom.ph a d' ↔ d = d' := fun d' => ⟨fun k => inDomain_unique k1 k, fun e => e ▸ k1⟩
  unfold takesPart
  simp only [k2, h.common, hx, Option.map_some, Bool.or_eq_true, beq_iff_eq, Option.some.injEq, e1]

/-- C271.  Every phase that is executed is one of the documented ones, and for each of their names a component takes part in exactly one phase: for a
common phase, that of the common domain; for a run-time phase, that of the domain of the component. -/
theorem C271_takes_part {s : State} (h : Reach s) (c : Nat) (x : Comp) (hx : s.comps[c]? = some x) :
    (∀ name ∈ docCommon, ∃ a, PhaseOf s 0 name a ∧ ∀ b, b < s.dom.ph.next → s.dom.ph.kind b = .node → nm s b = name → (takesPart s c b = true ↔ b = a)) ∧
    (∀ name ∈ docRuntime, ∃ a, PhaseOf s x.domain name a ∧ ∀ b, b < s.dom.ph.next → s.dom.ph.kind b = .node → nm s b = name → (takesPart s c b = true ↔ b = a)) ∧
    (∀ b, b < s.dom.ph.next → s.dom.ph.kind b = .node → nm s b ∈ docCommon ∨ nm s b ∈ docRuntime) := by
  obtain ⟨p1, p2, p3⟩ := C269_phases h
  obtain ⟨D, F, hI⟩ := inv_reach h
  have hxm := List.mem_of_getElem? hx
  have disj : ∀ n ∈ docCommon, n ∉ docRuntime := by decide
  refine ⟨fun name hn => ?_, fun name hn => ?_, fun b h1 h2 => ?_⟩
  · obtain ⟨a, ha⟩ := p3 name hn
    refine ⟨a, (ha a).2 rfl, fun b h1 h2 h3 => ?_⟩
    rw [takesPart_iff hI.toIInv hx h1 h2, ← ha b]
    constructor
    · rintro (h4 | h4)
      · exact ⟨h1, h2, h3, h4⟩
      · exact absurd (p2 x hxm name b ⟨h1, h2, h3, h4⟩) (disj name hn)
    · intro hb; exact .inl hb.dom
  · obtain ⟨a, ha⟩ := p1 x hxm name hn
    refine ⟨a, (ha a).2 rfl, fun b h1 h2 h3 => ?_⟩
    rw [takesPart_iff hI.toIInv hx h1 h2, ← ha b]
    constructor
    · rintro (h4 | h4)
      · obtain ⟨i, _, _, h5⟩ := (phaseOf_common_iff hI.toIInv).1 (⟨h1, h2, h3, h4⟩ : PhaseOf s 0 name b)
        exact absurd hn (disj name (List.mem_of_getElem? h5))
      · exact ⟨h1, h2, h3, h4⟩
    · intro hb; exact .inr hb.dom
  · rcases node_cases hI.toIInv h1 h2 with ⟨i, hi, rfl⟩ | ⟨e, he, hm⟩
    · exact .inl (List.mem_of_getElem? (common_name hI.toIInv hi).1)
    · obtain ⟨i, hi, rfl⟩ := List.getElem_of_mem hm
      exact .inr (List.mem_of_getElem? (ns_name hI.toIInv he (List.getElem?_eq_getElem hi)))

/-- C269.  The run phase and the run-time phases of every domain consume time, the other phases do not. -/
theorem C269_kinds {s : State} (h : Reach s) (d a : Nat) (name : String) (ha : PhaseOf s d name a) :
    (graph s).kind a = if name = "run" ∨ name ∈ docRuntime then .task else .func := by
  obtain ⟨D, F, hI⟩ := inv_reach h
  have h0 : name ∈ docCommon ∨ name ∈ docRuntime := by
    rw [← ha.name]
    rcases node_cases hI.toIInv ha.lt ha.node with ⟨i, hi, rfl⟩ | ⟨e, he, hm⟩
    · exact .inl (List.mem_of_getElem? (common_name hI.toIInv hi).1)
    · obtain ⟨i, hi, rfl⟩ := List.getElem_of_mem hm
      exact .inr (List.mem_of_getElem? (ns_name hI.toIInv he (List.getElem?_eq_getElem hi)))
  have hn : Domain.nodeName s.dom a = some name := by
    have := ha.name
    unfold nm at this
    rw [hI.topN a ha.lt (by rw [ha.node]; decide) (by rw [ha.node]; decide), ha.node] at this
    cases hd : Domain.nodeName s.dom a with
    | some n => rw [hd] at this; exact congrArg some this
    | none =>
      rw [hd] at this
      change "" = name at this
      subst this
      revert h0; decide
  simp only [graph, ha.node, ha.lt, and_self, if_true, hn, Domain.kindOf]
  rfl

/-- C270: a domain called "uvm_sched" is taken for its own schedule: components put into it have no run-time phases. -/
theorem C270_name_fails : (step (run [.newDomain "uvm_sched", .newComp 0]) (.setDomain 1 48 true)).2 = true ∧
    (run [.newDomain "uvm_sched", .newComp 0, .setDomain 1 48 true]).comps[1]? = some ⟨some 0, 48⟩ ∧ ∀ a name, ¬ PhaseOf (run [.newDomain "uvm_sched", .newComp 0, .setDomain 1 48 true]) 48 name a := by
  refine ⟨by decide +kernel, by decide +kernel, fun a name h => ?_⟩
  have hn : (run [.newDomain "uvm_sched", .newComp 0, .setDomain 1 48 true]).dom.ph.next = 50 := by decide +kernel
  have h1 := h.lt
  rw [hn] at h1
  have hd := h.dom
  have key : ∀ a < 50, (run [.newDomain "uvm_sched", .newComp 0, .setDomain 1 48 true]).dom.ph.kind a = .node → (run [.newDomain "uvm_sched", .newComp 0, .setDomain 1 48 true]).dom.ph.parent a = some 0 ∨ (run [.newDomain "uvm_sched", .newComp 0, .setDomain 1 48 true]).dom.ph.parent a = some 22 := by decide +kernel
  have k0 : (run [.newDomain "uvm_sched", .newComp 0, .setDomain 1 48 true]).dom.ph.kind 0 = .domain := by decide +kernel
  have k20 : (run [.newDomain "uvm_sched", .newComp 0, .setDomain 1 48 true]).dom.ph.kind 20 = .domain := by decide +kernel
  have k22 : (run [.newDomain "uvm_sched", .newComp 0, .setDomain 1 48 true]).dom.ph.kind 22 = .schedule ∧ (run [.newDomain "uvm_sched", .newComp 0, .setDomain 1 48 true]).dom.ph.parent 22 = some 20 := by decide +kernel
  have kn := h.node
  generalize (run [.newDomain "uvm_sched", .newComp 0, .setDomain 1 48 true]).dom.ph = p at *
  rcases key a h1 kn with h2 | h2
  · have : InDomain p a 0 := .up (by rw [kn]; decide) h2 (.here k0)
    have := inDomain_unique hd this
    omega
  · have : InDomain p a 20 := .up (by rw [kn]; decide) h2 (.up (by rw [k22.1]; decide) k22.2 (.here k20))
    have := inDomain_unique hd this
    omega

/-- C270: when a component is put into the common domain, that domain gets run-time phases after `final`. -/
theorem C270_common_fails : (run [.newComp 0, .setDomain 1 0 true]).comps[1]? = some ⟨some 0, 0⟩ ∧
    PhaseOf (run [.newComp 0, .setDomain 1 0 true]) 0 "final" 19 ∧ PhaseOf (run [.newComp 0, .setDomain 1 0 true]) 0 "pre_reset" 50 ∧
    Before (graph (run [.newComp 0, .setDomain 1 0 true])) 19 50 := by
  refine ⟨by decide +kernel, ⟨by decide +kernel, by decide +kernel, by decide +kernel, ?_⟩, ⟨by decide +kernel, by decide +kernel, by decide +kernel, ?_⟩, ?_⟩
  · exact .up (b := 0) (by decide +kernel) (by decide +kernel) (.here (by decide +kernel))
  · exact .up (b := 48) (by decide +kernel) (by decide +kernel) (.up (b := 0) (by decide +kernel) (by decide +kernel) (.here (by decide +kernel)))
  · exact .step (b := 48) (.step (b := 19) (.refl _) (by decide +kernel)) (by decide +kernel)

/-- Phases of the two domains of the test above, in an execution that gets to `build`. -/
example : PhaseOf (run two) 48 "reset" 55 ∧ PhaseOf (run two) 50 "reset" 69 ∧ DocBefore "reset" "main" ∧
    ((PhaseRun.run (graph (run two)) {} [.spawn, .adv 0, .adv 0, .adv 0, .adv 0, .adv 0, .adv 0, .spawn, .adv 3, .adv 3, .adv 3]).log.any (· == (3, St.started))) = true := by
  refine ⟨⟨by decide +kernel, by decide +kernel, by decide +kernel, ?_⟩, ⟨by decide +kernel, by decide +kernel, by decide +kernel, ?_⟩, by decide, by decide +kernel⟩
  · exact .up (b := 52) (by decide +kernel) (by decide +kernel) (.up (b := 48) (by decide +kernel) (by decide +kernel) (.here (by decide +kernel)))
  · exact .up (b := 66) (by decide +kernel) (by decide +kernel) (.up (b := 50) (by decide +kernel) (by decide +kernel) (.here (by decide +kernel)))

example : takesPart (run two) 1 55 = true ∧ takesPart (run two) 3 55 = false ∧ takesPart (run two) 3 69 = true ∧ takesPart (run two) 3 3 = true := by decide +kernel

end Verif.CompDomain
