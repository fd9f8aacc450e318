import Verif.Spec.TlmIf
import Verif.Lemmas.Port
/-!
# C282-C285: TLM interfaces and calls through ports
-/
namespace Verif.TlmIf
open Verif

theorem allCls_all (c : Cls) : c ∈ allCls := by cases c <;> decide

/-! ## C282: a connection is accepted if the provider offers the interface -/

/-- Every provider that offers all the methods of a port (masters and slaves: one of its side) is accepted. -/
theorem C282_accepted (a b : Cls) (h : Offers a b) (hs : side a = none ∨ side a = side b) : Accepts a b := by
  have h1 : ∀ a ∈ allCls, ∀ b ∈ allCls, Offers a b → side a = none ∨ side a = side b → Accepts a b := by decide +kernel
  exact h1 a (allCls_all a) b (allCls_all b) h hs

example : Offers .blockingGet .getPeek ∧ Accepts .blockingGet .getPeek ∧ Offers .blockingSlave .slave ∧ ¬ Offers .getC .blockingGet := by decide

theorem allMeth (m : Meth) : m ∈ [Meth.put, .tryPut, .canPut, .get, .tryGet, .canGet, .peek, .tryPeek, .canPeek, .transport, .nbTransport,
    .write, .disableRec, .isRec, .getNextItem, .tryNextItem, .itemDone, .waitForSequences, .hasDoAvailable, .putResponse] := by
  cases m <;> decide

/-- The TLM interfaces have exactly the methods their names promise. -/
theorem C282_methods (c : Cls) (hc : c ≠ .analysis ∧ c ≠ .seqItemPull) (m : Meth) :
    m ∈ meths c ↔ ∃ k ∈ kinds c, (blocking c = true ∧ m ∈ blockingOf k) ∨ (nonblocking c = true ∧ m ∈ nonblockingOf k) := by
  have h1 : ∀ c ∈ allCls, c ≠ .analysis ∧ c ≠ .seqItemPull → ∀ m ∈ [Meth.put, .tryPut, .canPut, .get, .tryGet, .canGet, .peek,
      .tryPeek, .canPeek, .transport, .nbTransport, .write, .disableRec, .isRec, .getNextItem, .tryNextItem, .itemDone,
      .waitForSequences, .hasDoAvailable, .putResponse],
      (m ∈ meths c ↔ ∃ k ∈ kinds c, (blocking c = true ∧ m ∈ blockingOf k) ∨ (nonblocking c = true ∧ m ∈ nonblockingOf k)) := by
    decide +kernel
  exact h1 c (allCls_all c) hc m (allMeth m)

example : Meth.tryPeek ∈ meths .nonblockingMaster ∧ Meth.peek ∉ meths .nonblockingMaster := by decide

/-- Masters are never accepted by slaves, nor slaves by masters, nor either by anything else. -/
theorem C282_sides (a b : Cls) (h : Accepts a b) (hs : side a ≠ none) : side b = side a := by
  have h1 : ∀ a ∈ allCls, ∀ b ∈ allCls, Accepts a b → side a ≠ none → side b = side a := by decide +kernel
  exact h1 a (allCls_all a) b (allCls_all b) h hs

/-! ## C283: an accepted provider offers every method -/

/-- The accepted connections that lack methods are exactly the colliding pairs. -/
theorem C283_collision_fails (a b : Cls) : (Accepts a b ∧ ¬ Offers a b) ↔ Collides a b := by
  have h1 : ∀ a ∈ allCls, ∀ b ∈ allCls, (Accepts a b ∧ ¬ Offers a b) ↔ Collides a b := by decide +kernel
  exact h1 a (allCls_all a) b (allCls_all b)

example : Accepts .blockingTransport .putC ∧ ¬ Offers .blockingTransport .putC := by decide

/-- Apart from these, accepted providers offer every method: in particular all among put, get, peek, master and slave interfaces. -/
theorem C283_offers_partial (a b : Cls) (h : Accepts a b)
    (hc : ¬ Collides a b ∨ (a ∉ [.blockingTransport] ∧ b ∉ [.seqItemPull, .blockingTransport, .transportC])) : Offers a b := by
  have h1 : ∀ a ∈ allCls, ∀ b ∈ allCls, Accepts a b →
      ¬ Collides a b ∨ (a ∉ [.blockingTransport] ∧ b ∉ [.seqItemPull, .blockingTransport, .transportC]) → Offers a b := by decide +kernel
  exact h1 a (allCls_all a) b (allCls_all b) h hc

example : Accepts .nonblockingPut .slave ∧ Accepts .getC .getPeek ∧ ¬ Collides .getC .getPeek := by decide

/-! ## C284: calls reach the implementation -/

theorem mask_built (nm : Nat → String) (calls : List (Nat × Option Nat)) : ∀ (s : Port.State) (p : Nat),
    ((calls.foldl (fun s c => (Port.connect nm s c.1 c.2).1) s).node p).mask = (s.node p).mask ∧
    ((calls.foldl (fun s c => (Port.connect nm s c.1 c.2).1) s).node p).kind = (s.node p).kind := by
  induction calls with
  | nil => intro s p; exact ⟨rfl, rfl⟩
  | cons c cs ih =>
    intro s p
    rw [List.foldl_cons, (ih _ p).1, (ih _ p).2]
    by_cases hd : (Port.connect nm s c.1 c.2).2 = .done
    · obtain ⟨q, hq, hne, _⟩ := Port.connect_done_conds nm s _ _ hd
      rw [hq] at hd ⊢
      obtain ⟨e1, e2, e3, _⟩ := Port.connect_nodes nm s c.1 q hne hd
      by_cases h1 : p = c.1
      · subst h1; rw [e1]; exact ⟨rfl, rfl⟩
      · by_cases h2 : p = q
        · subst h2; rw [e2]; exact ⟨rfl, rfl⟩
        · rw [e3 p h1 h2]; exact ⟨rfl, rfl⟩
    · rw [Port.connect_refused nm s _ _ hd]; exact ⟨rfl, rfl⟩

/-- Every connection of a network satisfies the interface check. -/
theorem conn_accepts {nm : Nat → String} (hn : ∀ a b, nm a = nm b → a = b) {node : Nat → Port.Node} (hf : Port.Fresh node)
    (calls : List (Nat × Option Nat)) (p q : Nat) (h : Port.Conn (Port.built nm node calls) p q) :
    (node q).mask &&& (node p).mask = (node p).mask := by
  have key : ∀ (calls : List (Nat × Option Nat)) (s : Port.State), Port.Built nm s →
      (∀ p q, Port.Conn s p q → (s.node q).mask &&& (s.node p).mask = (s.node p).mask) →
      ∀ p q, Port.Conn (calls.foldl (fun s c => (Port.connect nm s c.1 c.2).1) s) p q →
        (s.node q).mask &&& (s.node p).mask = (s.node p).mask := by
    intro calls
    induction calls with
    | nil => intro s _ h p q hc; exact h p q hc
    | cons c cs ih =>
      intro s hb h p q hc
      have hm := mask_built nm [c] s
      simp only [List.foldl_cons, List.foldl_nil] at hm
      rw [List.foldl_cons] at hc
      have := ih (Port.connect nm s c.1 c.2).1 (Port.connect_built hn hb c.1 c.2) ?_ p q hc
      · rw [(hm p).1, (hm q).1] at this; exact this
      · intro p q hc
        rw [(hm p).1, (hm q).1]
        by_cases hd : (Port.connect nm s c.1 c.2).2 = .done
        · obtain ⟨x, hx, hne, hmask, _⟩ := Port.connect_done_conds nm s _ _ hd
          rw [hx] at hd hc
          obtain ⟨e1, e2, e3, _⟩ := Port.connect_nodes nm s c.1 x hne hd
          obtain ⟨k, hk⟩ := hc
          by_cases h1 : p = c.1
          · rw [h1, e1] at hk
            obtain ⟨l, hl⟩ := hb.keys c.1
            simp only [hl, Port.assign_entries hn] at hk
            rw [Port.mem_entries] at hk
            by_cases hxl : x ∈ l
            · rw [if_pos hxl] at hk
              rw [h1]
              exact h c.1 q ⟨nm q, by rw [hl, Port.mem_entries]; exact ⟨rfl, hk.2⟩⟩
            · rw [if_neg hxl] at hk
              rcases List.mem_append.1 hk.2 with h2 | h2
              · rw [h1]
                exact h c.1 q ⟨nm q, by rw [hl, Port.mem_entries]; exact ⟨rfl, h2⟩⟩
              · rw [h1, List.mem_singleton.1 h2]; exact hmask
          · have : (((Port.connect nm s c.1 (some x)).1).node p).providedBy = (s.node p).providedBy := by
              by_cases h2 : p = x
              · rw [h2, e2]
              · rw [e3 p h1 h2]
            rw [this] at hk
            exact h p q ⟨k, hk⟩
        · rw [Port.connect_refused nm s _ _ hd] at hc
          exact h p q hc
  have h0 := Port.built_ok hn hf []
  exact key calls ⟨node, []⟩ h0 (fun p q hc => by
    obtain ⟨k, hk⟩ := hc
    rw [(hf p).1] at hk
    cases hk) p q h

theorem and_trans {a b c : Nat} (h : b &&& a = a) (k : c &&& b = b) : c &&& a = a := by
  rw [← h, ← Nat.and_assoc, k]

theorem reaches_accepts {nm : Nat → String} (hn : ∀ a b, nm a = nm b → a = b) {node : Nat → Port.Node} (hf : Port.Fresh node)
    {cls : Nat → Cls} (ht : Typed node cls) (calls : List (Nat × Option Nat)) (p i : Nat)
    (h : Port.Reaches (Port.built nm node calls) p i) : Accepts (cls p) (cls i) := by
  unfold Accepts
  rw [← ht p, ← ht i]
  induction h with
  | here i _ => exact Nat.and_self _
  | via hc _ ih => exact and_trans (conn_accepts hn hf calls _ _ hc) ih

/-- After any connections and any order of binding, a call of a method of a port that leads to some implementation is
forwarded to exactly one, the first in connection order, and there to the component that plays the documented part; the
result of a function comes back.  (Where the interfaces do not collide.) -/
theorem C284_call_partial (nm : Nat → String) (hn : ∀ a b, nm a = nm b → a = b) (node : Nat → Port.Node) (hf : Port.Fresh node)
    (cls : Nat → Cls) (ht : Typed node cls) (calls : List (Nat × Option Nat)) (rank : Nat → Nat)
    (ha : Port.Acyclic (Port.built nm node calls) rank) (depth : Nat) (ps : List Nat) (hd : ∀ p ∈ ps, rank p < depth)
    (p : Nat) (hp : p ∈ ps) (hk : (node p).kind ≠ .imp) (m : Meth) (hm : m ∈ meths (cls p)) (hw : m ≠ .write)
    (hcl : ∀ i, Port.Reaches (Port.built nm node calls) p i → ¬ Collides (cls p) (cls i))
    (i : Nat) (hi : (Port.order (Port.built nm node calls) (rank p + 1) p).head? = some i) :
    Port.Reaches (Port.built nm node calls) p i ∧
    ∃ r v, call (network nm node cls calls depth ps) p m = [.reached i r v] ∧ (HasResult m → v = true) ∧
      (side (cls i) = some true → r = if m ∈ [.put, .tryPut, .canPut] then .req else .rsp) ∧
      (side (cls i) = some false → r = if m ∈ [.put, .tryPut, .canPut] then .rsp else .req) ∧
      (side (cls i) = none → r = .imp) := by
  have hb := Port.built_ok hn hf calls
  have A := Port.resolveAll_post hn ha depth ps hd (Port.built nm node calls) (Port.Static.refl _)
    (fun r => ⟨fun h => absurd h (by simp [(hb.blank r).2]), fun _ => (hb.blank r).1⟩)
  have him := (A.good p).done (A.isDone p hp)
  have hre : Port.Reaches (Port.built nm node calls) p i := by
    rw [← Port.mem_order hb ha (rank p + 1) p i (Nat.lt_succ_self _)]
    exact List.mem_of_mem_head? hi
  have hof : m ∈ meths (cls i) :=
    C283_offers_partial _ _ (reaches_accepts hn hf ht calls p i hre) (.inl (hcl i hre)) m hm
  have hkind : ((Port.resolveAll nm depth (Port.built nm node calls) ps).node p).kind ≠ .imp := by
    rw [A.static.kind p, show Port.built nm node calls = calls.foldl (fun s c => (Port.connect nm s c.1 c.2).1) ⟨node, []⟩ from rfl,
      (mask_built nm calls ⟨node, []⟩ p).2]
    exact hk
  have hif : (network nm node cls calls depth ps).mIf p = some i := by
    show (if _ ∧ _ then Port.getIf _ p 0 else none) = _
    have h1 : ((Port.resolveAll nm depth (Port.built nm node calls) ps).node p).imps.head?.map (·.2) = some i := by
      rw [him]
      unfold Port.entries
      rw [List.head?_map, hi]
      rfl
    have h2 : 0 < ((Port.resolveAll nm depth (Port.built nm node calls) ps).node p).imps.length := by
      cases h3 : ((Port.resolveAll nm depth (Port.built nm node calls) ps).node p).imps with
      | nil => rw [h3] at h1; cases h1
      | cons x l => exact Nat.succ_pos _
    rw [if_pos ⟨A.isDone p hp, h2⟩]
    unfold Port.getIf
    rw [← List.head?_eq_getElem?]
    exact h1
  refine ⟨hre, role (cls i) m, returns m, ?_, ?_, ?_, ?_, ?_⟩
  · have hcls : (network nm node cls calls depth ps).cls = cls := rfl
    have hport : (network nm node cls calls depth ps).port = Port.resolveAll nm depth (Port.built nm node calls) ps := rfl
    unfold call
    rw [hport, if_neg hkind, hcls, if_pos hm, if_neg hw, hif]
    simp [callImp, hcls, hof]
  · cases m <;> simp [HasResult, returns]
  · clear hcl hi hre hif
    revert hof
    generalize cls i = c
    intro hof hs
    have h1 : ∀ c ∈ allCls, side c = some true → ∀ m ∈ meths c, role c m = if m ∈ [.put, .tryPut, .canPut] then .req else .rsp := by decide +kernel
    exact h1 c (allCls_all c) hs m hof
  · clear hcl hi hre hif
    revert hof
    generalize cls i = c
    intro hof hs
    have h1 : ∀ c ∈ allCls, side c = some false → ∀ m ∈ meths c, role c m = if m ∈ [.put, .tryPut, .canPut] then .rsp else .req := by decide +kernel
    exact h1 c (allCls_all c) hs m hof
  · generalize cls i = c
    intro hs
    cases c <;> first | rfl | (cases hs)

/-- A write on an analysis port calls `write` of every implementation reached that is no sequencer, once each. -/
theorem C284_write_partial (nm : Nat → String) (hn : ∀ a b, nm a = nm b → a = b) (node : Nat → Port.Node) (hf : Port.Fresh node)
    (cls : Nat → Cls) (ht : Typed node cls) (calls : List (Nat × Option Nat)) (rank : Nat → Nat)
    (ha : Port.Acyclic (Port.built nm node calls) rank) (depth : Nat) (ps : List Nat) (hd : ∀ p ∈ ps, rank p < depth)
    (p : Nat) (hp : p ∈ ps) (hk : (node p).kind ≠ .imp) (hc : cls p = .analysis)
    (hsq : ∀ i, cls i = .seqItemPull → ¬ Port.Reaches (Port.built nm node calls) p i) :
    call (network nm node cls calls depth ps) p .write =
      (Port.order (Port.built nm node calls) (rank p + 1) p).map fun i => .reached i .imp false := by
  have hb := Port.built_ok hn hf calls
  have A := Port.resolveAll_post hn ha depth ps hd (Port.built nm node calls) (Port.Static.refl _)
    (fun r => ⟨fun h => absurd h (by simp [(hb.blank r).2]), fun _ => (hb.blank r).1⟩)
  have him := (A.good p).done (A.isDone p hp)
  have hkind : ((Port.resolveAll nm depth (Port.built nm node calls) ps).node p).kind ≠ .imp := by
    rw [A.static.kind p, show Port.built nm node calls = calls.foldl (fun s c => (Port.connect nm s c.1 c.2).1) ⟨node, []⟩ from rfl,
      (mask_built nm calls ⟨node, []⟩ p).2]
    exact hk
  have hcls : (network nm node cls calls depth ps).cls = cls := rfl
  have hport : (network nm node cls calls depth ps).port = Port.resolveAll nm depth (Port.built nm node calls) ps := rfl
  unfold call
  rw [hport, if_neg hkind, hcls, hc, if_pos (by decide), if_pos rfl, Port.write_eq, him, Port.entries_vals, List.map_map]
  refine List.map_congr_left fun i hi => ?_
  have hre := (Port.mem_order hb ha (rank p + 1) p i (Nat.lt_succ_self _)).1 hi
  have hac := reaches_accepts hn hf ht calls p i hre
  have hne : cls i ≠ .seqItemPull := fun h => hsq i h hre
  rw [hc] at hac
  have h1 : ∀ c ∈ allCls, Accepts .analysis c → c ≠ .seqItemPull → c = .analysis := by decide +kernel
  have h2 := h1 (cls i) (allCls_all _) hac hne
  show callImp _ i .write = _
  unfold callImp
  rw [hcls, h2]
  rfl

/-- A blocking transport port connected to a put imp: the call raises for want of the method. -/
theorem C284_transport_fails : ∃ (nm : Nat → String) (node : Nat → Port.Node) (cls : Nat → Cls), Port.Fresh node ∧ Typed node cls ∧
    cls 0 = .blockingTransport ∧ (Port.connect nm ⟨node, []⟩ 0 (some 1)).2 = .done ∧
    call (network nm node cls [(0, some 1)] 2 [1, 0]) 0 .transport = [.noMethod 1] := by
  refine ⟨fun n => if n = 0 then "a" else "b", fun n => if n = 0 then Port.fresh .port 16 1 1 else Port.fresh .imp 17 1 1,
    fun n => if n = 0 then .blockingTransport else .putC, ?_, ?_, rfl, by decide, by decide⟩
  · intro p; by_cases h : p = 0 <;> simp [h, Port.fresh]
  · intro p
    by_cases h : p = 0
    · simp only [h, if_true]; decide
    · simp only [h, if_false]; decide

namespace Sample
def nm (n : Nat) : String := String.ofList (List.replicate n 'x')
/-- A get port 0, exports 1 and 2, imps 3 and 4; and a master port 5 with its imp 6. -/
def cls (n : Nat) : Cls := if n = 0 then .blockingGet else if n < 5 then .getPeek else .master
def node (n : Nat) : Port.Node :=
  Port.fresh (if n = 0 ∨ n = 5 then .port else if n < 3 then .export else .imp) (mask (cls n)) 1 (-1)
def calls : List (Nat × Option Nat) := [(0, some 1), (0, some 2), (1, some 4), (2, some 3), (5, some 6)]
example : Typed node cls := fun _ => rfl
example : (Port.order (Port.built nm node calls) 6 0) = [4, 3] := by decide
example : call (network nm node cls calls 6 [0, 1, 2, 3, 4, 5, 6]) 0 .get = [.reached 4 .imp false] ∧
    call (network nm node cls calls 6 [0, 1, 2, 3, 4, 5, 6]) 5 .tryPut = [.reached 6 .req true] ∧
    call (network nm node cls calls 6 [0, 1, 2, 3, 4, 5, 6]) 5 .peek = [.reached 6 .rsp false] ∧
    call (network nm node cls calls 6 [0, 1, 2, 3, 4, 5, 6]) 0 .peek = [.noMethod 0] := by decide
example : ∀ p q, p < 7 → Port.Conn (Port.built nm node calls) p q → (fun n => 7 - n) q < (fun n => 7 - n) p := by
  intro p q hp ⟨k, hk⟩
  have e : ∀ p, p < 7 → ∀ x ∈ ((Port.built nm node calls).node p).providedBy, 7 - x.2 < 7 - p := by decide
  exact e p hp _ hk
end Sample

/-! ## C285: choosing among several implementations -/

/-- `set_default_index` has no effect on any call. -/
theorem C285_default_index_fails (n : Net) (p i q : Nat) (m : Meth) : call (setDefaultIndex n p i) q m = call n q m := rfl

/-- `set_if(i)` makes the calls of that port go to the implementation with that index, and no other port's; with an index out of
range the next call raises. -/
theorem C285_set_if_partial (n : Net) (p i : Nat) (hk : (n.port.node p).kind ≠ .imp) (m : Meth) (hm : m ∈ meths (n.cls p)) (hw : m ≠ .write) :
    (∀ q, (n.port.node p).imps[i]?.map (·.2) = some q → m ∈ meths (n.cls q) →
      call (setIf n p i) p m = [.reached q (role (n.cls q) m) (returns m)]) ∧
    ((n.port.node p).imps.length ≤ i → call (setIf n p i) p m = [.notBound]) ∧
    (∀ r m', r ≠ p → call (setIf n p i) r m' = call n r m') := by
  have hc : (setIf n p i).cls = n.cls := rfl
  have hp : (setIf n p i).port = n.port := rfl
  have hi : (setIf n p i).mIf p = Port.getIf n.port p i := by simp [setIf]
  refine ⟨fun q hq hmq => ?_, fun hl => ?_, fun r m' hr => ?_⟩
  · unfold call
    rw [hp, if_neg hk, hc, if_pos hm, if_neg hw, hi]
    unfold Port.getIf
    rw [hq]
    simp [callImp, hc, hmq]
  · unfold call
    rw [hp, if_neg hk, hc, if_pos hm, if_neg hw, hi]
    unfold Port.getIf
    rw [List.getElem?_eq_none hl]
    rfl
  · have h1 : (setIf n p i).mIf r = n.mIf r := by simp [setIf, hr]
    unfold call callImp
    rw [hp, hc, h1]

open Sample in
example : call (setIf (network nm node cls calls 6 [0, 1, 2, 3, 4, 5, 6]) 0 1) 0 .get = [.reached 3 .imp false] ∧
    call (setIf (network nm node cls calls 6 [0, 1, 2, 3, 4, 5, 6]) 0 2) 0 .get = [.notBound] ∧
    call (setDefaultIndex (network nm node cls calls 6 [0, 1, 2, 3, 4, 5, 6]) 0 1) 0 .get = [.reached 4 .imp false] := by decide

end Verif.TlmIf
