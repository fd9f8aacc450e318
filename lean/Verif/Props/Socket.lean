import Verif.Spec.Socket
import Verif.Props.TlmIf
/-!
# C286-C289: TLM2 sockets
-/
namespace Verif.Socket
open Verif

/-! ## Sockets as ports -/

def expand (ty : Nat → Ty) (c : Nat × Option Nat) : List (Nat × Option Nat) :=
  (fw c.1, c.2.map fw) :: match c.2 with
    | none => []
    | some b => if (ty c.1).role = .init ∧ validForInit (ty c.1) (ty b) = true ∧ (ty c.1).nb = true then [(bw b, some (bw c.1))] else []

theorem connect_expand (nm : Nat → String) (ty : Nat → Ty) (s : Port.State) (c : Nat × Option Nat) :
    (connect nm ty s c.1 c.2).1 = (expand ty c).foldl (fun s c => (Port.connect nm s c.1 c.2).1) s := by
  obtain ⟨a, b⟩ := c
  cases b with
  | none =>
    simp only [connect, expand, Option.map, List.foldl_cons, List.foldl_nil]
    split <;> rfl
  | some b =>
    simp only [connect, expand, Option.map]
    by_cases h1 : (ty a).role = .init
    · by_cases h2 : validForInit (ty a) (ty b) = true
      · by_cases h3 : (ty a).nb = true
        · simp [h1, h2, h3]
        · simp [h1, h2, h3]
      · simp [h1, h2]
    · simp [h1]

theorem built_port (nm : Nat → String) (ty : Nat → Ty) (l : List (Nat × Option Nat)) :
    built nm ty l = Port.built nm (node ty) (l.flatMap (expand ty)) := by
  unfold built Port.built connects
  generalize (⟨node ty, []⟩ : Port.State) = s
  induction l generalizing s with
  | nil => rfl
  | cons c l ih => rw [List.foldl_cons, List.flatMap_cons, List.foldl_append, connect_expand, ih]

theorem fresh_node (ty : Nat → Ty) : Port.Fresh (node ty) := by
  intro p
  unfold node
  by_cases h : p % 2 = 0 <;> simp [h, Port.fresh]

theorem built_fixed (nm : Nat → String) (ty : Nat → Ty) (l : List (Nat × Option Nat)) (p : Nat) :
    ((built nm ty l).node p).mask = (node ty p).mask ∧ ((built nm ty l).node p).kind = (node ty p).kind := by
  rw [built_port]
  exact TlmIf.mask_built nm _ ⟨node ty, []⟩ p

theorem node_fw (ty : Nat → Ty) (k : Nat) : node ty (fw k) = Port.fresh (fwKind (ty k).role) (fwMask (ty k)) 1 1 := by
  unfold node fw
  rw [Nat.mul_div_cancel_left k (by decide), if_pos (by omega)]
theorem node_bw (ty : Nat → Ty) (k : Nat) : node ty (bw k) = Port.fresh (bwKind (ty k).role) bwMask 1 1 := by
  unfold node bw
  rw [show (2 * k + 1) / 2 = k by omega, if_neg (by omega)]

theorem bw_inj {a b : Nat} (h : bw a = bw b) : a = b := by unfold bw at h; omega
theorem fw_ne_bw (a b : Nat) : fw a ≠ bw b := by unfold fw bw; omega

theorem cases_node (p : Nat) : (∃ k, p = fw k) ∨ ∃ k, p = bw k := by
  by_cases h : p % 2 = 0
  · exact .inl ⟨p / 2, by unfold fw; omega⟩
  · exact .inr ⟨p / 2, by unfold bw; omega⟩

theorem mIf_bound {nm : Nat → String} (hn : ∀ a b, nm a = nm b → a = b) {ty : Nat → Ty} {l : List (Nat × Option Nat)} {rank : Nat → Nat}
    (ha : Port.Acyclic (built nm ty l) rank) {depth : Nat} {ps : List Nat} (hd : ∀ p ∈ ps, rank p < depth) {p : Nat} (hp : p ∈ ps) :
    mIf (bound nm ty l depth ps) p = (Port.order (built nm ty l) (rank p + 1) p).head? := by
  have hb : Port.Built nm (built nm ty l) := by rw [built_port]; exact Port.built_ok hn (fresh_node ty) _
  have A := Port.resolveAll_post hn ha depth ps hd (built nm ty l) (Port.Static.refl _)
    (fun r => ⟨fun h => absurd h (by simp [(hb.blank r).2]), fun _ => (hb.blank r).1⟩)
  have him := (A.good p).done (A.isDone p hp)
  have hre := A.isDone p hp
  unfold mIf bound Port.getIf
  generalize Port.resolveAll nm depth (built nm ty l) ps = s at *
  rw [him]
  generalize Port.order (built nm ty l) (rank p + 1) p = o
  cases o with
  | nil => simp [Port.entries]
  | cons x o => simp [Port.entries, hre]

/-! ## C286: the forward path -/

/-- A transport call on an initiator or pass-through socket reaches the first target that its connections lead to, through any
number of pass-through sockets, and that target is of the same flavour; if they lead nowhere the call raises. -/
theorem C286_forward (nm : Nat → String) (hn : ∀ a b, nm a = nm b → a = b) (ty : Nat → Ty) (l : List (Nat × Option Nat)) (rank : Nat → Nat)
    (ha : Port.Acyclic (built nm ty l) rank) (depth : Nat) (ps : List Nat) (hd : ∀ p ∈ ps, rank p < depth) (k : Nat) (hp : fw k ∈ ps)
    (hk : (ty k).role ≠ .targ) (d : Nat) :
    (∀ p, (Port.order (built nm ty l) (rank (fw k) + 1) (fw k)).head? = some p →
      ∃ t, p = fw t ∧ Port.Reaches (built nm ty l) (fw k) (fw t) ∧ ty t = ⟨.targ, (ty k).nb⟩ ∧
        forward ty (bound nm ty l depth ps) k (ty k).nb (some d) = .reached t) ∧
    (Port.order (built nm ty l) (rank (fw k) + 1) (fw k) = [] →
      forward ty (bound nm ty l depth ps) k (ty k).nb (some d) = .notBound) := by
  have hb : Port.Built nm (built nm ty l) := by rw [built_port]; exact Port.built_ok hn (fresh_node ty) _
  have hm := mIf_bound hn ha hd hp
  refine ⟨fun p h => ?_, fun h => ?_⟩
  · have hre : Port.Reaches (built nm ty l) (fw k) p := by
      rw [← Port.mem_order hb ha (rank (fw k) + 1) (fw k) p (Nat.lt_succ_self _)]
      exact List.mem_of_mem_head? h
    have hki : ((built nm ty l).node p).kind = .imp := by
      clear hm h
      generalize fw k = q at hre
      induction hre with
      | here i hi => exact hi
      | via _ _ ih => exact ih
    have hacc : (node ty p).mask &&& (node ty (fw k)).mask = (node ty (fw k)).mask := by
      clear hm h hki
      rw [built_port] at hre
      generalize fw k = q at hre
      induction hre with
      | here i _ => exact Nat.and_self _
      | via hc _ ih => exact TlmIf.and_trans (TlmIf.conn_accepts hn (fresh_node ty) _ _ _ hc) ih
    rw [(built_fixed nm ty l p).2] at hki
    rcases cases_node p with ⟨t, rfl⟩ | ⟨t, rfl⟩
    · rw [node_fw] at hki
      rw [node_fw, node_fw] at hacc
      have h1 : (ty t).role = .targ := by
        revert hki
        show fwKind (ty t).role = .imp → _
        cases (ty t).role <;> simp [fwKind]
      have h2 : (ty t).nb = (ty k).nb := by
        revert hacc
        show fwMask (ty t) &&& fwMask (ty k) = fwMask (ty k) → _
        unfold fwMask
        cases (ty t).nb <;> cases (ty k).nb <;> decide
      have h3 : ty t = ⟨.targ, (ty k).nb⟩ := by rw [← h1, ← h2]
      refine ⟨t, rfl, hre, h3, ?_⟩
      unfold forward
      rw [hm, h]
      have h4 : fw t / 2 = t := by unfold fw; omega
      simp [hk, h4, h1, h2]
    · rw [node_bw, node_fw] at hacc
      exfalso
      revert hacc
      show bwMask &&& fwMask (ty k) = fwMask (ty k) → False
      unfold fwMask bwMask
      cases (ty k).nb <;> decide
  · unfold forward
    rw [hm, h]
    simp [hk]

/-- A call with a null delay is refused with an error, and calls nobody; on a target the component itself is called. -/
theorem C286_delay (ty : Nat → Ty) (s : Port.State) (k : Nat) (d : Nat) :
    forward ty s k (ty k).nb none = .nullDelay ∧ ((ty k).role = .targ → forward ty s k (ty k).nb (some d) = .reached k) ∧
    forward ty s k (!(ty k).nb) (some d) = .noMethod := by
  refine ⟨by simp [forward], fun h => by simp [forward, h], ?_⟩
  unfold forward
  cases (ty k).nb <;> simp

/-! ## C287: the backward path -/

theorem direct_snoc (ty : Nat → Ty) (b : Nat) (l : List (Nat × Option Nat)) (c : Nat × Option Nat) :
    direct ty b (l ++ [c]) = direct ty b l ++ if c.2 = some b ∧ (ty c.1).role = .init ∧ (ty c.1).nb = true then [c.1] else [] := by
  induction l with
  | nil =>
    obtain ⟨a, x⟩ := c
    simp only [List.nil_append, direct]
  | cons d l ih =>
    obtain ⟨a, x⟩ := d
    rw [List.cons_append]
    simp only [direct]
    rw [ih]
    split <;> rfl

theorem snocI {α : Type} {P : List α → Prop} (h0 : P []) (h1 : ∀ l a, P l → P (l ++ [a])) (l : List α) : P l := by
  rw [← List.reverse_reverse l]
  induction l.reverse with
  | nil => exact h0
  | cons a m ih => rw [List.reverse_cons]; exact h1 _ _ ih

theorem head_firsts (l : List Nat) : (Port.firsts l).head? = l.head? := by cases l <;> rfl

theorem connect_by (nm : Nat → String) (s : Port.State) (p : Nat) (x : Option Nat) (r : Nat) (hr : r ≠ p) :
    (((Port.connect nm s p x).1).node r).providedBy = (s.node r).providedBy := by
  by_cases hd : (Port.connect nm s p x).2 = .done
  · obtain ⟨q, rfl, hne, _⟩ := Port.connect_done_conds nm s p x hd
    obtain ⟨_, e2, e3, _⟩ := Port.connect_nodes nm s p q hne hd
    by_cases h : r = q
    · subst h; rw [e2]
    · rw [e3 r hr h]
  · rw [Port.connect_refused nm s p x hd]

theorem connect_done {nm : Nat → String} {s : Port.State} {p q : Nat} (hne : q ≠ p) (hm : (s.node q).mask &&& (s.node p).mask = (s.node p).mask)
    (hk : (s.node p).kind ≠ .imp) (hq : (s.node q).kind = .imp) : (Port.connect nm s p (some q)).2 = .done := by
  rw [Port.connect, if_neg hne, if_neg (by simpa using hm), if_neg hk, if_neg (by rw [hq]; exact fun h => nomatch h.2)]

theorem fixed_connect (nm : Nat → String) (s : Port.State) (p : Nat) (x : Option Nat) (r : Nat) :
    (((Port.connect nm s p x).1).node r).mask = (s.node r).mask ∧ (((Port.connect nm s p x).1).node r).kind = (s.node r).kind := by
  have := TlmIf.mask_built nm [(p, x)] s r
  simpa using this

/-- The providers of the backward port of a socket: the initiators connected directly to it. -/
theorem back_providers {nm : Nat → String} (hn : ∀ a b, nm a = nm b → a = b) (ty : Nat → Ty) (b : Nat) (hb : (ty b).nb = true)
    (hr : (ty b).role ≠ .init) (l : List (Nat × Option Nat)) :
    ((built nm ty l).node (bw b)).providedBy = Port.entries nm ((Port.firsts (direct ty b l)).map bw) := by
  refine snocI (P := fun l => ((built nm ty l).node (bw b)).providedBy = Port.entries nm ((Port.firsts (direct ty b l)).map bw)) ?_ ?_ l
  · show (node ty (bw b)).providedBy = []
    exact (fresh_node ty _).1
  · intro l c ih
    have hfx := built_fixed nm ty l
    have e : built nm ty (l ++ [c]) = (connect nm ty (built nm ty l) c.1 c.2).1 := by
      unfold built connects
      rw [List.foldl_append]
      rfl
    rw [e, direct_snoc]
    generalize built nm ty l = s at *
    obtain ⟨a, x⟩ := c
    have h1 := connect_by nm s (fw a) (x.map fw) (bw b) (Ne.symm (fw_ne_bw a b))
    have hfx1 : ∀ r, ((Port.connect nm s (fw a) (x.map fw)).1.node r).mask = (node ty r).mask ∧
        ((Port.connect nm s (fw a) (x.map fw)).1.node r).kind = (node ty r).kind := fun r =>
      ⟨by rw [(fixed_connect nm s _ _ r).1, (hfx r).1], by rw [(fixed_connect nm s _ _ r).2, (hfx r).2]⟩
    rw [ih] at h1
    unfold connect
    generalize Port.connect nm s (fw a) (x.map fw) = r at *
    by_cases hi : (ty a).role = .init
    · cases x with
      | none => simp only [hi, if_true]; rw [h1]; simp
      | some b' =>
        simp only [hi, if_true]
        by_cases hv : validForInit (ty a) (ty b') = true
        · simp only [hv, if_true]
          by_cases hnb : (ty a).nb = true
          · simp only [hnb, if_true]
            by_cases hbb : b' = b
            · subst hbb
              have hd : (Port.connect nm r.1 (bw b') (some (bw a))).2 = .done := by
                refine connect_done (fun h => ?_) ?_ ?_ ?_
                · rw [bw_inj h] at hi; exact hr hi
                · rw [(hfx1 _).1, (hfx1 _).1, node_bw, node_bw]; exact Nat.and_self bwMask
                · rw [(hfx1 _).2, node_bw]
                  show bwKind (ty b').role ≠ _
                  cases hrr : (ty b').role <;> simp [bwKind]
                  exact hr hrr
                · rw [(hfx1 _).2, node_bw, hi]; rfl
              have hne : bw a ≠ bw b' := fun h => by rw [bw_inj h] at hi; exact hr hi
              rw [(Port.connect_nodes nm r.1 (bw b') (bw a) hne hd).1]
              show Verif.Pool.assign _ _ _ = _
              rw [h1, Port.assign_entries hn]
              simp only [true_and, and_self, if_true]
              rw [Port.firsts_snoc]
              have hmm : bw a ∈ (Port.firsts (direct ty b' l)).map bw ↔ a ∈ Port.firsts (direct ty b' l) := by
                rw [List.mem_map]
                exact ⟨fun ⟨y, hy, hyy⟩ => bw_inj hyy ▸ hy, fun h => ⟨a, h, rfl⟩⟩
              by_cases hin : a ∈ Port.firsts (direct ty b' l)
              · have := hmm.2 hin
                rw [if_pos this]
                rw [Port.mem_firsts] at hin
                simp [hin]
              · have : ¬ _ := fun h => hin (hmm.1 h)
                rw [if_neg this]
                rw [Port.mem_firsts] at hin
                simp [hin]
            · rw [connect_by nm r.1 (bw b') _ (bw b) (fun h => hbb (bw_inj h).symm), h1]
              simp [hbb]
          · have hnb' : (ty a).nb = false := by simpa using hnb
            simp [hnb', h1]
        · simp only [hv]
          have : ¬ (b' = b ∧ (ty a).nb = true) := by
            rintro ⟨rfl, hnb⟩
            apply hv
            unfold validForInit
            rw [hb, hnb]
            cases hrr : (ty b').role <;> simp
            exact hr hrr
          have h2 : (if some b' = some b ∧ True ∧ (ty a).nb = true then [a] else []) = ([] : List Nat) := by
            rw [if_neg (fun h => this ⟨Option.some.inj h.1, h.2.2⟩)]
          simp only [h2, List.append_nil]
          exact h1
    · simp [hi, h1]

/-- A backward call on a socket reaches the component of the first initiator connected directly to it. -/
theorem C287_direct_partial (nm : Nat → String) (hn : ∀ a b, nm a = nm b → a = b) (ty : Nat → Ty) (l : List (Nat × Option Nat)) (rank : Nat → Nat)
    (ha : Port.Acyclic (built nm ty l) rank) (depth : Nat) (ps : List Nat) (hd : ∀ p ∈ ps, rank p < depth) (b : Nat) (hp : bw b ∈ ps)
    (hb : (ty b).nb = true) (hr : (ty b).role ≠ .init) (d : Nat) (a : Nat) (h : (direct ty b l).head? = some a) :
    (ty a).role = .init ∧ backward ty (bound nm ty l depth ps) b (some d) = .reached a := by
  have hmem : ∀ a ∈ direct ty b l, (ty a).role = .init := by
    clear h ha hd
    induction l with
    | nil => intro a h; cases h
    | cons c l ih =>
      intro a h
      obtain ⟨a', x⟩ := c
      unfold direct at h
      by_cases hc : x = some b ∧ (ty a').role = .init ∧ (ty a').nb = true
      · rw [if_pos hc] at h
        rcases List.mem_cons.1 h with rfl | h
        · exact hc.2.1
        · exact ih a h
      · rw [if_neg hc] at h; exact ih a h
  have hai := hmem a (List.mem_of_mem_head? h)
  refine ⟨hai, ?_⟩
  have hpr := back_providers hn ty b hb hr l
  have hm := mIf_bound hn ha hd hp
  have hnd := Port.firsts_nodup (direct ty b l)
  have hrank : rank (bw a) < rank (bw b) := by
    refine ha _ _ ⟨nm (bw a), ?_⟩
    rw [hpr, Port.mem_entries]
    refine ⟨rfl, List.mem_map.2 ⟨a, ?_, rfl⟩⟩
    rw [Port.mem_firsts]
    exact List.mem_of_mem_head? h
  have hord : Port.order (built nm ty l) (rank (bw b) + 1) (bw b) = Port.firsts ((Port.firsts (direct ty b l)).map bw) := by
    have hkb : ((built nm ty l).node (bw b)).kind ≠ .imp := by
      rw [(built_fixed nm ty l _).2, node_bw]
      show bwKind (ty b).role ≠ _
      cases hrr : (ty b).role <;> simp [bwKind]
      exact hr hrr
    have : Port.order (built nm ty l) (rank (bw b) + 1) (bw b) =
        Port.firsts ((((built nm ty l).node (bw b)).providedBy.map (·.2)).flatMap (Port.order (built nm ty l) (rank (bw b)))) := by
      simp [Port.order, hkb]
    rw [this, hpr, Port.entries_vals]
    congr 1
    have hleaf : ∀ q ∈ (Port.firsts (direct ty b l)).map bw, Port.order (built nm ty l) (rank (bw b)) q = [q] := by
      intro q hq
      obtain ⟨a', ha', rfl⟩ := List.mem_map.1 hq
      rw [Port.mem_firsts] at ha'
      have hk' : ((built nm ty l).node (bw a')).kind = .imp := by
        rw [(built_fixed nm ty l _).2, node_bw, hmem a' ha']; rfl
      obtain ⟨n, hn'⟩ : ∃ n, rank (bw b) = n + 1 := ⟨rank (bw b) - 1, by omega⟩
      rw [hn']
      simp [Port.order, hk']
    clear hm this
    generalize (Port.firsts (direct ty b l)).map bw = m at hleaf
    induction m with
    | nil => rfl
    | cons q m ih =>
      rw [List.flatMap_cons, hleaf q (.head _), ih (fun x hx => hleaf x (.tail _ hx))]
      rfl
  have hhead : (Port.order (built nm ty l) (rank (bw b) + 1) (bw b)).head? = some (bw a) := by
    rw [hord, head_firsts, List.head?_map, head_firsts, h]
    rfl
  unfold backward
  rw [hm, hhead]
  have h4 : bw a / 2 = a := by unfold bw; omega
  simp [hb, hr, h4]

/-- A backward call with a null delay is refused with an error, and calls nobody. -/
theorem C287_delay (ty : Nat → Ty) (s : Port.State) (b : Nat) (hb : (ty b).nb = true) (hr : (ty b).role ≠ .init) :
    backward ty s b none = .nullDelay := by
  simp [backward, hb, hr]

/-- If no initiator is connected directly to the socket, a backward call raises, wherever the forward path comes from. -/
theorem C287_passthrough_fails (nm : Nat → String) (hn : ∀ a b, nm a = nm b → a = b) (ty : Nat → Ty) (l : List (Nat × Option Nat)) (rank : Nat → Nat)
    (ha : Port.Acyclic (built nm ty l) rank) (depth : Nat) (ps : List Nat) (hd : ∀ p ∈ ps, rank p < depth) (b : Nat) (hp : bw b ∈ ps)
    (hb : (ty b).nb = true) (hr : (ty b).role ≠ .init) (d : Nat) (h : direct ty b l = []) :
    backward ty (bound nm ty l depth ps) b (some d) = .notBound := by
  have hpr := back_providers hn ty b hb hr l
  have hm := mIf_bound hn ha hd hp
  rw [h] at hpr
  have hkb : ((built nm ty l).node (bw b)).kind ≠ .imp := by
    rw [(built_fixed nm ty l _).2, node_bw]
    show bwKind (ty b).role ≠ _
    cases hrr : (ty b).role <;> simp [bwKind]
    exact hr hrr
  have : Port.order (built nm ty l) (rank (bw b) + 1) (bw b) = [] := by
    simp [Port.order, hkb, hpr, Port.entries, Port.firsts]
  unfold backward
  rw [hm, this]
  simp [hb, hr]

namespace Sample
def nm (n : Nat) : String := String.ofList (List.replicate n 'x')
/-- Initiator 0 → pass-through initiator 1 → target 2; initiator 3 → target 4, all non-blocking; 5 → 6 → 7 blocking. -/
def ty (n : Nat) : Ty :=
  match n with
  | 0 => ⟨.init, true⟩ | 1 => ⟨.passInit, true⟩ | 2 => ⟨.targ, true⟩ | 3 => ⟨.init, true⟩ | 4 => ⟨.targ, true⟩
  | 5 => ⟨.init, false⟩ | 6 => ⟨.passTarg, false⟩ | _ => ⟨.targ, false⟩
def calls : List (Nat × Option Nat) := [(0, some 1), (1, some 2), (3, some 4), (5, some 6), (6, some 7)]
def s : Port.State := bound nm ty calls 8 (List.range 16)
example : forward ty s 0 true (some 5) = .reached 2 ∧ backward ty s 2 (some 5) = .notBound ∧
    forward ty s 3 true (some 5) = .reached 4 ∧ backward ty s 4 (some 5) = .reached 3 ∧ backward ty s 1 (some 5) = .reached 0 ∧
    forward ty s 5 false (some 1) = .reached 7 := by decide +kernel
example : direct ty 2 calls = [] ∧ direct ty 4 calls = [3] := by decide
example : ∀ p, p < 16 → ∀ x ∈ ((built nm ty calls).node p).providedBy, (fun n => if n % 2 = 0 then 20 - n else n) x.2 <
    (fun n => if n % 2 = 0 then 20 - n else n) p := by decide +kernel
end Sample

/-! ## C288: the constructors -/

/-- A non-blocking initiator with an explicit implementation is reported to have none; one with neither is not reported. -/
theorem C288_initiator_fails : (∀ parent i, mkNbInit parent (some i) = (some i, true)) ∧ mkNbInit none none = (none, false) :=
  ⟨fun _ _ => rfl, rfl⟩

/-- The implementation is the one given, else the parent; targets report exactly when there is neither. -/
theorem C288_target_partial (parent imp : Option Nat) :
    (mkTarget parent imp).1 = imp.or parent ∧ ((mkTarget parent imp).2 = true ↔ imp = none ∧ parent = none) ∧
    (mkNbInit parent imp).1 = imp.or parent := by
  cases imp with
  | none => cases parent <;> simp [mkTarget, mkNbInit]
  | some i => simp [mkTarget, mkNbInit]

/-! ## C289: which connections are refused -/

theorem assign_mem {V : Type} (l : List (String × V)) (k : String) (v : V) : (k, v) ∈ Pool.assign l k v := by
  induction l with
  | nil => exact .head _
  | cons x l ih =>
    obtain ⟨k', v'⟩ := x
    unfold Pool.assign
    split
    · rename_i h; rw [← h]; exact .head _
    · exact .tail _ ih

/-- A pass-through initiator connected to an initiator is not reported; an initiator connected to another initiator is reported, but the
connection is made. -/
theorem C289_silent_fails (nm : Nat → String) (ty : Nat → Ty) (s : Port.State) (hs : ∀ p, (s.node p).mask = (node ty p).mask ∧
    (s.node p).kind = (node ty p).kind) (a b : Nat) (hab : a ≠ b) (hnb : (ty a).nb = (ty b).nb) (hb : (ty b).role = .init) :
    ¬ Valid (ty a) (ty b) ∧
    ((ty a).role = .passInit → (connect nm ty s a (some b)).2 = ⟨.done, false⟩) ∧
    ((ty a).role = .init → (connect nm ty s a (some b)).2 = ⟨.done, true⟩) ∧
    ((ty a).role = .init ∨ (ty a).role = .passInit → Port.Conn (connect nm ty s a (some b)).1 (fw a) (fw b)) := by
  have hc : ((ty a).role = .passInit ∨ (ty a).role = .init) → (Port.connect nm s (fw a) (some (fw b))).2 = .done := by
    intro h
    have hne : fw b ≠ fw a := by unfold fw; omega
    have hka : (s.node (fw a)).kind = .port := by
      rw [(hs _).2, node_fw]
      rcases h with h | h <;> rw [h] <;> rfl
    have hm : (s.node (fw b)).mask &&& (s.node (fw a)).mask = (s.node (fw a)).mask := by
      rw [(hs _).1, (hs _).1, node_fw, node_fw]
      show fwMask (ty b) &&& fwMask (ty a) = fwMask (ty a)
      unfold fwMask
      rw [hnb]
      exact Nat.and_self _
    rw [Port.connect, if_neg hne, if_neg (by simpa using hm), if_neg (by rw [hka]; exact nofun), if_neg (by rw [hka]; exact fun h => nomatch h.1)]
  refine ⟨?_, fun h => ?_, fun h => ?_, fun h => ?_⟩
  · unfold Valid
    rintro ⟨_, h⟩
    revert h
    rw [hb]
    cases (ty a).role <;> simp
  · simp [connect, h, hc (.inl h)]
  · simp [connect, h, hc (.inr h), validForInit, hb]
  · have hne : fw b ≠ fw a := by unfold fw; omega
    have e : (connect nm ty s a (some b)).1 = (Port.connect nm s (fw a) (some (fw b))).1 := by
      rcases h with h | h <;> simp [connect, h, validForInit, hb]
    rw [e]
    refine ⟨nm (fw b), ?_⟩
    rw [(Port.connect_nodes nm s (fw a) (fw b) hne (hc h.symm)).1]
    exact assign_mem _ _ _

/-- Every valid connection of two sockets is accepted without error; every other, but those of pass-through initiators to initiators, is reported;
and unless the provider is an initiator, what is reported is not connected. -/
theorem C289_reported_partial (nm : Nat → String) (ty : Nat → Ty) (s : Port.State) (hs : ∀ p, (s.node p).mask = (node ty p).mask ∧
    (s.node p).kind = (node ty p).kind) (a b : Nat) (hab : a ≠ b) :
    (Valid (ty a) (ty b) → (connect nm ty s a (some b)).2 = ⟨.done, false⟩) ∧
    (¬ Valid (ty a) (ty b) → ¬ ((ty a).role = .passInit ∧ (ty b).role = .init) → (connect nm ty s a (some b)).2 ≠ ⟨.done, false⟩) ∧
    (¬ Valid (ty a) (ty b) → (ty b).role ≠ .init → (connect nm ty s a (some b)).1 = s) ∧
    (∀ x, x = none ∨ x = some a → (connect nm ty s a x).2 ≠ ⟨.done, false⟩) := by
  have hne : fw b ≠ fw a := by unfold fw; omega
  have hka := (hs (fw a)).2
  have hkb := (hs (fw b)).2
  have hma := (hs (fw a)).1
  have hmb := (hs (fw b)).1
  rw [node_fw] at hka hkb hma hmb
  have hka' : (s.node (fw a)).kind = fwKind (ty a).role := hka
  have hkb' : (s.node (fw b)).kind = fwKind (ty b).role := hkb
  have hma' : (s.node (fw a)).mask = fwMask (ty a) := hma
  have hmb' : (s.node (fw b)).mask = fwMask (ty b) := hmb
  have hmask : (fwMask (ty b) &&& fwMask (ty a) = fwMask (ty a)) ↔ (ty a).nb = (ty b).nb := by
    unfold fwMask
    cases (ty a).nb <;> cases (ty b).nb <;> decide
  have hport : (Port.connect nm s (fw a) (some (fw b))).2 =
      if (ty a).nb ≠ (ty b).nb then .badInterface else if fwKind (ty a).role = .imp then .fromImp
      else if fwKind (ty a).role = .export ∧ fwKind (ty b).role = .port then .exportToPort else .done := by
    rw [Port.connect, if_neg hne, hka', hkb', hma', hmb']
    by_cases h1 : (ty a).nb = (ty b).nb
    · have h2 : ¬ ((ty a).nb ≠ (ty b).nb) := fun h => h h1
      rw [if_neg (by simpa using hmask.2 h1), if_neg h2]
      split
      · rfl
      · split <;> rfl
    · rw [if_pos (fun h => h1 (hmask.1 h)), if_pos h1]
  have hres : (connect nm ty s a (some b)).2 = ⟨(Port.connect nm s (fw a) (some (fw b))).2,
      decide ((ty a).role = .init) && !validForInit (ty a) (ty b)⟩ := by
    unfold connect
    by_cases h1 : (ty a).role = .init
    · by_cases h2 : validForInit (ty a) (ty b) = true
      · by_cases h3 : (ty a).nb = true <;> simp [h1, h2, h3]
      · simp [h1, h2]
    · simp [h1]
  refine ⟨?_, ?_, ?_, ?_⟩
  · rw [hres, hport]
    unfold Valid validForInit
    cases (ty a).role <;> cases (ty b).role <;> cases (ty a).nb <;> cases (ty b).nb <;> decide
  · rw [hres, hport]
    unfold Valid validForInit
    cases (ty a).role <;> cases (ty b).role <;> cases (ty a).nb <;> cases (ty b).nb <;> decide
  · intro hv hb
    have h1 : (Port.connect nm s (fw a) (some (fw b))).2 ≠ .done := by
      rw [hport]
      revert hv hb
      unfold Valid
      cases (ty a).role <;> cases (ty b).role <;> cases (ty a).nb <;> cases (ty b).nb <;> decide
    have h2 := Port.connect_refused nm s (fw a) (some (fw b)) h1
    have h3 : ¬ ((ty a).role = .init ∧ validForInit (ty a) (ty b) = true) := by
      revert hv hb
      unfold Valid validForInit
      cases (ty a).role <;> cases (ty b).role <;> cases (ty a).nb <;> cases (ty b).nb <;> decide
    unfold connect
    by_cases h4 : (ty a).role = .init
    · have h5 : validForInit (ty a) (ty b) = false := by simpa using fun h => h3 ⟨h4, h⟩
      simp [h4, h5, h2]
    · simp [h4, h2]
  · intro x hx h
    rcases hx with rfl | rfl
    · unfold connect at h
      split at h <;> cases h
    · have h1 : (Port.connect nm s (fw a) (some (fw a))).2 = .selfPort := by simp [Port.connect]
      have h2 := congrArg Res.port h
      unfold connect at h2
      simp only [Option.map, h1] at h2
      split at h2
      · split at h2
        · split at h2 <;> cases h2
        · cases h2
      · cases h2

example : Valid ⟨.init, true⟩ ⟨.passTarg, true⟩ ∧ ¬ Valid ⟨.passTarg, true⟩ ⟨.passInit, true⟩ ∧ ¬ Valid ⟨.init, true⟩ ⟨.targ, false⟩ := by decide

end Verif.Socket
