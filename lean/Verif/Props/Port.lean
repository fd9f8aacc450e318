import Verif.Lemmas.Port
/-! # C57: connections and analysis broadcast

`nm` gives every port its full name; names are distinct. A network is built from fresh ports by any list of `connect`
calls, then every port is bound, in any order. -/
namespace Verif.Port

/-- C57. A `connect` call either succeeds, and then the provider is the last of the caller's providers (or keeps
its place if it was one already) and nothing else about any port changes, or it reports an error and changes nothing.
It succeeds exactly when the provider is not null, is another port, offers the interface, the caller is not an
implementation, and the connection is not from an export to a port. -/
theorem C57_connect (nm : Nat → String) (s : State) (p : Nat) (o : Option Nat) :
    ((connect nm s p o).2 = .done ↔ ∃ q, o = some q ∧ q ≠ p ∧ (s.node q).mask &&& (s.node p).mask = (s.node p).mask ∧
      (s.node p).kind ≠ .imp ∧ ¬ ((s.node p).kind = .export ∧ (s.node q).kind = .port)) ∧
    ((connect nm s p o).2 ≠ .done → (connect nm s p o).1 = s) ∧
    (∀ q, o = some q → (connect nm s p o).2 = .done →
      ((connect nm s p o).1.node p).providedBy = Verif.Pool.assign (s.node p).providedBy (nm q) q ∧
      (∀ r, r ≠ p → ((connect nm s p o).1.node r).providedBy = (s.node r).providedBy) ∧
      (∀ r, ((connect nm s p o).1.node r).imps = (s.node r).imps)) := by
  refine ⟨⟨connect_done_conds nm s p o, ?_⟩, connect_refused nm s p o, ?_⟩
  · rintro ⟨q, rfl, h1, h2, h3, h4⟩
    rw [connect, if_neg h1, if_neg (by simpa using h2), if_neg h3, if_neg h4]
  · rintro q rfl hd
    obtain ⟨q', e, hne, _⟩ := connect_done_conds nm s p _ hd
    cases e
    obtain ⟨e1, e2, e3, e4⟩ := connect_nodes nm s p q hne hd
    refine ⟨by rw [e1], ?_, ?_⟩
    · intro r hr
      by_cases hq : r = q
      · subst hq; rw [e2]
      · rw [e3 r hr hq]
    · intro r
      by_cases hp : r = p
      · subst hp; rw [e1]
      · by_cases hq : r = q
        · subst hq; rw [e2]
        · rw [e3 r hp hq]

/-- C57. `get_connected_to` and `get_provided_to` agree: `q` is listed as a provider of `p` exactly when `p` is listed
as served by `q`, after any history of `connect` calls. -/
theorem C57_fanin_fanout (nm : Nat → String) (hn : ∀ a b, nm a = nm b → a = b) (node : Nat → Node) (hf : Fresh node)
    (calls : List (Nat × Option Nat)) (p q : Nat) :
    (nm q, q) ∈ ((built nm node calls).node p).providedBy ↔ (nm p, p) ∈ ((built nm node calls).node q).providedTo :=
  (built_ok hn hf calls).sym p q

/-- C57. For every acyclic network and every order in which the ports are bound: a write to a bound port calls exactly
the implementations that the connections lead to, each of them exactly once. -/
theorem C57_write_reaches (nm : Nat → String) (hn : ∀ a b, nm a = nm b → a = b) (node : Nat → Node) (hf : Fresh node)
    (calls : List (Nat × Option Nat)) (rank : Nat → Nat) (ha : Acyclic (built nm node calls) rank)
    (depth : Nat) (ps : List Nat) (hd : ∀ p ∈ ps, rank p < depth) (p : Nat) (hp : p ∈ ps) :
    let w := write (resolveAll nm depth (built nm node calls) ps) p
    w.Nodup ∧ .notConnected ∉ w ∧ ∀ i, .imp i ∈ w ↔ Reaches (built nm node calls) p i := by
  have hb := built_ok hn hf calls
  generalize built nm node calls = s0 at *
  have A := resolveAll_post hn ha depth ps hd s0 (Static.refl s0)
    (fun r => ⟨fun h => absurd h (by simp [(hb.blank r).2]), fun _ => (hb.blank r).1⟩)
  have hi := (A.good p).done (A.isDone p hp)
  simp only
  rw [write_eq, hi, entries_vals]
  refine ⟨?_, ?_, ?_⟩
  · have hnd : (order s0 (rank p + 1) p).Nodup := by rw [← order_firsts]; exact firsts_nodup _
    generalize order s0 (rank p + 1) p = l at hnd
    clear hi
    induction l with
    | nil => simp
    | cons x l ih =>
      rw [List.nodup_cons] at hnd
      rw [List.map_cons, List.nodup_cons]
      refine ⟨?_, ih hnd.2⟩
      intro h
      obtain ⟨y, hy, e⟩ := List.mem_map.1 h
      cases e; exact hnd.1 hy
  · simp
  · intro i
    rw [← mem_order hb ha (rank p + 1) p i (Nat.lt_succ_self _)]
    constructor
    · intro h
      obtain ⟨y, hy, e⟩ := List.mem_map.1 h
      cases e; exact hy
    · intro h; exact List.mem_map.2 ⟨i, h, rfl⟩

/-- C57. The order of the calls is the connection order: the implementations behind the first provider first (in its own
order), then those behind the second provider that were not called yet, and so on, at every level. -/
theorem C57_write_order (nm : Nat → String) (hn : ∀ a b, nm a = nm b → a = b) (node : Nat → Node) (hf : Fresh node)
    (calls : List (Nat × Option Nat)) (rank : Nat → Nat) (ha : Acyclic (built nm node calls) rank)
    (depth : Nat) (ps : List Nat) (hd : ∀ p ∈ ps, rank p < depth) (p : Nat) (hp : p ∈ ps) (n : Nat) (hr : rank p < n) :
    write (resolveAll nm depth (built nm node calls) ps) p = (order (built nm node calls) n p).map .imp := by
  have hb := built_ok hn hf calls
  generalize built nm node calls = s0 at *
  have A := resolveAll_post hn ha depth ps hd s0 (Static.refl s0)
    (fun r => ⟨fun h => absurd h (by simp [(hb.blank r).2]), fun _ => (hb.blank r).1⟩)
  rw [write_eq, (A.good p).done (A.isDone p hp), entries_vals, order_fuel ha n (rank p + 1) p hr (Nat.lt_succ_self _)]

/-- C57. After binding, the size errors reported are exactly those of bound ports that reach fewer implementations than
their minimum or more than their (bounded) maximum. -/
theorem C57_size_reports (nm : Nat → String) (hn : ∀ a b, nm a = nm b → a = b) (node : Nat → Node) (hf : Fresh node)
    (calls : List (Nat × Option Nat)) (rank : Nat → Nat) (ha : Acyclic (built nm node calls) rank)
    (depth : Nat) (ps : List Nat) (hd : ∀ p ∈ ps, rank p < depth) (p : Nat) (hp : p ∈ ps) :
    let s0 := built nm node calls
    let s := resolveAll nm depth s0 ps
    let k := (order s0 (rank p + 1) p).length
    (∀ n, .tooFew p n ∈ s.reports ↔ n = k ∧ (n : Int) < (s0.node p).minSize) ∧
    (∀ n, .tooMany p n ∈ s.reports ↔ n = k ∧ (s0.node p).maxSize ≠ -1 ∧ (n : Int) > (s0.node p).maxSize) := by
  have hb := built_ok hn hf calls
  generalize built nm node calls = s0 at *
  have A := resolveAll_post hn ha depth ps hd s0 (Static.refl s0)
    (fun r => ⟨fun h => absurd h (by simp [(hb.blank r).2]), fun _ => (hb.blank r).1⟩)
  have hr0 : Rep s0 := by
    constructor <;> intro q n <;> simp [hb.quiet, (hb.blank q).2]
  have R := A.rep hr0
  have hi := (A.good p).done (A.isDone p hp)
  simp only
  constructor
  · intro n
    rw [R.few p n, hi, A.static.min p, A.isDone p hp]
    simp [entries, eq_comm]
  · intro n
    rw [R.many p n, hi, A.static.max p, A.isDone p hp]
    simp [entries, eq_comm]

/-- C57. Binding a port again changes nothing. -/
theorem C57_bind_once (nm : Nat → String) (n : Nat) (s : State) (p : Nat) (h : (s.node p).resolved = true) :
    resolve nm n s p = s := by
  cases n <;> simp [resolve, h]

/-- C108 fails for writes before the ports are bound: a connected but unbound port calls nobody, silently. -/
theorem C108_unbound_fails :
    ∃ (nm : Nat → String) (node : Nat → Node), Fresh node ∧
      Reaches (built nm node [(0, some 1)]) 0 1 ∧ write (built nm node [(0, some 1)]) 0 = [] := by
  refine ⟨fun n => if n = 0 then "a" else "b", fun n => if n = 0 then fresh .port 256 0 (-1) else fresh .imp 256 1 1, ?_, ?_, ?_⟩
  · intro p; by_cases h : p = 0 <;> simp [h, fresh]
  · refine .via (q := 1) ⟨"b", ?_⟩ (.here 1 ?_)
    · decide
    · decide
  · decide

/-- C108 fails in general: in every network, however it was connected, a write to any port before the ports are bound calls nobody and
reports nothing. -/
theorem C108_never_bound_fails (nm : Nat → String) (hn : ∀ a b, nm a = nm b → a = b) (node : Nat → Node) (hf : Fresh node)
    (calls : List (Nat × Option Nat)) (p : Nat) : write (built nm node calls) p = [] := by
  simp [write, ((built_ok hn hf calls).blank p).1]

-- Non-vacuity: a port connected to two exports that share an implementation.
namespace Sample
def nm (n : Nat) : String := String.ofList (List.replicate n 'x')
def node (n : Nat) : Node :=
  if n = 0 then fresh .port 256 0 (-1) else if n < 3 then fresh .export 256 0 (-1) else fresh .imp 256 1 1
def calls : List (Nat × Option Nat) :=
  [(0, some 1), (0, some 2), (1, some 3), (1, some 4), (2, some 4), (2, some 5), (0, none), (3, some 1), (1, some 0)]
example : (calls.map (fun c => (connect nm (built nm node calls) c.1 c.2).2)) =
    [.done, .done, .done, .done, .done, .done, .nullPort, .fromImp, .exportToPort] := by decide
example : write (resolveAll nm 3 (built nm node calls) [5, 4, 3, 2, 1, 0]) 0 = [.imp 3, .imp 4, .imp 5] := by decide
example : write (resolveAll nm 3 (built nm node calls) [0]) 2 = [.imp 4, .imp 5] := by decide
example : ∀ a b, nm a = nm b → a = b := by
  intro a b h
  have h' := congrArg (fun s => s.toList.length) h
  simpa [nm] using h'
example : Fresh node := by
  intro p; unfold node; split
  · simp [fresh]
  · split <;> simp [fresh]
example : Acyclic (built nm node calls) (fun n => 5 - n) := by
  intro p q h
  obtain ⟨k, h⟩ := h
  have hp : p < 3 := by
    by_cases h3 : p < 3
    · exact h3
    · have : ((built nm node calls).node p).providedBy = [] := by
        have e : ((built nm node calls).node p).kind = .imp → ((built nm node calls).node p).providedBy = [] :=
          (built_ok (nm := nm) (by
            intro a b h
            have h' := congrArg (fun s => s.toList.length) h
            simpa [nm] using h') (by
            intro p; unfold node; split
            · simp [fresh]
            · split <;> simp [fresh]) calls).impLeaf p
        apply e
        by_cases h4 : p < 6
        · have : p = 3 ∨ p = 4 ∨ p = 5 := by omega
          rcases this with rfl | rfl | rfl <;> decide
        · have hb : ∀ r, 6 ≤ r → ((built nm node calls).node r).kind = (node r).kind := by
            intro r hr
            have h0 : r ≠ 0 := by omega
            have h1 : r ≠ 1 := by omega
            have h2 : r ≠ 2 := by omega
            have h3 : r ≠ 3 := by omega
            have h4 : r ≠ 4 := by omega
            have h5 : r ≠ 5 := by omega
            simp [built, calls, connect, setNode, node, fresh, h0, h1, h2, h3, h4, h5]
          rw [hb p (by omega)]
          simp [node, fresh, h3, show p ≠ 0 by omega]
      rw [this] at h; simp at h
  have e : ∀ p, p < 3 → ∀ x ∈ ((built nm node calls).node p).providedBy, 5 - x.2 < 5 - p := by decide
  exact e p hp _ h
end Sample

end Verif.Port
