import Verif.Props.Port
import Verif.Spec.ImpDecl
/-! # C389, C390: analysis implementations declared with a suffix -/
namespace Verif.ImpDecl
open Verif.Port
variable {T : Type}

theorem sfx_inj {a b : String} (h : "write" ++ a = "write" ++ b) : a = b := by
  have := congrArg String.toList h
  simp only [String.toList_append, List.append_cancel_left_eq] at this
  exact String.toList_inj.1 this

theorem impWrite_ok (w : World T) (log : List (Got T)) (i : Nat) (t : T) (h : Answers w i) (hc : Calm w i) :
    impWrite w log i t = (log ++ [call w t i], none) := by
  unfold Answers at h
  simp [impWrite, h, hc log t, call]

theorem deliver_ok (w : World T) (t : T) (l : List Nat) (log : List (Got T)) (h : ∀ i ∈ l, Answers w i ∧ Calm w i) :
    deliver w t (l.map .imp) log = (log ++ l.map (call w t), none) := by
  induction l generalizing log with
  | nil => simp [deliver]
  | cons i l ih =>
    have hi := h i (by simp)
    rw [List.map_cons, deliver, impWrite_ok w log i t hi.1 hi.2]
    simp only
    rw [ih _ (fun j hj => h j (by simp [hj]))]
    simp

theorem deliver_append (w : World T) (t : T) (l : List Nat) (k : List Call) (log : List (Got T))
    (h : ∀ i ∈ l, Answers w i ∧ Calm w i) :
    deliver w t (l.map .imp ++ k) log = deliver w t k (log ++ l.map (call w t)) := by
  induction l generalizing log with
  | nil => simp
  | cons i l ih =>
    have hi := h i (by simp)
    rw [List.map_cons, List.cons_append, deliver, impWrite_ok w log i t hi.1 hi.2]
    simp only
    rw [ih _ (fun j hj => h j (by simp [hj]))]
    simp

theorem received_append (l k : List (Got T)) (c : Nat) (m : String) :
    received (l ++ k) c m = received l c m ++ received k c m := by simp [received]

/-- What one write brings to the method of implementation `i`, if no other has its component and suffix. -/
theorem received_calls (w : World T) (t : T) (i : Nat) (hu : ∀ j, w.decl j = w.decl i → j = i) (l : List Nat)
    (hl : l.Nodup) :
    received (l.map (call w t)) (w.decl i).owner ("write" ++ (w.decl i).sfx) = if i ∈ l then [t] else [] := by
  induction l with
  | nil => simp [received]
  | cons j l ih =>
    rw [List.nodup_cons] at hl
    have ih := ih hl.2
    rw [List.map_cons, show call w t j :: l.map (call w t) = [call w t j] ++ l.map (call w t) from rfl, received_append, ih]
    by_cases hj : j = i
    · subst hj
      simp [received, call, hl.1]
    · have hne : ¬ ((w.decl j).owner = (w.decl i).owner ∧ "write" ++ (w.decl j).sfx = "write" ++ (w.decl i).sfx) := by
        rintro ⟨h1, h2⟩
        apply hj; apply hu
        cases hd : w.decl j; cases hd' : w.decl i
        rw [hd, hd'] at h1 h2
        simp only at h1 h2
        rw [h1, sfx_inj h2]
      have : received [call w t j] (w.decl i).owner ("write" ++ (w.decl i).sfx) = [] := by
        simp only [received, call, List.filter_cons, List.filter_nil]
        rw [if_neg]; · rfl
        · simpa using hne
      rw [this]
      simp [Ne.symm hj]

theorem map_imp_mem {l : List Nat} {i : Nat} : Call.imp i ∈ l.map Call.imp ↔ i ∈ l := by
  constructor
  · intro h
    obtain ⟨y, hy, e⟩ := List.mem_map.1 h
    cases e; exact hy
  · exact fun h => List.mem_map.2 ⟨i, h, rfl⟩

theorem nodup_of_map_imp {l : List Nat} (h : (l.map Call.imp).Nodup) : l.Nodup := by
  induction l with
  | nil => simp
  | cons x l ih =>
    rw [List.map_cons, List.nodup_cons] at h
    exact List.nodup_cons.2 ⟨fun hx => h.1 (map_imp_mem.2 hx), ih h.2⟩

/-- C389. In every acyclic bound network, after any sequence of writes to any of its ports: if the component of every
implementation that a written port leads to defines the method its implementation was declared for, and these methods do
not raise, then every write returns normally, and the method declared by implementation `i` received exactly the values
written to the ports that lead to `i`, once each and in order -- whatever other implementations, with other suffixes, the
same component has. -/
theorem C389_routed (nm : Nat → String) (hn : ∀ a b, nm a = nm b → a = b) (node : Nat → Node) (hf : Fresh node)
    (calls : List (Nat × Option Nat)) (rank : Nat → Nat) (ha : Acyclic (built nm node calls) rank)
    (depth : Nat) (ps : List Nat) (hd : ∀ p ∈ ps, rank p < depth) (w : World T) (ws : List (Nat × T))
    (hp : ∀ a ∈ ws, a.1 ∈ ps)
    (hw : ∀ a ∈ ws, ∀ i, Reaches (built nm node calls) a.1 i → Answers w i ∧ Calm w i)
    (i : Nat) (hu : ∀ j, w.decl j = w.decl i → j = i) :
    let r := writes w (resolveAll nm depth (built nm node calls) ps) ws []
    (∀ o ∈ r.2, o = none) ∧ r.2.length = ws.length ∧
    (open Classical in received r.1 (w.decl i).owner ("write" ++ (w.decl i).sfx) =
      (ws.filter (fun a => decide (Reaches (built nm node calls) a.1 i))).map (·.2)) := by
  classical
  simp only
  suffices H : ∀ log, (∀ o ∈ (writes w (resolveAll nm depth (built nm node calls) ps) ws log).2, o = none) ∧
      (writes w (resolveAll nm depth (built nm node calls) ps) ws log).2.length = ws.length ∧
      received (writes w (resolveAll nm depth (built nm node calls) ps) ws log).1 (w.decl i).owner ("write" ++ (w.decl i).sfx) =
        received log (w.decl i).owner ("write" ++ (w.decl i).sfx) ++
          (ws.filter (fun a => decide (Reaches (built nm node calls) a.1 i))).map (·.2) by
    have := H []
    refine ⟨this.1, this.2.1, ?_⟩
    rw [this.2.2]
    simp only [received, List.filter_nil, List.map_nil, List.nil_append]
  induction ws with
  | nil => intro log; simp [writes]
  | cons a ws ih =>
    intro log
    have hpa := hp a (by simp)
    have ho := C57_write_order nm hn node hf calls rank ha depth ps hd a.1 hpa (rank a.1 + 1) (Nat.lt_succ_self _)
    have hr := C57_write_reaches nm hn node hf calls rank ha depth ps hd a.1 hpa
    simp only [ho] at hr
    generalize order (built nm node calls) (rank a.1 + 1) a.1 = l at ho hr
    have hm : ∀ j, j ∈ l ↔ Reaches (built nm node calls) a.1 j := fun j => map_imp_mem.symm.trans (hr.2.2 j)
    have e : write w (resolveAll nm depth (built nm node calls) ps) log a.1 a.2 = (log ++ l.map (call w a.2), none) := by
      rw [write, ho]
      exact deliver_ok w a.2 l log (fun j hj => hw a (by simp) j ((hm j).1 hj))
    have I := ih (fun b hb => hp b (by simp [hb])) (fun b hb => hw b (by simp [hb])) (log ++ l.map (call w a.2))
    rw [writes, e]
    simp only
    refine ⟨?_, ?_, ?_⟩
    · intro o ho
      rcases List.mem_cons.1 ho with h | h
      · exact h
      · exact I.1 o h
    · simp [I.2.1]
    · rw [I.2.2, received_append, received_calls w a.2 i hu l (nodup_of_map_imp hr.1), List.filter_cons]
      by_cases hi : i ∈ l
      · simp [hi, (hm i).1 hi]
      · have : ¬ Reaches (built nm node calls) a.1 i := fun h => hi ((hm i).2 h)
        simp [hi, this]

theorem impWrite_logged (w : World T) (log : List (Got T)) (i : Nat) (t : T) (g : Got T)
    (h : g ∈ (impWrite w log i t).1) : g ∈ log ∨ g = call w t i := by
  unfold impWrite at h
  simp only at h
  split at h
  · rcases List.mem_append.1 h with h | h
    · exact .inl h
    · exact .inr (by simpa [call] using h)
  · exact .inl h

theorem deliver_logged (w : World T) (t : T) (l : List Call) (log : List (Got T)) (g : Got T)
    (h : g ∈ (deliver w t l log).1) : g ∈ log ∨ ∃ i, .imp i ∈ l ∧ g = call w t i := by
  induction l generalizing log with
  | nil => exact .inl h
  | cons c l ih =>
    cases c with
    | notConnected => exact .inl h
    | imp i =>
      rw [deliver] at h
      have key : g ∈ (impWrite w log i t).1 ∨ ∃ j, .imp j ∈ l ∧ g = call w t j := by
        split at h
        · exact ih _ h
        · exact .inl h
      rcases key with k | ⟨j, hj, e⟩
      · rcases impWrite_logged w log i t g k with k | k
        · exact .inl k
        · exact .inr ⟨i, by simp, k⟩
      · exact .inr ⟨j, by simp [hj], e⟩

/-- C389. Nothing else is ever received, whatever methods are missing or raise: each call that a component received is of a
method declared by one of its own implementations, with a value written to a port that leads to that implementation. -/
theorem C389_only (nm : Nat → String) (hn : ∀ a b, nm a = nm b → a = b) (node : Nat → Node) (hf : Fresh node)
    (calls : List (Nat × Option Nat)) (rank : Nat → Nat) (ha : Acyclic (built nm node calls) rank)
    (depth : Nat) (ps : List Nat) (hd : ∀ p ∈ ps, rank p < depth) (w : World T) (ws : List (Nat × T))
    (hp : ∀ a ∈ ws, a.1 ∈ ps) (g : Got T)
    (hg : g ∈ (writes w (resolveAll nm depth (built nm node calls) ps) ws []).1) :
    ∃ p i, (p, g.value) ∈ ws ∧ Reaches (built nm node calls) p i ∧ g.comp = (w.decl i).owner ∧
      g.method = "write" ++ (w.decl i).sfx := by
  suffices H : ∀ log, g ∈ (writes w (resolveAll nm depth (built nm node calls) ps) ws log).1 → g ∈ log ∨
      ∃ p i, (p, g.value) ∈ ws ∧ Reaches (built nm node calls) p i ∧ g.comp = (w.decl i).owner ∧
      g.method = "write" ++ (w.decl i).sfx by
    exact (H [] hg).resolve_left (by simp)
  clear hg
  induction ws with
  | nil => intro log h; exact .inl h
  | cons a ws ih =>
    intro log h
    rw [writes] at h
    rcases ih (fun b hb => hp b (by simp [hb])) _ h with k | ⟨p, i, h1, h2⟩
    · rcases deliver_logged w a.2 _ log g k with k | ⟨i, hi, e⟩
      · exact .inl k
      · have hr := (C57_write_reaches nm hn node hf calls rank ha depth ps hd a.1 (hp a (by simp))).2.2 i
        refine .inr ⟨a.1, i, ?_, hr.1 hi, ?_, ?_⟩ <;> rw [e] <;> simp [call]
    · exact .inr ⟨p, i, by simp [h1], h2⟩

/-- C390, the part that holds: the implementations before the first one whose method is missing or raises all receive the
value, in connection order; that one receives it if it has the method; the caller of `write` gets the exception. Missing:
those behind it receive nothing (`C390_rest_fails`). -/
theorem C390_before_partial (nm : Nat → String) (hn : ∀ a b, nm a = nm b → a = b) (node : Nat → Node) (hf : Fresh node)
    (calls : List (Nat × Option Nat)) (rank : Nat → Nat) (ha : Acyclic (built nm node calls) rank)
    (depth : Nat) (ps : List Nat) (hd : ∀ p ∈ ps, rank p < depth) (w : World T) (log : List (Got T)) (p : Nat)
    (hp : p ∈ ps) (t : T) (before : List Nat) (i : Nat) (after : List Nat)
    (ho : order (built nm node calls) (rank p + 1) p = before ++ i :: after)
    (hb : ∀ j ∈ before, Answers w j ∧ Calm w j)
    (hi : ¬ Answers w i ∨ w.raises (log ++ before.map (call w t)) (w.decl i).owner ("write" ++ (w.decl i).sfx) t = true) :
    let r := write w (resolveAll nm depth (built nm node calls) ps) log p t
    (Answers w i → r = (log ++ before.map (call w t) ++ [call w t i], some (.raised (w.decl i).owner ("write" ++ (w.decl i).sfx)))) ∧
    (¬ Answers w i → r = (log ++ before.map (call w t), some (.noMethod (w.decl i).owner ("write" ++ (w.decl i).sfx)))) := by
  have hw := C57_write_order nm hn node hf calls rank ha depth ps hd p hp (rank p + 1) (Nat.lt_succ_self _)
  simp only [write]
  rw [hw, ho, List.map_append, deliver_append w t before _ log hb, List.map_cons, deliver]
  constructor
  · intro h
    have hr := hi.resolve_left (fun k => k h)
    unfold Answers at h
    simp [impWrite, h, hr, call]
  · intro h
    unfold Answers at h
    simp [impWrite, h]

/-- C390 fails, in every network: if the first implementation in connection order behind a port is one whose component lacks
the declared method, no write to the port ever reaches any subscriber, however many others there are. Every write raises. -/
theorem C390_rest_fails (nm : Nat → String) (hn : ∀ a b, nm a = nm b → a = b) (node : Nat → Node) (hf : Fresh node)
    (calls : List (Nat × Option Nat)) (rank : Nat → Nat) (ha : Acyclic (built nm node calls) rank)
    (depth : Nat) (ps : List Nat) (hd : ∀ p ∈ ps, rank p < depth) (w : World T) (p : Nat)
    (hp : p ∈ ps) (i : Nat) (after : List Nat) (ho : order (built nm node calls) (rank p + 1) p = i :: after)
    (hi : ¬ Answers w i) (ts : List T) :
    let r := writes w (resolveAll nm depth (built nm node calls) ps) (ts.map (fun t => (p, t))) []
    r.1 = [] ∧ ∀ o ∈ r.2, o = some (.noMethod (w.decl i).owner ("write" ++ (w.decl i).sfx)) := by
  simp only
  induction ts with
  | nil => simp [writes]
  | cons t ts ih =>
    have e := (C390_before_partial nm hn node hf calls rank ha depth ps hd w [] p hp t [] i after ho (by simp)
      (.inl hi)).2 hi
    simp only [List.map_nil, List.append_nil] at e
    rw [List.map_cons, writes]
    simp only
    rw [e]
    refine ⟨ih.1, ?_⟩
    intro o ho
    rcases List.mem_cons.1 ho with h | h
    · exact h
    · exact ih.2 o h

-- Non-vacuity: the network of `Verif.Port.Sample` with implementations 3 and 4 in one scoreboard (component 7), 5 in a monitor.
namespace Sample
open Verif.Port.Sample
def decl (i : Nat) : Decl :=
  if i = 3 then ⟨7, "_exp"⟩ else if i = 4 then ⟨7, "_obs"⟩ else if i = 5 then ⟨8, ""⟩ else ⟨i, "_x"⟩
def w : World Nat := ⟨decl, fun _ _ => true, fun _ _ _ _ => false⟩
/-- The scoreboard's `write_obs` is missing. -/
def w' : World Nat := ⟨decl, fun _ m => m != "write_obs", fun _ _ _ _ => false⟩
/-- The scoreboard's methods refuse a value that was already seen. -/
def w'' : World Nat := ⟨decl, fun _ _ => true, fun log c _ t => c == 7 && log.any (fun g => g.value == t)⟩
abbrev bound : State := resolveAll nm 3 (built nm node calls) [5, 4, 3, 2, 1, 0]
example : writes w bound [(0, 10), (2, 20)] [] =
    ([⟨7, "write_exp", 10⟩, ⟨7, "write_obs", 10⟩, ⟨8, "write", 10⟩, ⟨7, "write_obs", 20⟩, ⟨8, "write", 20⟩], [none, none]) := by
  decide
example : ∀ i, Answers w i ∧ Calm w i := fun _ => ⟨rfl, fun _ _ => rfl⟩
example : ∀ j, w.decl j = w.decl 4 → j = 4 := by
  intro j h
  simp only [w, decl] at h
  split at h <;> rename_i h3
  · simp at h
  · split at h <;> rename_i h4
    · exact h4
    · split at h <;> simp at h
example : writes w' bound [(0, 10), (2, 20)] [] =
    ([⟨7, "write_exp", 10⟩], [some (.noMethod 7 "write_obs"), some (.noMethod 7 "write_obs")]) := by decide
example : order (built nm node calls) 3 2 = 4 :: [5] ∧ ¬ Answers w' 4 := ⟨by decide, by unfold Answers; decide⟩
example : w''.raises ([] ++ [3].map (call w'' 10)) (w''.decl 4).owner ("write" ++ (w''.decl 4).sfx) 10 = true ∧
    order (built nm node calls) 3 0 = [3] ++ 4 :: [5] := by decide
example : (writes w'' bound [(0, 10)] []).2 = [some (.raised 7 "write_obs")] := by decide
end Sample
end Verif.ImpDecl
