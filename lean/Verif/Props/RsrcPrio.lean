import Verif.Spec.RsrcPrio
import Verif.Props.Resource
/-!
# C326, C327: search priorities of resources

Low priority puts a resource behind all others of its name (C326); high priority should put it before them (C327), but does the same.
-/
namespace Verif.RsrcPrio
open Verif.Resource

variable {V : Type}

theorem nodup_filter {q : List Nat} (h : q.Nodup) {p : Nat → Bool} : (q.filter p).Nodup := h.sublist List.filter_sublist

theorem bestId_spec (d : Db V) (q : List Nat) : ∀ i, ∃ pre post, i :: q = pre ++ bestId d i q :: post ∧ (∀ x ∈ pre, precOf d x < precOf d (bestId d i q)) ∧
    ∀ x ∈ post, precOf d x ≤ precOf d (bestId d i q) := by
  induction q with
  | nil => intro i; exact ⟨[], [], rfl, by simp, by simp⟩
  | cons j q ih =>
    intro i
    unfold bestId
    split
    · rename_i h
      change precOf d j > precOf d i at h
      obtain ⟨pre, post, e1, e2, e3⟩ := ih j
      refine ⟨i :: pre, post, by rw [e1]; rfl, ?_, e3⟩
      intro x hx
      rcases List.mem_cons.1 hx with rfl | hx
      · have hj : j ∈ pre ++ bestId d j q :: post := by rw [← e1]; simp
        rcases List.mem_append.1 hj with hj | hj
        · have := e2 j hj; omega
        · rcases List.mem_cons.1 hj with hj | hj
          · rw [← hj]; omega
          · have := e3 j hj; omega
      · exact e2 x hx
    · rename_i h
      have h : ¬ precOf d j > precOf d i := h
      obtain ⟨pre, post, e1, e2, e3⟩ := ih i
      cases pre with
      | nil =>
        obtain ⟨h1, h2⟩ := List.cons.inj e1
        refine ⟨[], j :: post, by rw [← h1, ← h2]; rfl, by simp, ?_⟩
        intro x hx
        rcases List.mem_cons.1 hx with rfl | hx
        · rw [← h1]; omega
        · exact e3 x hx
      | cons y pre =>
        obtain ⟨h1, h2⟩ := List.cons.inj e1
        subst h1
        refine ⟨i :: j :: pre, post, by simpa using h2, ?_, e3⟩
        intro x hx
        have hi := e2 i (by simp)
        rcases List.mem_cons.1 hx with rfl | hx
        · exact hi
        · rcases List.mem_cons.1 hx with rfl | hx
          · omega
          · exact e2 x (by simp [hx])

theorem inv_priority {d : Db V} (hd : Inv d) (id : Nat) (pri : Pri) : Inv (setPriority d id pri).1 := by
  unfold setPriority
  split
  · exact hd
  · rename_i r hr
    by_cases hm : id ∈ d.rtab r.name
    · have : setPriorityQueue (d.rtab r.name) id pri = some ((d.rtab r.name).erase id ++ [id]) := by
        unfold setPriorityQueue; rw [if_pos hm]; cases pri <;> rfl
      rw [this]
      have h := inv_setPriority hd id r.name
      rwa [setPriorityName, if_pos hm] at h
    · have : setPriorityQueue (d.rtab r.name) id pri = none := by
        unfold setPriorityQueue; rw [if_neg hm]
      rw [this]; exact hd

theorem inv_step (e : Env V) (a : Bool) {d : Db V} (hd : Inv d) (op : Op V) : Inv (step e a d op).1 := by
  cases op with
  | cfgSet ctx inst field v build => exact inv_doSet hd ⟨ctx, inst, field, v, build⟩
  | dbSet scope name v acc => exact inv_dbSet hd scope name v acc
  | priority id pri => exact inv_priority hd id pri

theorem inv_run (e : Env V) (a : Bool) (ops : List (Op V)) : Inv (runS (step e a) {} ops) := by
  have key : ∀ (ops : List (Op V)) (d : Db V), Inv d → Inv (runS (step e a) d ops) := by
    intro ops
    induction ops with
    | nil => intro d h; exact h
    | cons op ops ih => intro d h; exact ih _ (inv_step e a h op)
  exact key ops _ inv_init

theorem mem_lookup {e : Env V} {d : Db V} (hd : Inv d) (scope name : String) (hn : name ≠ "") (id : Nat) :
    id ∈ lookupName e d scope name ↔ Found e d scope name id := by
  unfold lookupName Found
  rw [if_neg hn, List.mem_filter]
  constructor
  · rintro ⟨h1, h2⟩
    obtain ⟨r, hr, hrn⟩ := hd.valid name id h1
    rw [hr] at h2
    exact ⟨r, hr, hrn, h2⟩
  · rintro ⟨r, hr, hrn, hm⟩
    refine ⟨?_, by rw [hr]; exact hm⟩
    have := hd.listed id r hr (by rw [hrn]; exact hn)
    rwa [hrn] at this

theorem lookup_after {e : Env V} {d : Db V} (hd : Inv d) (scope name : String) (hn : name ≠ "") (id : Nat) (pri : Pri) (hf : Found e d scope name id) :
    lookupName e (setPriority d id pri).1 scope name = (lookupName e d scope name).erase id ++ [id] := by
  obtain ⟨r, hr, hrn, hm⟩ := hf
  have hin : id ∈ d.rtab name := by have := hd.listed id r hr (by rw [hrn]; exact hn); rwa [hrn] at this
  have hq : setPriorityQueue (d.rtab name) id pri = some ((d.rtab name).erase id ++ [id]) := by
    unfold setPriorityQueue; rw [if_pos hin]; cases pri <;> rfl
  simp only [setPriority, hr, hrn, hq, lookupName, hn, if_false, setTab, if_true, List.filter_append]
  congr 1
  · rw [(hd.nodup name).erase_eq_filter, (nodup_filter (hd.nodup name)).erase_eq_filter, List.filter_filter, List.filter_filter]
    congr 1
    funext x
    exact Bool.and_comm _ _
  · simp [hr, hm]

/-- Whatever the priority asked for, the resource is then found only if its precedence is above that of all others that match. -/
theorem get_after {e : Env V} {d : Db V} (hd : Inv d) (scope name : String) (hn : name ≠ "") (id : Nat) (pri : Pri) (hf : Found e d scope name id) :
    getByName e (setPriority d id pri).1 scope name = some id ↔ ∀ k, k ≠ id → Found e d scope name k → precOf d k < precOf d id := by
  have hl := lookup_after hd scope name hn id pri hf
  have hheap : ∀ x, precOf (setPriority d id pri).1 x = precOf d x := by
    intro x
    unfold setPriority precOf
    split
    · rfl
    · split <;> rfl
  have hnd : (lookupName e d scope name).Nodup := by
    unfold lookupName; rw [if_neg hn]; exact nodup_filter (hd.nodup name)
  have hmem : ∀ k, k ∈ (lookupName e d scope name).erase id ↔ k ≠ id ∧ Found e d scope name k := by
    intro k
    rw [hnd.mem_erase_iff, mem_lookup hd scope name hn]
  unfold getByName
  rw [hl]
  cases he : (lookupName e d scope name).erase id with
  | nil =>
    rw [he] at hmem
    simp only [List.nil_append, bestId, true_iff]
    intro k hk hfk
    exact absurd ((hmem k).2 ⟨hk, hfk⟩) (by simp)
  | cons i q =>
    rw [he] at hmem
    simp only [List.cons_append, Option.some.injEq]
    obtain ⟨pre, post, e1, e2, e3⟩ := bestId_spec (setPriority d id pri).1 (q ++ [id]) i
    generalize bestId (setPriority d id pri).1 i (q ++ [id]) = b at *
    simp only [hheap] at e2 e3
    constructor
    · rintro rfl k hk hfk
      have hkm : k ∈ i :: q := (hmem k).2 ⟨hk, hfk⟩
      have hpost : post = [] := by
        cases hp : post.reverse with
        | nil => simpa using hp
        | cons z zs =>
          have hp' : post = zs.reverse ++ [z] := by rw [← List.reverse_reverse post, hp]; simp
          rw [hp', ← List.cons_append] at e1
          have e1' : (i :: q) ++ [b] = (pre ++ b :: zs.reverse) ++ [z] := by rw [e1]; simp
          have hb : b ∈ i :: q := by rw [(List.append_inj' e1' rfl).1]; simp
          exact absurd rfl ((hmem b).1 hb).1
      subst hpost
      rw [← List.cons_append] at e1
      have := (List.append_inj' e1 rfl).1
      exact e2 k (by rw [← this]; exact hkm)
    · intro h
      have hb : b ∈ i :: (q ++ [id]) := by rw [e1]; simp
      rw [← List.cons_append] at hb e1
      rcases List.mem_append.1 hb with hb | hb
      · exfalso
        obtain ⟨h1, h2⟩ := (hmem b).1 hb
        have hlt := h b h1 h2
        have hid : id ∈ pre ++ b :: post := by rw [← e1]; simp
        rcases List.mem_append.1 hid with hid | hid
        · have := e2 id hid; omega
        · rcases List.mem_cons.1 hid with hid | hid
          · exact h1 hid.symm
          · have := e3 id hid; omega
      · simpa using hb

/-- C326. After any calls, a resource given low priority is found by a look-up that matches it exactly if its precedence is above that of all other resources that
match; no other resource changes, values and precedences stay, and no error is reported. -/
theorem C326_low (e : Env V) (a : Bool) (ops : List (Op V)) (scope name : String) (hn : name ≠ "") (id : Nat) :
    let d := runS (step e a) {} ops
    Found e d scope name id →
    (getByName e (setPriority d id .low).1 scope name = some id ↔ ∀ k, k ≠ id → Found e d scope name k → precOf d k < precOf d id) ∧
    (setPriority d id .low).2 = false ∧ (setPriority d id .low).1.heap = d.heap := by
  intro d hf
  refine ⟨get_after (inv_run e a ops) scope name hn id .low hf, ?_⟩
  obtain ⟨r, hr, hrn, _⟩ := hf
  have hin : id ∈ d.rtab r.name := (inv_run e a ops).listed id r hr (by rw [hrn]; exact hn)
  simp [setPriority, hr, setPriorityQueue, hin]

/-- C326. The others keep their order: a look-up gives the matching resources in the old order, the one given low priority last. -/
theorem C326_order (e : Env V) (a : Bool) (ops : List (Op V)) (scope name : String) (hn : name ≠ "") (id : Nat) :
    let d := runS (step e a) {} ops
    Found e d scope name id → lookupName e (setPriority d id .low).1 scope name = (lookupName e d scope name).filter (· != id) ++ [id] := by
  intro d hf
  rw [lookup_after (inv_run e a ops) scope name hn id .low hf]
  have hnd : (lookupName e d scope name).Nodup := by
    unfold lookupName; rw [if_neg hn]; exact nodup_filter ((inv_run e a ops).nodup name)
  rw [hnd.erase_eq_filter]

/-- C326. Look-ups of other names do not change; a resource that the pool does not have is reported and nothing changes. -/
theorem C326_others (e : Env V) (a : Bool) (ops : List (Op V)) (scope : String) (id : Nat) (pri : Pri) :
    let d := runS (step e a) {} ops
    (∀ r, d.heap[id]? = some r → ∀ m, m ≠ r.name → lookupName e (setPriority d id pri).1 scope m = lookupName e d scope m) ∧
    (d.heap[id]? = none → setPriority d id pri = (d, true)) := by
  intro d
  refine ⟨fun r hr m hm => ?_, fun h => by simp [setPriority, h]⟩
  simp only [setPriority, hr]
  split
  · rfl
  · simp [lookupName, setTab, hm]

/-- C326. A resource that is not in the queue of its name, which happens only to resources without a name, is reported and nothing changes. -/
theorem C326_unnamed (e : Env V) (a : Bool) (ops : List (Op V)) (id : Nat) (pri : Pri) (r : Rsrc V) :
    let d := runS (step e a) {} ops
    d.heap[id]? = some r → id ∉ d.rtab r.name → r.name = "" ∧ setPriority d id pri = (d, true) := by
  intro d hr hm
  refine ⟨?_, by simp [setPriority, hr, setPriorityQueue, hm]⟩
  by_cases h : r.name = ""
  · exact h
  · exact absurd ((inv_run e a ops).listed id r hr h) hm

example : (runS (step exEnv true) {} [Op.dbSet "x" "" 1 none, .dbSet "x" "" 2 none]).rtab "" = [1] := by decide

/-- C327 fails in the code: high priority does what low priority does; after it a resource is not found if any other resource of its precedence matches. -/
theorem C327_high_fails (e : Env V) (a : Bool) (ops : List (Op V)) (scope name : String) (hn : name ≠ "") (id k : Nat) :
    let d := runS (step e a) {} ops
    Found e d scope name id → Found e d scope name k → k ≠ id → precOf d k = precOf d id →
    getByName e (setPriority d id .high).1 scope name ≠ some id ∧ setPriority d id .high = setPriority d id .low := by
  intro d hf hk hne hp
  refine ⟨fun h => ?_, ?_⟩
  · have := (get_after (inv_run e a ops) scope name hn id .high hf).1 h k hne hk
    change precOf d k < precOf d id at this
    rw [hp] at this
    exact absurd this (Int.lt_irrefl _)
  · rfl

/-- C327 (partial): if its precedence is above that of the others that match, the resource is found, as before. -/
theorem C327_high_partial (e : Env V) (a : Bool) (ops : List (Op V)) (scope name : String) (hn : name ≠ "") (id : Nat) :
    let d := runS (step e a) {} ops
    Found e d scope name id → (∀ k, k ≠ id → Found e d scope name k → precOf d k < precOf d id) →
    getByName e (setPriority d id .high).1 scope name = some id :=
  fun hf h => (get_after (inv_run e a ops) scope name hn id .high hf).2 h

def exOps : List (Op Int) := [.dbSet "x" "n" 1 none, .dbSet "*" "n" 2 none, .cfgSet 0 "y" "n" 3 false]

example : getByName exEnv (runS (step exEnv true) {} exOps) "x" "n" = some 0 ∧
    getByName exEnv (setPriority (runS (step exEnv true) {} exOps) 0 .low).1 "x" "n" = some 1 ∧
    getByName exEnv (setPriority (runS (step exEnv true) {} exOps) 1 .high).1 "x" "n" = some 0 := by decide

example : Found exEnv (runS (step exEnv true) {} exOps) "x" "n" 0 ∧ Found exEnv (runS (step exEnv true) {} exOps) "x" "n" 1 :=
  ⟨⟨_, rfl, rfl, by decide⟩, ⟨_, rfl, rfl, by decide⟩⟩

end Verif.RsrcPrio
