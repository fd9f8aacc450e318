import Verif.Spec.Resource
/-! # Helper lemmas for resources -/
namespace Verif.Resource
variable {V : Type}

theorem bestOf_spec (q : List (Rsrc V)) : ∀ best, IsHighest (best :: q) (bestOf best q) := by
  induction q with
  | nil => intro best; exact ⟨[], [], rfl, by simp, by simp⟩
  | cons x q ih =>
    intro best
    unfold bestOf
    split
    · rename_i h
      obtain ⟨pre, post, heq, h1, h2⟩ := ih x
      refine ⟨best :: pre, post, by rw [heq]; rfl, ?_, h2⟩
      intro y hy
      rcases List.mem_cons.mp hy with rfl | hy
      · cases pre with
        | nil => simp at heq; rw [← heq.1]; exact h
        | cons z pre =>
          simp at heq
          have := h1 z (by simp)
          rw [← heq.1] at this
          omega
      · exact h1 y hy
    · rename_i h
      obtain ⟨pre, post, heq, h1, h2⟩ := ih best
      cases pre with
      | nil =>
        simp at heq
        refine ⟨[], x :: post, by rw [← heq.1, heq.2]; rfl, by simp, ?_⟩
        intro y hy
        rcases List.mem_cons.mp hy with rfl | hy
        · rw [← heq.1]; omega
        · exact h2 y hy
      | cons z pre =>
        simp at heq
        obtain ⟨hz, hq⟩ := heq
        subst hz
        refine ⟨best :: x :: pre, post, by simpa using hq, ?_, h2⟩
        have hb := h1 best (by simp)
        intro y hy
        simp only [List.mem_cons] at hy
        rcases hy with rfl | rfl | hy
        · exact hb
        · omega
        · exact h1 y (by simp [hy])

theorem highest_spec (q : List (Rsrc V)) (r : Rsrc V) (h : highest q = some r) : IsHighest q r := by
  cases q with
  | nil => simp [highest] at h
  | cons x q => simp only [highest, Option.some.injEq] at h; rw [← h]; exact bestOf_spec q x

theorem highest_mem {q : List (Rsrc V)} {r : Rsrc V} (h : highest q = some r) : r ∈ q := by
  obtain ⟨pre, post, rfl, _⟩ := highest_spec q r h; simp

theorem highest_some {q : List (Rsrc V)} (h : q ≠ []) : ∃ r, highest q = some r := by
  cases q with
  | nil => exact absurd rfl h
  | cons x q => exact ⟨_, rfl⟩

/-- With equal precedences the first wins. -/
theorem highest_eq_head {q : List (Rsrc V)} (p : Int) (h : ∀ r ∈ q, r.prec = p) : highest q = q.head? := by
  cases q with
  | nil => rfl
  | cons x q =>
    simp only [highest, List.head?_cons, Option.some.injEq]
    have hx := h x (by simp)
    have hq : ∀ r ∈ q, r.prec = p := fun r hr => h r (by simp [hr])
    clear h
    induction q with
    | nil => rfl
    | cons y q ih =>
      unfold bestOf
      have := hq y (by simp)
      rw [if_neg (by omega)]
      exact ih (fun r hr => hq r (by simp [hr]))

/-- Resources with a given name, in the order of the name table. -/
def entries (d : Db V) (f : String) : List (Rsrc V) := (d.rtab f).filterMap (d.heap[·]?)

structure Inv (d : Db V) : Prop where
  valid : ∀ f id, id ∈ d.rtab f → ∃ r, d.heap[id]? = some r ∧ r.name = f
  nodup : ∀ f, (d.rtab f).Nodup
  listed : ∀ (id : Nat) r, d.heap[id]? = some r → r.name ≠ "" → id ∈ d.rtab r.name
  cfg : ∀ c k id, d.cfg c k = some id ↔ ∃ r, d.heap[id]? = some r ∧ r.creator = some c ∧ lookupKey r.scope r.name = k

theorem inv_init : Inv ({} : Db V) := ⟨by simp, by simp, by simp, by simp⟩

theorem bestId_eq {d : Db V} (q : List Nat) : ∀ (i : Nat) (r : Rsrc V), d.heap[i]? = some r → (∀ j ∈ q, ∃ r, d.heap[j]? = some r) →
    d.heap[bestId d i q]? = some (bestOf r (q.filterMap (d.heap[·]?))) ∧ bestId d i q ∈ i :: q := by
  induction q with
  | nil => intro i r h _; exact ⟨h, by simp [bestId]⟩
  | cons j q ih =>
    intro i r hi hq
    obtain ⟨rj, hj⟩ := hq j (by simp)
    have hq' : ∀ j ∈ q, ∃ r, d.heap[j]? = some r := fun k hk => hq k (by simp [hk])
    unfold bestId
    simp only [hi, hj, Option.map_some, Option.getD_some, List.filterMap_cons, bestOf]
    split
    · obtain ⟨h1, h2⟩ := ih j rj hj hq'
      exact ⟨h1, List.mem_cons_of_mem _ h2⟩
    · obtain ⟨h1, h2⟩ := ih i r hi hq'
      refine ⟨h1, ?_⟩
      rcases List.mem_cons.mp h2 with h | h
      · simp [h]
      · simp [h]

theorem getByName_none {e : Env V} {d : Db V} {scope name : String} : getByName e d scope name = none ↔ lookupName e d scope name = [] := by
  unfold getByName; split <;> simp_all

theorem lookup_read {e : Env V} {d : Db V} (hd : Inv d) (scope f : String) (hf : f ≠ "") :
    (lookupName e d scope f).filterMap (d.heap[·]?) = (entries d f).filter fun r => e.matchScope r.scope scope := by
  unfold lookupName entries
  rw [if_neg hf]
  have hv := hd.valid f
  generalize d.rtab f = l at hv
  induction l with
  | nil => rfl
  | cons i l ih =>
    obtain ⟨r, hr, _⟩ := hv i (by simp)
    have ih := ih (fun id hid => hv id (by simp [hid]))
    by_cases hm : e.matchScope r.scope scope = true
    · simp [hr, hm, List.filter_cons, ih]
    · simp [hr, hm, List.filter_cons, ih]

/-- What a lookup by name reads. -/
theorem getByName_read {e : Env V} {d : Db V} (hd : Inv d) (scope f : String) (hf : f ≠ "") :
    (getByName e d scope f).bind (d.heap[·]?) = highest ((entries d f).filter fun r => e.matchScope r.scope scope) := by
  have hfm := lookup_read (e := e) hd scope f hf
  rw [← hfm]
  have hval : ∀ j ∈ lookupName e d scope f, ∃ r, d.heap[j]? = some r := by
    intro j hj
    unfold lookupName at hj
    rw [if_neg hf] at hj
    obtain ⟨r, hr, _⟩ := hd.valid f j (List.mem_filter.mp hj).1
    exact ⟨r, hr⟩
  unfold getByName
  cases hl : lookupName e d scope f with
  | nil => rfl
  | cons i q =>
    rw [hl] at hval
    obtain ⟨r, hr⟩ := hval i (by simp)
    have := (bestId_eq (d := d) q i r hr (fun j hj => hval j (by simp [hj]))).1
    simp [hr, highest, this]

theorem cfgGet_eq {e : Env V} {d : Db V} (hd : Inv d) (ctx : Nat) (inst f : String) (hf : f ≠ "") :
    cfgGet e d ctx inst f = (highest ((entries d f).filter fun r => e.matchScope r.scope (instName e ctx inst))).map (·.val) := by
  rw [← getByName_read hd _ f hf]
  unfold cfgGet
  cases getByName e d (instName e ctx inst) f <;> rfl

theorem dbRead_eq {e : Env V} {d : Db V} (hd : Inv d) (scope f : String) (hf : f ≠ "") :
    dbRead e d scope f = (highest ((entries d f).filter fun r => e.matchScope r.scope scope)).map (·.val) := by
  rw [← getByName_read hd _ f hf]
  unfold dbRead
  cases getByName e d scope f <;> rfl

@[simp] theorem write_name (e : Env V) (a : Bool) (r : Rsrc V) (v : V) (acc : Option String) :
    (write e a r v acc).name = r.name ∧ (write e a r v acc).scope = r.scope ∧ (write e a r v acc).prec = r.prec ∧
    (write e a r v acc).creator = r.creator ∧ (write e a r v acc).readOnly = r.readOnly := by
  unfold write recordWrite; (repeat' split) <;> simp_all

theorem write_val (e : Env V) (a : Bool) (r : Rsrc V) (v : V) (acc : Option String) (hr : r.readOnly = false) :
    SameVal e (write e a r v acc).val v := by
  unfold write SameVal
  simp only [hr, Bool.false_eq_true, if_false]
  split
  · right; assumption
  · left; rfl

/-! ## What one `set` does -/

def hasKey (c : Nat) (path : String) (r : Rsrc V) : Bool := r.creator == some c && r.scope == path

/-- The effect of a `set` on the entries of its field. -/
def specSet (e : Env V) (a : Bool) (l : List (Rsrc V)) (c : Call V) : List (Rsrc V) :=
  let path := instName e c.ctx c.inst
  match l.find? (hasKey c.ctx path) with
  | none => write e a { name := c.field, scope := path, val := e.none, prec := setPrec e c.ctx c.build, creator := some c.ctx } c.val
      (some (e.fullName c.ctx)) :: l
  | some r => l.filter (fun r => !hasKey c.ctx path r) ++
      [write e a { r with prec := setPrec e c.ctx c.build } c.val (some (e.fullName c.ctx))]

def doSet (e : Env V) (a : Bool) (d : Db V) (c : Call V) : Db V := cfgSet e a d c.ctx c.inst c.field c.val c.build

theorem getElem?_append_one {α} (l : List α) (x : α) (i : Nat) : (l ++ [x])[i]? = if i = l.length then some x else l[i]? := by
  by_cases h : i = l.length
  · subst h; simp
  · simp only [h, if_false]
    by_cases hlt : i < l.length
    · rw [List.getElem?_append_left hlt]
    · rw [List.getElem?_eq_none (by simp; omega), List.getElem?_eq_none (by omega)]

theorem rtab_lt {d : Db V} (hd : Inv d) {f : String} {id : Nat} (h : id ∈ d.rtab f) : id < d.heap.length := by
  obtain ⟨r, hr, _⟩ := hd.valid f id h
  exact (List.getElem?_eq_some_iff.mp hr).1

theorem poolSet_eq (t : String → List Nat) (name : String) (id : Nat) (o : Bool) (f : String) :
    poolSet t name id o f = if f = name then (if o then id :: (if name ≠ "" then t name else []) else (if name ≠ "" then t name else []) ++ [id]) else t f := by
  simp [poolSet, setTab]

theorem inv_add {d : Db V} (hd : Inv d) (r : Rsrc V) (o : Bool) (cfg' : Nat → String → Option Nat)
    (hcfg : ∀ c k, cfg' c k = if r.creator = some c ∧ lookupKey r.scope r.name = k then some d.heap.length else d.cfg c k)
    (hnew : ∀ c, r.creator = some c → d.cfg c (lookupKey r.scope r.name) = none) :
    Inv { heap := d.heap ++ [r], rtab := poolSet d.rtab r.name d.heap.length o, cfg := cfg' } := by
  have hfresh : ∀ f, d.heap.length ∉ d.rtab f := fun f h => Nat.lt_irrefl _ (rtab_lt hd h)
  refine ⟨?_, ?_, ?_, ?_⟩
  · intro f id hid
    simp only [poolSet_eq] at hid
    simp only [getElem?_append_one]
    split at hid
    · rename_i hf
      by_cases hi : id = d.heap.length
      · exact ⟨r, by simp [hi], hf.symm⟩
      · have : id ∈ d.rtab r.name := by
          (repeat' split at hid) <;> simp_all
        obtain ⟨r', hr', hn⟩ := hd.valid _ _ this
        exact ⟨r', by simp [hi, hr'], hn.trans hf.symm⟩
    · obtain ⟨r', hr', hn⟩ := hd.valid _ _ hid
      have : id ≠ d.heap.length := Nat.ne_of_lt (rtab_lt hd hid)
      exact ⟨r', by simp [this, hr'], hn⟩
  · intro f
    simp only [poolSet_eq]
    have := hd.nodup r.name
    have h2 := hfresh r.name
    (repeat' split)
    · exact List.nodup_cons.mpr ⟨h2, this⟩
    · simp
    · rw [List.nodup_append]; exact ⟨this, by simp, by intro a ha b hb; simp at hb; subst hb; rintro rfl; exact h2 ha⟩
    · simp
    · exact hd.nodup f
  · intro id r' hr' hne
    simp only [getElem?_append_one] at hr'
    simp only [poolSet_eq]
    by_cases hi : id = d.heap.length
    · simp only [hi, if_true, Option.some.injEq] at hr'
      subst hr'
      cases o <;> simp [hi]
    · simp only [hi, if_false] at hr'
      have := hd.listed id r' hr' hne
      split
      · rename_i hf
        rw [hf] at this hne
        cases o <;> simp [hne, this]
      · exact this
  · intro c k id
    simp only [getElem?_append_one, hcfg]
    by_cases hi : id = d.heap.length
    · subst hi
      simp only [if_true, Option.some.injEq]
      constructor
      · intro h
        split at h
        · rename_i hc; exact ⟨r, rfl, hc⟩
        · have := (hd.cfg c k _).mp h
          obtain ⟨r', hr', _⟩ := this
          simp at hr'
      · rintro ⟨r', rfl, h⟩; simp [h]
    · simp only [hi, if_false]
      rw [← hd.cfg c k id]
      split
      · rename_i hc
        have := hnew c hc.1
        rw [hc.2] at this
        simp [this, Ne.symm hi]
      · rfl

theorem inv_modify {d : Db V} (hd : Inv d) (id : Nat) (f : Rsrc V → Rsrc V)
    (hf : ∀ r, (f r).name = r.name ∧ (f r).scope = r.scope ∧ (f r).creator = r.creator) : Inv (modify d id f) := by
  have hg : ∀ j r', (modify d id f).heap[j]? = some r' ↔ ∃ r, d.heap[j]? = some r ∧ r' = if j = id then f r else r := by
    intro j r'
    simp only [modify, List.getElem?_modify]
    cases d.heap[j]? with
    | none => simp
    | some r => by_cases h : id = j <;> simp [h, eq_comm]
  refine ⟨?_, hd.nodup, ?_, ?_⟩
  · intro n j hj
    obtain ⟨r, hr, hn⟩ := hd.valid n j hj
    refine ⟨_, (hg j _).mpr ⟨r, hr, rfl⟩, ?_⟩
    split
    · rw [(hf r).1]; exact hn
    · exact hn
  · intro j r' hr' hne
    obtain ⟨r, hr, rfl⟩ := (hg j r').mp hr'
    have hname : (if j = id then f r else r).name = r.name := by split; exact (hf r).1; rfl
    rw [hname] at hne ⊢
    exact hd.listed j r hr hne
  · intro c k j
    show d.cfg c k = some j ↔ _
    rw [hd.cfg]
    constructor
    · rintro ⟨r, hr, h1, h2⟩
      refine ⟨_, (hg j _).mpr ⟨r, hr, rfl⟩, ?_⟩
      split
      · rw [(hf r).1, (hf r).2.1, (hf r).2.2]; exact ⟨h1, h2⟩
      · exact ⟨h1, h2⟩
    · rintro ⟨r', hr', h1, h2⟩
      obtain ⟨r, hr, rfl⟩ := (hg j r').mp hr'
      refine ⟨r, hr, ?_⟩
      split at h1
      · rename_i hj
        rw [if_pos hj, (hf r).1, (hf r).2.1] at h2
        rw [(hf r).2.2] at h1
        exact ⟨h1, h2⟩
      · rename_i hj
        rw [if_neg hj] at h2
        exact ⟨h1, h2⟩

theorem inv_setPriority {d : Db V} (hd : Inv d) (id : Nat) (name : String) : Inv (setPriorityName d id name) := by
  unfold setPriorityName
  split
  · rename_i hm
    have hmem : ∀ f j, j ∈ setTab d.rtab name ((d.rtab name).erase id ++ [id]) f ↔ j ∈ d.rtab f := by
      intro f j
      simp only [setTab]
      split
      · rename_i hf
        subst hf
        simp only [List.mem_append, List.mem_singleton]
        constructor
        · rintro (h | rfl)
          · exact List.mem_of_mem_erase h
          · exact hm
        · intro h
          by_cases hj : j = id
          · exact Or.inr hj
          · exact Or.inl ((List.mem_erase_of_ne hj).mpr h)
      · rfl
    refine ⟨?_, ?_, ?_, hd.cfg⟩
    · intro f j hj; exact hd.valid f j ((hmem f j).mp hj)
    · intro f
      simp only [setTab]
      split
      · have hn := hd.nodup name
        rw [List.nodup_append]
        refine ⟨hn.erase id, by simp, ?_⟩
        intro a ha b hb
        simp at hb; subst hb
        rintro rfl
        exact (List.Nodup.not_mem_erase hn) ha
      · exact hd.nodup f
    · intro j r hr hne; exact (hmem _ _).mpr (hd.listed j r hr hne)
  · exact hd

theorem inv_doSet {e : Env V} {a : Bool} {d : Db V} (hd : Inv d) (c : Call V) : Inv (doSet e a d c) := by
  unfold doSet cfgSet
  simp only
  split
  · rename_i hnone
    let r0 : Rsrc V := { name := c.field, scope := instName e c.ctx c.inst, val := e.none, prec := setPrec e c.ctx c.build, creator := some c.ctx }
    have key := inv_add hd (write e a r0 c.val (some (e.fullName c.ctx))) true
      (fun c' k => if c' = c.ctx ∧ k = lookupKey (instName e c.ctx c.inst) c.field then some d.heap.length else d.cfg c' k)
      (by intro c' k; simp [r0, write_name, eq_comm]) (by intro c' hc'; simp [r0, write_name] at hc' ⊢; rw [← hc']; exact hnone)
    simpa [r0, write_name] using key
  · exact inv_setPriority (inv_modify hd _ _ (by intro r; simp [write_name])) _ _

theorem entries_congr {d : Db V} (f : String) (heap' : List (Rsrc V)) (h : ∀ id ∈ d.rtab f, heap'[id]? = d.heap[id]?) :
    (d.rtab f).filterMap (heap'[·]?) = entries d f := by
  unfold entries
  generalize d.rtab f = l at h
  induction l with
  | nil => rfl
  | cons i l ih =>
    simp only [List.filterMap_cons, h i (by simp)]
    rw [ih (fun id hid => h id (by simp [hid]))]

theorem find_entries {d : Db V} (hd : Inv d) (c : Nat) (path f : String) (hf : f ≠ "") :
    (entries d f).find? (hasKey c path) = (d.cfg c (lookupKey path f)).bind fun id => (d.heap[id]?).bind fun r =>
      if r.name = f then some r else none := by
  have key : ∀ r, (r ∈ entries d f ∧ hasKey c path r = true) → ∃ id, d.cfg c (lookupKey path f) = some id ∧ d.heap[id]? = some r ∧ r.name = f := by
    rintro r ⟨hr, hk⟩
    unfold entries at hr
    obtain ⟨id, hid, hr⟩ := List.mem_filterMap.mp hr
    obtain ⟨r', hr', hn⟩ := hd.valid f id hid
    rw [hr] at hr'; cases hr'
    simp only [hasKey, Bool.and_eq_true, beq_iff_eq] at hk
    exact ⟨id, (hd.cfg _ _ _).mpr ⟨r, hr, hk.1, by rw [hk.2, hn]⟩, hr, hn⟩
  cases hfind : (entries d f).find? (hasKey c path) with
  | some r =>
    have h1 := List.find?_some hfind
    obtain ⟨id, h2, h3, h4⟩ := key r ⟨List.mem_of_find?_eq_some hfind, h1⟩
    simp [h2, h3, h4]
  | none =>
    rw [List.find?_eq_none] at hfind
    cases hc : d.cfg c (lookupKey path f) with
    | none => rfl
    | some id =>
      obtain ⟨r, hr, h1, h2⟩ := (hd.cfg _ _ _).mp hc
      simp only [Option.bind_some, hr]
      by_cases hn : r.name = f
      · exfalso
        have hscope : r.scope = path := by
          rw [hn] at h2
          unfold lookupKey at h2
          have := congrArg String.toList h2
          simp only [String.toList_append] at this
          have := List.append_cancel_right this
          have := List.append_cancel_right this
          exact String.toList_inj.mp this
        have hmem : r ∈ entries d f := by
          unfold entries
          exact List.mem_filterMap.mpr ⟨id, by have := hd.listed id r hr (by rw [hn]; exact hf); rwa [hn] at this, hr⟩
        exact hfind r hmem (by simp [hasKey, h1, hscope])
      · simp [hn]

/-- Entries after a `set`. -/
theorem entries_doSet {e : Env V} {a : Bool} {d : Db V} (hd : Inv d) (c : Call V) (f : String) (hf : f ≠ "")
    (hcol : ∀ (id : Nat) r, d.heap[id]? = some r → lookupKey r.scope r.name = lookupKey (instName e c.ctx c.inst) c.field → r.name = c.field) :
    entries (doSet e a d c) f = if c.field = f then specSet e a (entries d f) c else entries d f := by
  unfold doSet cfgSet
  simp only
  generalize hpath : instName e c.ctx c.inst = path at *
  cases hcfg : d.cfg c.ctx (lookupKey path c.field) with
  | none =>
    simp only
    have hold : ∀ id ∈ d.rtab f, ∀ x : Rsrc V, (d.heap ++ [x])[id]? = d.heap[id]? := by
      intro id hid x; rw [List.getElem?_append_left (rtab_lt hd hid)]
    by_cases hcf : c.field = f
    · subst hcf
      simp only [if_true, specSet, hpath]
      rw [find_entries hd _ _ _ hf, hcfg]
      simp only [Option.bind_none]
      unfold entries
      simp only [poolSet_eq, if_true, hf, ne_eq, not_false_eq_true, List.filterMap_cons]
      simp only [List.getElem?_append_right (Nat.le_refl _), Nat.sub_self, List.getElem?_cons_zero]
      congr 1
      exact entries_congr _ _ (fun id hid => hold id hid _)
    · simp only [hcf, if_false]
      unfold entries
      simp only [poolSet_eq, Ne.symm hcf, if_false]
      exact entries_congr _ _ (fun id hid => hold id hid _)
  | some id =>
    simp only
    obtain ⟨r, hr, hcr, hkey⟩ := (hd.cfg _ _ _).mp hcfg
    have hname : r.name = c.field := hcol id r hr hkey
    have hr2 : (modify d id fun r => write e a { r with prec := setPrec e c.ctx c.build } c.val (some (e.fullName c.ctx))).heap[id]? =
        some (write e a { r with prec := setPrec e c.ctx c.build } c.val (some (e.fullName c.ctx))) := by
      simp [modify, List.getElem?_modify, hr]
    rw [hr2]
    simp only [write_name, hname]
    have hother : ∀ j, j ≠ id → (modify d id fun r => write e a { r with prec := setPrec e c.ctx c.build } c.val (some (e.fullName c.ctx))).heap[j]? =
        d.heap[j]? := by
      intro j hj
      simp [modify, List.getElem?_modify, Ne.symm hj]
    have hrtab : (modify d id fun r => write e a { r with prec := setPrec e c.ctx c.build } c.val (some (e.fullName c.ctx))).rtab = d.rtab := rfl
    generalize (modify d id fun r => write e a { r with prec := setPrec e c.ctx c.build } c.val (some (e.fullName c.ctx))) = d1 at *
    by_cases hcf : c.field = f
    · subst hcf
      have hidm : id ∈ d.rtab c.field := by have := hd.listed id r hr (by rw [hname]; exact hf); rwa [hname] at this
      simp only [if_true, specSet, hpath]
      rw [find_entries hd _ _ _ hf, hcfg]
      simp only [Option.bind_some, hr, if_pos hname]
      unfold setPriorityName
      rw [if_pos (by rw [hrtab]; exact hidm)]
      unfold entries
      simp only [setTab, if_true, hrtab, List.filterMap_append, List.filterMap_cons, List.filterMap_nil, hr2]
      congr 1
      rw [List.Nodup.erase_eq_filter (hd.nodup _)]
      have hval := hd.valid c.field
      generalize d.rtab c.field = l at hval
      induction l with
      | nil => rfl
      | cons j l ih =>
        obtain ⟨rj, hrj, hnj⟩ := hval j (by simp)
        have ih := ih (fun id hid => hval id (by simp [hid]))
        have hiff : hasKey c.ctx path rj = true ↔ j = id := by
          simp only [hasKey, Bool.and_eq_true, beq_iff_eq]
          constructor
          · rintro ⟨h1, h2⟩
            have := (hd.cfg c.ctx (lookupKey path c.field) j).mpr ⟨rj, hrj, h1, by rw [h2, hnj]⟩
            rw [hcfg] at this; cases this; rfl
          · rintro rfl
            rw [hr] at hrj; cases hrj
            refine ⟨hcr, ?_⟩
            rw [hname] at hkey
            unfold lookupKey at hkey
            have := congrArg String.toList hkey
            simp only [String.toList_append] at this
            exact String.toList_inj.mp (List.append_cancel_right (List.append_cancel_right this))
        by_cases hj : j = id
        · have := hiff.mpr hj
          simp only [List.filter_cons, hj, bne_self_eq_false, Bool.false_eq_true, if_false, List.filterMap_cons]
          rw [ih]
          subst hj
          rw [hrj]
          simp only [List.filter_cons, this, Bool.not_true, Bool.false_eq_true, if_false]
        · have h' : hasKey c.ctx path rj = false := by
            cases hh : hasKey c.ctx path rj
            · rfl
            · exact absurd (hiff.mp hh) hj
          have hne : (j != id) = true := by simpa using hj
          simp only [List.filter_cons, hne, if_true, List.filterMap_cons, hother j hj, hrj, h', Bool.not_false, ih]
    · simp only [hcf, if_false]
      have hnot : id ∉ d.rtab f := by
        intro h
        obtain ⟨r', hr', hn⟩ := hd.valid f id h
        rw [hr] at hr'; cases hr'
        exact hcf (hname.symm.trans hn)
      unfold setPriorityName
      have : ∀ id' ∈ d.rtab f, d1.heap[id']? = d.heap[id']? := fun id' hid' => hother id' (by rintro rfl; exact hnot hid')
      split
      · unfold entries
        simp only [setTab, Ne.symm hcf, if_false, hrtab]
        exact entries_congr f _ this
      · unfold entries
        simp only [hrtab]
        exact entries_congr f _ this

/-! ## Histories of `set` -/

theorem setAll_snoc (e : Env V) (a : Bool) (l : List (Call V)) (c : Call V) : setAll e a (l ++ [c]) = doSet e a (setAll e a l) c := by
  simp [setAll, doSet, List.foldl_append]

theorem heap_doSet {e : Env V} {a : Bool} {d : Db V} (c : Call V) (id : Nat) (r : Rsrc V) (h : (doSet e a d c).heap[id]? = some r) :
    (r.name = c.field ∧ r.scope = instName e c.ctx c.inst) ∨ ∃ r', d.heap[id]? = some r' ∧ r.name = r'.name ∧ r.scope = r'.scope := by
  unfold doSet cfgSet at h
  simp only at h
  split at h
  · simp only [getElem?_append_one] at h
    split at h
    · cases h; left; simp [write_name]
    · right; exact ⟨r, h, rfl, rfl⟩
  · right
    have hh : ∀ (d : Db V) (i : Nat) (n : String), (setPriorityName d i n).heap = d.heap := by
      intro d i n; unfold setPriorityName; split <;> rfl
    rw [hh] at h
    simp only [modify, List.getElem?_modify] at h
    obtain ⟨r', hr', hx⟩ := Option.map_eq_some_iff.mp h
    refine ⟨r', hr', ?_⟩
    rw [← hx]; split <;> simp [write_name]

theorem heap_setAll (e : Env V) (a : Bool) (l : List (Call V)) : ∀ (id : Nat) r, (setAll e a l).heap[id]? = some r →
    ∃ c ∈ l, r.name = c.field ∧ r.scope = instName e c.ctx c.inst := by
  obtain ⟨k, rfl⟩ : ∃ k, l = List.reverse k := ⟨l.reverse, by simp⟩
  induction k with
  | nil => intro id r h; simp [setAll] at h
  | cons c k ih =>
    intro id r h
    rw [List.reverse_cons, setAll_snoc] at h
    rcases heap_doSet c id r h with h | ⟨r', hr', h1, h2⟩
    · exact ⟨c, by simp, h⟩
    · obtain ⟨c', hc', h3, h4⟩ := ih id r' hr'
      exact ⟨c', by simp at hc' ⊢; exact Or.inl hc', h1.trans h3, h2.trans h4⟩

theorem inv_setAll (e : Env V) (a : Bool) (l : List (Call V)) : Inv (setAll e a l) := by
  obtain ⟨k, rfl⟩ : ∃ k, l = List.reverse k := ⟨l.reverse, by simp⟩
  induction k with
  | nil => exact inv_init
  | cons c k ih => rw [List.reverse_cons, setAll_snoc]; exact inv_doSet ih c

/-- Entries of a field after a history. -/
def specEntries (e : Env V) (a : Bool) (f : String) (l : List (Call V)) : List (Rsrc V) :=
  l.foldl (fun acc c => if c.field = f then specSet e a acc c else acc) []

theorem specEntries_snoc (e : Env V) (a : Bool) (f : String) (l : List (Call V)) (c : Call V) :
    specEntries e a f (l ++ [c]) = if c.field = f then specSet e a (specEntries e a f l) c else specEntries e a f l := by
  simp [specEntries, List.foldl_append]

theorem NoCollision.left {e : Env V} {l k : List (Call V)} (h : NoCollision e (l ++ k)) : NoCollision e l :=
  fun c hc c' hc' => h c (by simp [hc]) c' (by simp [hc'])

theorem entries_setAll (e : Env V) (a : Bool) (f : String) (hf : f ≠ "") (l : List (Call V)) (hcol : NoCollision e l) :
    entries (setAll e a l) f = specEntries e a f l := by
  obtain ⟨k, rfl⟩ : ∃ k, l = List.reverse k := ⟨l.reverse, by simp⟩
  induction k with
  | nil => simp [setAll, entries, specEntries]
  | cons c k ih =>
    rw [List.reverse_cons] at hcol ⊢
    rw [setAll_snoc, specEntries_snoc, entries_doSet (inv_setAll e a _) c f hf, ih hcol.left]
    intro id r hr hkey
    obtain ⟨c', hc', h1, h2⟩ := heap_setAll e a _ id r hr
    rw [h1, h2] at hkey
    rw [h1]
    exact hcol c' (by simp at hc' ⊢; exact Or.inl hc') c (by simp) hkey

/-- Entries come from calls. -/
theorem specEntries_mem (e : Env V) (a : Bool) (f : String) (l : List (Call V)) : ∀ r ∈ specEntries e a f l,
    r.readOnly = false ∧ ∃ c ∈ l, c.field = f ∧ r.creator = some c.ctx ∧ r.scope = instName e c.ctx c.inst ∧ r.prec = setPrec e c.ctx c.build := by
  obtain ⟨k, rfl⟩ : ∃ k, l = List.reverse k := ⟨l.reverse, by simp⟩
  induction k with
  | nil => simp [specEntries]
  | cons c k ih =>
    rw [List.reverse_cons, specEntries_snoc]
    have lift : ∀ r : Rsrc V, (r.readOnly = false ∧ ∃ c ∈ k.reverse, c.field = f ∧ r.creator = some c.ctx ∧ r.scope = instName e c.ctx c.inst ∧
        r.prec = setPrec e c.ctx c.build) → (r.readOnly = false ∧ ∃ c' ∈ k.reverse ++ [c], c'.field = f ∧ r.creator = some c'.ctx ∧
        r.scope = instName e c'.ctx c'.inst ∧ r.prec = setPrec e c'.ctx c'.build) := by
      rintro r ⟨h0, c', hc', h⟩
      exact ⟨h0, c', List.mem_append_left _ hc', h⟩
    split
    · rename_i hcf
      unfold specSet
      simp only
      split
      · intro r hr
        rcases List.mem_cons.mp hr with rfl | hr
        · simp only [write_name, true_and]
          exact ⟨c, by simp, hcf, rfl, rfl, rfl⟩
        · exact lift r (ih r hr)
      · rename_i r0 hfind
        have h0 := ih r0 (List.mem_of_find?_eq_some hfind)
        have hk : hasKey c.ctx (instName e c.ctx c.inst) r0 = true := List.find?_some (p := hasKey c.ctx (instName e c.ctx c.inst)) hfind
        simp only [hasKey, Bool.and_eq_true, beq_iff_eq] at hk
        intro r hr
        rcases List.mem_append.mp hr with hr | hr
        · exact lift r (ih r (List.mem_filter.mp hr).1)
        · simp only [List.mem_singleton] at hr
          subst hr
          simp only [write_name]
          exact ⟨h0.1, c, by simp, hcf, hk.1, hk.2, rfl⟩
    · intro r hr; exact lift r (ih r hr)

/-- A `set` that does not match leaves the matching entries alone. -/
theorem specSet_nomatch (e : Env V) (a : Bool) (l : List (Rsrc V)) (c : Call V) (path : String)
    (h : e.matchScope (instName e c.ctx c.inst) path = false) :
    (specSet e a l c).filter (fun r => e.matchScope r.scope path) = l.filter (fun r => e.matchScope r.scope path) := by
  unfold specSet
  simp only
  split
  · simp [List.filter_cons, write_name, h]
  · rename_i r0 hfind
    have hk : hasKey c.ctx (instName e c.ctx c.inst) r0 = true := List.find?_some (p := hasKey c.ctx (instName e c.ctx c.inst)) hfind
    simp only [hasKey, Bool.and_eq_true, beq_iff_eq] at hk
    rw [List.filter_append, List.filter_filter]
    have : [write e a { r0 with prec := setPrec e c.ctx c.build } c.val (some (e.fullName c.ctx))].filter
        (fun r => e.matchScope r.scope path) = [] := by
      simp [List.filter_cons, write_name, hk.2, h]
    rw [this, List.append_nil]
    apply List.filter_congr
    intro r _
    by_cases hm : e.matchScope r.scope path = true
    · have : hasKey c.ctx (instName e c.ctx c.inst) r = false := by
        cases hh : hasKey c.ctx (instName e c.ctx c.inst) r
        · rfl
        · simp only [hasKey, Bool.and_eq_true, beq_iff_eq] at hh
          rw [hh.2] at hm; simp [hm] at h
      simp [hm, this]
    · simp [hm]

theorem specEntries_post (e : Env V) (a : Bool) (f path : String) (l post : List (Call V)) (h : ∀ c ∈ post, ¬ c.Matches e path f) :
    (specEntries e a f (l ++ post)).filter (fun r => e.matchScope r.scope path) =
      (specEntries e a f l).filter (fun r => e.matchScope r.scope path) := by
  induction post generalizing l with
  | nil => simp
  | cons c post ih =>
    have := ih (l ++ [c]) (fun c hc => h c (by simp [hc]))
    rw [List.append_assoc, List.singleton_append] at this
    rw [this, specEntries_snoc]
    split
    · rename_i hcf
      apply specSet_nomatch
      have := h c (by simp)
      simp only [Call.Matches, hcf, true_and] at this
      simpa using this
    · rfl

/-- The entry with the key of a call, after that call, is the only one with that key, and has the call's value and precedence. -/
theorem specSet_key (e : Env V) (a : Bool) (l : List (Rsrc V)) (c : Call V) (hro : ∀ r ∈ l, r.readOnly = false) :
    ∃ r, (r ∈ specSet e a l c ∧ hasKey c.ctx (instName e c.ctx c.inst) r = true ∧ SameVal e r.val c.val ∧ r.prec = setPrec e c.ctx c.build) ∧
      (∀ r' ∈ specSet e a l c, hasKey c.ctx (instName e c.ctx c.inst) r' = true → r' = r) := by
  unfold specSet
  simp only
  split
  · rename_i hfind
    rw [List.find?_eq_none] at hfind
    refine ⟨_, ⟨List.mem_cons_self, by simp [hasKey, write_name], write_val _ _ _ _ _ rfl, by simp [write_name]⟩, ?_⟩
    intro r' hr' hk
    rcases List.mem_cons.mp hr' with rfl | hr'
    · rfl
    · exact absurd hk (hfind r' hr')
  · rename_i r0 hfind
    have hk : hasKey c.ctx (instName e c.ctx c.inst) r0 = true := List.find?_some (p := hasKey c.ctx (instName e c.ctx c.inst)) hfind
    refine ⟨_, ⟨List.mem_append_right _ (List.mem_singleton.mpr rfl), ?_,
      write_val _ _ _ _ _ (hro r0 (List.mem_of_find?_eq_some hfind)), by simp [write_name]⟩, ?_⟩
    · simpa [hasKey, write_name] using hk
    · intro r' hr' hk'
      rcases List.mem_append.mp hr' with hr' | hr'
      · have := (List.mem_filter.mp hr').2
        simp [hk'] at this
      · exact List.mem_singleton.mp hr'

/-- A `set` with another key keeps the entries of a key. -/
theorem specSet_other (e : Env V) (a : Bool) (l : List (Rsrc V)) (c : Call V) (ctx : Nat) (path : String)
    (h : ¬ (c.ctx = ctx ∧ instName e c.ctx c.inst = path)) (r : Rsrc V) (hk : hasKey ctx path r = true) :
    r ∈ specSet e a l c ↔ r ∈ l := by
  have hne : ∀ r : Rsrc V, hasKey ctx path r = true → hasKey c.ctx (instName e c.ctx c.inst) r = false := by
    intro r hr
    cases hh : hasKey c.ctx (instName e c.ctx c.inst) r
    · rfl
    · exfalso
      simp only [hasKey, Bool.and_eq_true, beq_iff_eq] at hr hh
      apply h
      rw [hr.1] at hh
      simp at hh
      exact ⟨hh.1.symm, by rw [← hh.2]; exact hr.2⟩
  unfold specSet
  simp only
  split
  · simp only [List.mem_cons]
    constructor
    · rintro (rfl | h')
      · have := hne _ hk; simp [hasKey, write_name] at this
      · exact h'
    · exact Or.inr
  · rename_i r0 hfind
    have hk0 : hasKey c.ctx (instName e c.ctx c.inst) r0 = true := List.find?_some (p := hasKey c.ctx (instName e c.ctx c.inst)) hfind
    simp only [List.mem_append, List.mem_filter, List.mem_singleton, hne r hk, Bool.not_false, and_true]
    constructor
    · rintro (h' | rfl)
      · exact h'
      · exfalso
        have h3 := hne _ hk
        simp only [hasKey, Bool.and_eq_true, beq_iff_eq] at hk0
        simp [hasKey, write_name, hk0] at h3
    · exact Or.inl

/-- After a history whose last call for its key is `c`: exactly one entry has that key. -/
theorem specEntries_key (e : Env V) (a : Bool) (f : String) (pre post : List (Call V)) (c : Call V) (hcf : c.field = f)
    (hpost : ∀ c' ∈ post, ¬ c.SameKey e c') :
    ∃ r, (r ∈ specEntries e a f (pre ++ c :: post) ∧ hasKey c.ctx (instName e c.ctx c.inst) r = true ∧ SameVal e r.val c.val ∧
        r.prec = setPrec e c.ctx c.build) ∧
      (∀ r' ∈ specEntries e a f (pre ++ c :: post), hasKey c.ctx (instName e c.ctx c.inst) r' = true → r' = r) := by
  have base := specSet_key e a (specEntries e a f pre) c (fun r hr => (specEntries_mem e a f pre r hr).1)
  have hsn : specEntries e a f (pre ++ [c]) = specSet e a (specEntries e a f pre) c := by rw [specEntries_snoc, if_pos hcf]
  rw [← hsn] at base
  have step : ∀ (post' : List (Call V)) (l : List (Call V)), (∀ c' ∈ post', ¬ c.SameKey e c') → ∀ r,
      hasKey c.ctx (instName e c.ctx c.inst) r = true → (r ∈ specEntries e a f (l ++ post') ↔ r ∈ specEntries e a f l) := by
    intro post'
    induction post' with
    | nil => intro l _ r _; simp
    | cons c' post' ih =>
      intro l hp r hk
      have := ih (l ++ [c']) (fun c hc => hp c (by simp [hc])) r hk
      rw [List.append_assoc, List.singleton_append] at this
      rw [this, specEntries_snoc]
      split
      · rename_i hcf'
        apply specSet_other _ _ _ _ _ _ _ _ hk
        rintro ⟨h1, h2⟩
        exact hp c' (by simp) ⟨h1.symm, h2.symm, by rw [hcf, hcf']⟩
      · rfl
  have heq : pre ++ c :: post = (pre ++ [c]) ++ post := by simp
  rw [heq]
  obtain ⟨r, ⟨h1, h2, h3⟩, h4⟩ := base
  refine ⟨r, ⟨(step post (pre ++ [c]) hpost r h2).mpr h1, h2, h3⟩, ?_⟩
  intro r' hr' hk'
  exact h4 r' ((step post (pre ++ [c]) hpost r' hk').mp hr') hk'

/-! ## Sorting -/

def flatGroups (g : List (Int × List (Rsrc V))) : List (Rsrc V) := g.foldl (fun qq g => g.2.foldl (fun qq r => r :: qq) qq) []

theorem foldl_cons_eq {α} (l acc : List α) : l.foldl (fun qq r => r :: qq) acc = l.reverse ++ acc := by
  induction l generalizing acc with
  | nil => rfl
  | cons x l ih => simp [ih]

theorem flatGroups_aux (g : List (Int × List (Rsrc V))) (acc : List (Rsrc V)) :
    g.foldl (fun qq g => g.2.foldl (fun qq r => r :: qq) qq) acc = (g.flatMap (·.2)).reverse ++ acc := by
  induction g generalizing acc with
  | nil => rfl
  | cons x g ih =>
    simp only [List.foldl_cons, foldl_cons_eq] at ih ⊢
    rw [ih]; simp

theorem sort_eq (q : List (Rsrc V)) : sortByPrecedence q = ((q.foldl pushGroup []).flatMap (·.2)).reverse := by
  unfold sortByPrecedence; rw [flatGroups_aux]; simp

theorem pushGroup_perm (g : List (Int × List (Rsrc V))) (r : Rsrc V) : ((pushGroup g r).flatMap (·.2)).Perm (r :: g.flatMap (·.2)) := by
  induction g with
  | nil => simp [pushGroup]
  | cons x g ih =>
    obtain ⟨p, l⟩ := x
    unfold pushGroup
    split
    · simp
    · simp only [List.flatMap_cons]
      exact (List.Perm.append_left l ih).trans List.perm_middle

theorem groups_perm (q : List (Rsrc V)) (g : List (Int × List (Rsrc V))) :
    ((q.foldl pushGroup g).flatMap (·.2)).Perm (q ++ g.flatMap (·.2)) := by
  induction q generalizing g with
  | nil => simp
  | cons x q ih =>
    simp only [List.foldl_cons, List.cons_append]
    exact (ih _).trans (((pushGroup_perm g x).append_left q).trans List.perm_middle)

theorem pushGroup_filter (g : List (Int × List (Rsrc V))) (r : Rsrc V) (p : Int) (hg : ∀ x ∈ g, ∀ y ∈ x.2, y.prec = x.1)
    (hnd : (g.map (·.1)).Nodup) :
    ((pushGroup g r).flatMap (·.2)).filter (fun y => y.prec = p) =
      (if r.prec = p then [r] else []) ++ (g.flatMap (·.2)).filter (fun y => y.prec = p) ∧
    (∀ x ∈ pushGroup g r, ∀ y ∈ x.2, y.prec = x.1) ∧ ((pushGroup g r).map (·.1)).Nodup ∧
    (∀ k, k ∈ (pushGroup g r).map (·.1) ↔ k = r.prec ∨ k ∈ g.map (·.1)) := by
  induction g with
  | nil =>
    refine ⟨?_, by simp [pushGroup], by simp [pushGroup], by simp [pushGroup]⟩
    by_cases h : r.prec = p <;> simp [pushGroup, h]
  | cons x g ih =>
    obtain ⟨k, l⟩ := x
    simp only [List.map_cons, List.nodup_cons] at hnd
    obtain ⟨ih1, ih2, ih3, ih4⟩ := ih (fun x hx => hg x (by simp [hx])) hnd.2
    have hl : ∀ y ∈ l, y.prec = k := hg (k, l) (by simp)
    unfold pushGroup
    split
    · rename_i hk
      refine ⟨?_, ?_, ?_, ?_⟩
      · by_cases h : r.prec = p <;> simp [List.flatMap_cons, List.filter_append, List.filter_cons, h]
      · intro x hx y hy
        rcases List.mem_cons.mp hx with rfl | hx
        · rcases List.mem_cons.mp hy with rfl | hy
          · exact hk.symm
          · exact hl y hy
        · exact hg x (by simp [hx]) y hy
      · simpa using hnd
      · intro k'; simp only [List.map_cons, List.mem_cons]
        constructor
        · exact Or.inr
        · rintro (h | h)
          · exact Or.inl (h.trans hk.symm)
          · exact h
    · rename_i hk
      refine ⟨?_, ?_, ?_, ?_⟩
      · simp only [List.flatMap_cons, List.filter_append, ih1]
        by_cases h : r.prec = p
        · have : l.filter (fun y => decide (y.prec = p)) = [] := by
            rw [List.filter_eq_nil_iff]; intro y hy
            rw [hl y hy, ← h]; simpa using hk
          simp [h, this]
        · simp [h]
      · intro x hx y hy
        rcases List.mem_cons.mp hx with rfl | hx
        · exact hl y hy
        · exact ih2 x hx y hy
      · simp only [List.map_cons, List.nodup_cons]
        refine ⟨?_, ih3⟩
        rw [ih4]
        rintro (h | h)
        · exact hk h
        · exact hnd.1 h
      · intro k'
        simp only [List.map_cons, List.mem_cons, ih4]
        constructor
        · rintro (h | h | h)
          · exact Or.inr (Or.inl h)
          · exact Or.inl h
          · exact Or.inr (Or.inr h)
        · rintro (h | h | h)
          · exact Or.inr (Or.inl h)
          · exact Or.inl h
          · exact Or.inr (Or.inr h)

theorem groups_filter (q : List (Rsrc V)) (p : Int) (g : List (Int × List (Rsrc V))) (hg : ∀ x ∈ g, ∀ y ∈ x.2, y.prec = x.1)
    (hnd : (g.map (·.1)).Nodup) :
    ((q.foldl pushGroup g).flatMap (·.2)).filter (fun y => y.prec = p) =
      (q.filter (fun y => y.prec = p)).reverse ++ (g.flatMap (·.2)).filter (fun y => y.prec = p) := by
  induction q generalizing g with
  | nil => simp
  | cons x q ih =>
    obtain ⟨h1, h2, h3, _⟩ := pushGroup_filter g x p hg hnd
    simp only [List.foldl_cons]
    rw [ih _ h2 h3, h1]
    by_cases h : x.prec = p <;> simp [h, List.filter_cons]

end Verif.Resource
