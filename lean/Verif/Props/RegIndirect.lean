import Verif.Model.RegIndirect
/-! # C197–C199: copies of register items; indirect registers -/
namespace Verif.RegIndirect

/-- The item is an old one and its list too. -/
def Old (s : St) (i : Nat) : Prop := i < s.next ∧ (s.items i).values < s.next

theorem clone_eq (s : St) (src : Nat) (hm : src ∉ s.copyMap) (ho : Old s src) :
    (clone s src).1 = { s with items := fun j => if j = s.next then s.items src else s.items j
                               lists := fun j => if j = s.next then 0 else s.lists j
                               next := s.next + 1
                               copyMap := src :: s.copyMap, depth := -1 } ∧ (clone s src).2 = s.next := by
  have hne : ¬ src = s.next := fun h => by have := ho.1; omega
  refine ⟨?_, rfl⟩
  simp only [clone, create, copy, enter, setVal, setItem, hm, decide_false, Bool.false_eq_true, if_false, assignAll, leave, hne]
  simp only [show ((0 : Int) - 1 = 0) = False by simp, if_false]
  congr 1
  funext j
  by_cases h : j = s.next <;> simp [h]

theorem clone_known (s : St) (src : Nat) (hm : src ∈ s.copyMap) :
    (clone s src).1.items (clone s src).2 = { values := s.next } ∧ (clone s src).1.lists s.next = 0 := by
  simp [clone, create, copy, enter, setVal, setItem, hm]

/-- C197: the first clone of an item has the contents of the item. -/
theorem C197_first_partial (s : St) (src : Nat) (hm : src ∉ s.copyMap) (ho : Old s src) :
    (clone s src).1.items (clone s src).2 = s.items src ∧ (clone s src).1.items src = s.items src ∧
    (clone s src).1.lists (s.items src).values = s.lists (s.items src).values := by
  have hne : ¬ src = s.next := fun h => by have := ho.1; omega
  have hnv : ¬ (s.items src).values = s.next := fun h => by have := ho.2; omega
  rw [(clone_eq s src hm ho).1, (clone_eq s src hm ho).2]
  simp [hne, hnv]

/-- C197 fails: the clone and the item have one list of values: a value written to the clone is a value written to the item. -/
theorem C197_shared_values_fails (s : St) (src v : Nat) (hm : src ∉ s.copyMap) (ho : Old s src) :
    let c := clone s src
    let t := setVal c.1 (c.1.items c.2).values v
    t.lists (t.items src).values = v := by
  have h := C197_first_partial s src hm ho
  simp only [setVal]
  rw [h.1, h.2.1]
  simp

/-- C197 fails: the second clone of an item is blank: it is a read of nothing, with the value 0. -/
theorem C197_second_blank_fails (s : St) (src : Nat) (hm : src ∉ s.copyMap) (ho : Old s src) :
    let c := clone (clone s src).1 src
    (c.1.items c.2).element = none ∧ (c.1.items c.2).kind = .read ∧ (c.1.items c.2).map = none ∧ c.1.lists (c.1.items c.2).values = 0 := by
  have hk : src ∈ (clone s src).1.copyMap := by rw [(clone_eq s src hm ho).1]; exact List.mem_cons_self ..
  have := clone_known (clone s src).1 src hk
  simp only
  rw [this.1]
  exact ⟨rfl, rfl, rfl, this.2⟩

/-- C197: until an object of another class is copied; then it works again, with a shared list. -/
theorem C197_again_partial (s : St) (key : Nat) (hk : key ∉ s.copyMap) : (otherCopy s key).copyMap = [] := by
  simp [otherCopy, enter, hk, leave]

theorem otherCopy_frame (s : St) (k : Nat) : (otherCopy s k).items = s.items ∧ (otherCopy s k).lists = s.lists ∧ (otherCopy s k).next = s.next ∧
    (otherCopy s k).bus = s.bus ∧ (otherCopy s k).token = s.token := by
  by_cases h : k ∈ s.copyMap <;> simp [otherCopy, enter, leave, h]

theorem others_frame (ks : List Nat) (s : St) : (ks.foldl otherCopy s).items = s.items ∧ (ks.foldl otherCopy s).lists = s.lists ∧ (ks.foldl otherCopy s).next = s.next ∧
    (ks.foldl otherCopy s).bus = s.bus ∧ (ks.foldl otherCopy s).token = s.token := by
  induction ks generalizing s with
  | nil => simp
  | cons k ks ih =>
    simp only [List.foldl_cons]
    obtain ⟨h1, h2, h3, h4, h5⟩ := ih (otherCopy s k)
    obtain ⟨g1, g2, g3, g4, g5⟩ := otherCopy_frame s k
    exact ⟨h1.trans g1, h2.trans g2, h3.trans g3, h4.trans g4, h5.trans g5⟩

theorem access_eq (d : Device) (s : St) (i reg : Nat) :
    (access d s i reg).bus = s.bus ++ [(reg, (s.items i).kind, s.lists (s.items i).values)] ∧ (access d s i reg).lists = s.lists ∧
    (access d s i reg).token = s.token ∧ (access d s i reg).next = s.next ∧ (access d s i reg).copyMap = (d.copies.foldl otherCopy s).copyMap ∧
    (access d s i reg).items i = { s.items i with element := some reg, ok := d.accepts reg (s.lists (s.items i).values) } ∧
    ∀ j, j ≠ i → (access d s i reg).items j = s.items j := by
  obtain ⟨h1, h2, h3, h4, h5⟩ := others_frame d.copies s
  simp only [access, setItem, h1, h2, h3, h4, h5]
  refine ⟨trivial, trivial, trivial, trivial, trivial, by simp, fun j hj => by simp [hj]⟩

/-- The index write: the state after it, for a first access with both registers free. -/
structure AfterIndex (d : Device) (addr data idx i : Nat) (s t : St) : Prop where
  bus : t.bus = s.bus ++ [(addr, .write, idx)]
  val : t.lists (s.items i).values = idx
  item : t.items i = s.items i
  token : t.token = fun r => if r = data then some s.next else if r = addr then some s.next else s.token r
  next : t.next = s.next + 1
  ok : (t.items s.next).ok = d.accepts addr idx
  map : t.copyMap = [i] ∨ i ∉ t.copyMap

theorem others_map (ks : List Nat) (s : St) (i : Nat) (hm : s.copyMap = [i] ∨ i ∉ s.copyMap) (hi : i ∉ ks) :
    (ks.foldl otherCopy s).copyMap = [i] ∨ i ∉ (ks.foldl otherCopy s).copyMap := by
  induction ks generalizing s with
  | nil => exact hm
  | cons k ks ih =>
    simp only [List.foldl_cons]
    apply ih _ _ (fun h => hi (List.mem_cons_of_mem _ h))
    by_cases h : k ∈ s.copyMap
    · simpa [otherCopy, enter, h] using hm
    · simp [otherCopy, enter, leave, h]

theorem body_split (d : Device) (addr data idx i : Nat) (s : St) (hm : s.copyMap = []) (ho : Old s i) (hne : addr ≠ data)
    (ha : s.token addr = none) (hd : s.token data = none) (hi : i ∉ d.copies) :
    ∃ t, AfterIndex d addr data idx i s t ∧ body d addr data idx i s = some (if d.accepts addr idx = false then t else finish d addr data i t) := by
  have hne' : ¬ i = s.next := fun h => by have := ho.1; omega
  have hnv : ¬ (s.items i).values = s.next := fun h => by have := ho.2; omega
  have hnm : i ∉ s.copyMap := by rw [hm]; simp
  obtain ⟨h1, h2⟩ := clone_eq s i hnm ho
  simp only [body, h1, h2]
  simp only [setItem, setVal, if_true]
  simp only [lock, ha, reduceCtorEq, if_false, if_true]
  have hda : ¬ data = addr := fun h => hne h.symm
  simp only [hda, if_false, hd, reduceCtorEq, if_true]
  generalize hg : (({ s with items := _, lists := _, next := _, copyMap := _, depth := _, token := _ } : St)) = g
  obtain ⟨a1, a2, a3, a4, a5, a6, a7⟩ := access_eq d g s.next addr
  have hgi : g.items s.next = { s.items i with element := some addr, kind := .write } := by rw [← hg]; simp
  have hgv : g.lists (s.items i).values = idx := by rw [← hg]; simp
  have hgb : g.bus = s.bus := by rw [← hg]
  have hgn : g.next = s.next + 1 := by rw [← hg]
  have hgt : g.token = fun r => if r = data then some s.next else if r = addr then some s.next else s.token r := by rw [← hg]
  have hgm : g.copyMap = [i] := by rw [← hg]; simp [hm]
  have hgo : g.items i = s.items i := by rw [← hg]; simp [hne']
  refine ⟨access d g s.next addr, ⟨?_, ?_, ?_, ?_, ?_, ?_, ?_⟩, ?_⟩
  · rw [a1, hgi, hgv, hgb]
  · rw [a2]; exact hgv
  · rw [a7 i hne', hgo]
  · rw [a3, hgt]
  · rw [a4, hgn]
  · rw [a6, hgi]; simp [hgv]
  · rw [a5]; exact others_map d.copies g i (.inl hgm) hi
  · rw [a6, hgi]
    simp only [hgv]
    cases d.accepts addr idx <;> simp

theorem finish_write (d : Device) (addr data i : Nat) (s : St) (ho : Old s i) (hk : (s.items i).kind = .write) (hm : s.copyMap = [i] ∨ i ∉ s.copyMap) :
    (finish d addr data i s).bus = s.bus ++ [if i ∈ s.copyMap then (data, .read, 0) else (data, .write, s.lists (s.items i).values)] ∧
    (finish d addr data i s).token = (fun r => if r = data then none else if r = addr then none else s.token r) ∧
    ((finish d addr data i s).items i).ok = d.accepts data (if i ∈ s.copyMap then 0 else s.lists (s.items i).values) := by
  have hne' : ¬ i = s.next := fun h => by have := ho.1; omega
  have hnv : ¬ (s.items i).values = s.next := fun h => by have := ho.2; omega
  by_cases h : i ∈ s.copyMap
  · simp only [finish]
    generalize hc : clone s i = c
    have hck := clone_known s i h
    have hcb : c.1.bus = s.bus ∧ c.1.token = s.token ∧ c.1.items i = s.items i ∧ c.2 = s.next := by
      rw [← hc]; simp [clone, create, copy, enter, setVal, setItem, h, hne']
    rw [hc] at hck
    obtain ⟨b1, b2, b3, b4⟩ := hcb
    rw [b4] at hck ⊢
    generalize hg : setItem c.1 s.next { c.1.items s.next with element := some data } = g
    have hgi : g.items i = s.items i := by rw [← hg]; simp [setItem, hne', b3]
    have hgn : g.items s.next = { values := s.next, element := some data } := by rw [← hg]; simp [setItem, hck.1]
    have hgl : g.lists s.next = 0 := by rw [← hg]; simp [setItem, hck.2]
    have hgb : g.bus = s.bus := by rw [← hg]; simp [setItem, b1]
    have hgt : g.token = s.token := by rw [← hg]; simp [setItem, b2]
    simp only [hgi, hk, if_true, h]
    obtain ⟨a1, a2, a3, a4, a5, a6, a7⟩ := access_eq d g s.next data
    refine ⟨?_, ?_, ?_⟩
    · simp only [setItem, unlock]; rw [a1, hgn, hgb]; simp [hgl]
    · simp only [setItem, unlock]; rw [a3, hgt]
    · simp only [setItem, unlock, if_true]; rw [a6, hgn]; simp [hgl]
  · obtain ⟨h1, h2⟩ := clone_eq s i h ho
    simp only [finish, h1, h2]
    generalize hg : setItem _ s.next _ = g
    have hgi : g.items i = s.items i := by rw [← hg]; simp [setItem, hne']
    have hgn : g.items s.next = { s.items i with element := some data } := by rw [← hg]; simp [setItem]
    have hgl : g.lists (s.items i).values = s.lists (s.items i).values := by rw [← hg]; simp [setItem, hnv]
    have hgb : g.bus = s.bus := by rw [← hg]; simp [setItem]
    have hgt : g.token = s.token := by rw [← hg]; simp [setItem]
    simp only [hgi, hk, if_true, h, if_false]
    obtain ⟨a1, a2, a3, a4, a5, a6, a7⟩ := access_eq d g s.next data
    refine ⟨?_, ?_, ?_⟩
    · simp only [setItem, unlock]; rw [a1, hgn, hgb]; simp [hgl, hk]
    · simp only [setItem, unlock]; rw [a3, hgt]
    · simp only [setItem, unlock, if_true]; rw [a6, hgn]; simp [hgl]

theorem AfterIndex.old {d : Device} {addr data idx i : Nat} {s t : St} (h : AfterIndex d addr data idx i s t) (ho : Old s i) : Old t i := by
  have := ho.1
  have := ho.2
  refine ⟨by rw [h.next]; omega, by rw [h.item, h.next]; omega⟩

/-- C198 fails: a write to an indirect register never sends the value that was to be written: after the index the bus sees a read of the data register, or a write of
the index.  The result is the same for every value. -/
theorem C198_value_lost_fails (d : Device) (addr data idx i : Nat) (s : St) (hm : s.copyMap = []) (ho : Old s i) (hne : addr ≠ data)
    (ha : s.token addr = none) (hd : s.token data = none) (hi : i ∉ d.copies) (hk : (s.items i).kind = .write) (hok : d.accepts addr idx = true) :
    ∃ t, body d addr data idx i s = some t ∧
      (t.bus = s.bus ++ [(addr, .write, idx), (data, .read, 0)] ∨ t.bus = s.bus ++ [(addr, .write, idx), (data, .write, idx)]) := by
  obtain ⟨t, ht, hb⟩ := body_split d addr data idx i s hm ho hne ha hd hi
  simp only [hok, Bool.true_eq_false, if_false] at hb
  refine ⟨_, hb, ?_⟩
  have hf := (finish_write d addr data i t (ht.old ho) (by rw [ht.item]; exact hk) ht.map).1
  rw [hf, ht.bus, ht.item, ht.val]
  by_cases h : i ∈ t.copyMap <;> simp [h]

/-- C198: what holds: the index of the register is written to the index register before anything else. -/
theorem C198_index_first_partial (d : Device) (addr data idx i : Nat) (s : St) (hm : s.copyMap = []) (ho : Old s i) (hne : addr ≠ data)
    (ha : s.token addr = none) (hd : s.token data = none) (hi : i ∉ d.copies) (hk : (s.items i).kind = .write) :
    ∃ t more, body d addr data idx i s = some t ∧ t.bus = s.bus ++ (addr, .write, idx) :: more ∧ (d.accepts addr idx = false → more = []) := by
  obtain ⟨t, ht, hb⟩ := body_split d addr data idx i s hm ho hne ha hd hi
  cases hok : d.accepts addr idx with
  | false => simp only [hok, if_true] at hb; exact ⟨t, [], hb, ht.bus, fun _ => rfl⟩
  | true =>
    simp only [hok, Bool.true_eq_false, if_false] at hb
    have hf := (finish_write d addr data i t (ht.old ho) (by rw [ht.item]; exact hk) ht.map).1
    exact ⟨_, _, hb, by rw [hf, ht.bus, List.append_assoc]; rfl, fun h => by cases h⟩

theorem clone_frame (s : St) (i : Nat) (hi : i < s.next) : (clone s i).1.bus = s.bus ∧ (clone s i).1.items i = s.items i ∧ (clone s i).2 = s.next := by
  have hne' : ¬ i = s.next := by omega
  by_cases h : i ∈ s.copyMap <;> simp [clone, create, copy, enter, setVal, setItem, h, hne', assignAll, leave]

/-- C198: a read through an indirect register gives the user what the data register has after the index was written. -/
theorem C198_read_partial (d : Device) (addr data idx i : Nat) (s : St) (hm : s.copyMap = []) (ho : Old s i) (hne : addr ≠ data)
    (ha : s.token addr = none) (hd : s.token data = none) (hi : i ∉ d.copies) (hk : (s.items i).kind = .read) (hok : d.accepts addr idx = true) :
    ∃ t, body d addr data idx i s = some t ∧ t.lists (t.items i).values = d.readData data ∧ t.bus.map (fun b => (b.1, b.2.1)) =
      s.bus.map (fun b => (b.1, b.2.1)) ++ [(addr, .write), (data, .read)] := by
  obtain ⟨t, ht, hb⟩ := body_split d addr data idx i s hm ho hne ha hd hi
  simp only [hok, Bool.true_eq_false, if_false] at hb
  refine ⟨_, hb, ?_⟩
  have hot := ht.old ho
  have hkt : (t.items i).kind = .read := by rw [ht.item]; exact hk
  have hne' : ¬ i = t.next := fun h => by have := hot.1; omega
  obtain ⟨b1, b3, b4⟩ := clone_frame t i hot.1
  have hkind : ((clone t i).1.items t.next).kind = .read := by
    by_cases h : i ∈ t.copyMap
    · have := (clone_known t i h).1
      rw [b4] at this
      rw [this]
    · rw [(clone_eq t i h hot).1]; simp [hkt]
  simp only [finish]
  rw [b4]
  generalize hg : setItem (clone t i).1 t.next { (clone t i).1.items t.next with element := some data } = g
  have hgi : g.items i = t.items i := by rw [← hg]; simp [setItem, hne', b3]
  have hgn : (g.items t.next).kind = .read := by rw [← hg]; simp [setItem, hkind]
  have hgb : g.bus = t.bus := by rw [← hg]; simp [setItem, b1]
  simp only [hgi, hkt, reduceCtorEq, if_false]
  obtain ⟨a1, a2, a3, a4, a5, a6, a7⟩ := access_eq d g t.next data
  have ha7 := a7 i hne'
  refine ⟨?_, ?_⟩
  · simp only [setItem, unlock, setVal, if_true]
  · simp only [setItem, unlock, setVal]
    rw [a1, hgb, hgn, ht.bus]
    simp

/-- C199: after a write that got through, both registers are free again, and the status is that of the access to the data register. -/
theorem C199_released_partial (d : Device) (addr data idx i : Nat) (s : St) (hm : s.copyMap = []) (ho : Old s i) (hne : addr ≠ data)
    (ha : s.token addr = none) (hd : s.token data = none) (hi : i ∉ d.copies) (hk : (s.items i).kind = .write) (hok : d.accepts addr idx = true) :
    ∃ t v, body d addr data idx i s = some t ∧ t.token = s.token ∧ (t.items i).ok = d.accepts data v ∧ ∃ k, t.bus = s.bus ++ [(addr, .write, idx), (data, k, v)] := by
  obtain ⟨t, ht, hb⟩ := body_split d addr data idx i s hm ho hne ha hd hi
  simp only [hok, Bool.true_eq_false, if_false] at hb
  obtain ⟨h1, h2, h3⟩ := finish_write d addr data i t (ht.old ho) (by rw [ht.item]; exact hk) ht.map
  refine ⟨_, _, hb, ?_, h3, ?_⟩
  · rw [h2, ht.token]
    funext r
    by_cases hr : r = data
    · simp [hr, hd]
    · by_cases hr2 : r = addr <;> simp [hr, hr2, ha]
  · rw [h1, ht.bus]
    by_cases h : i ∈ t.copyMap <;> simp [h]

/-- C199 fails: if the device refuses the index, both registers stay locked for ever, and the user is told that all is well. -/
theorem C199_refused_fails (d : Device) (addr data idx i : Nat) (s : St) (hm : s.copyMap = []) (ho : Old s i) (hne : addr ≠ data)
    (ha : s.token addr = none) (hd : s.token data = none) (hi : i ∉ d.copies) (hok : d.accepts addr idx = false) (hst : (s.items i).ok = true) :
    ∃ t, body d addr data idx i s = some t ∧ (t.items i).ok = true ∧ ∀ j, j ≠ s.next → lock t addr j = none ∧ lock t data j = none := by
  obtain ⟨t, ht, hb⟩ := body_split d addr data idx i s hm ho hne ha hd hi
  simp only [hok, if_true] at hb
  refine ⟨t, hb, by rw [ht.item]; exact hst, fun j hj => ?_⟩
  have hj' : ¬ s.next = j := fun h => hj h.symm
  constructor
  · simp [lock, ht.token, hj', hne]
  · simp [lock, ht.token, hj']

/-- C199: the item that holds a register does not wait for itself; others do until it is given back. -/
theorem C199_owner_partial (s : St) (reg i : Nat) (h : s.token reg = some i) :
    lock s reg i = some s ∧ (∀ j, j ≠ i → lock s reg j = none) ∧ ∀ j, (lock (unlock s reg) reg j).isSome = true := by
  refine ⟨by simp [lock, h], fun j hj => ?_, fun j => by simp [lock, unlock]⟩
  have : ¬ i = j := fun e => hj e.symm
  simp [lock, h, this]

/-- C199: a prediction for the data register goes to the register of the table that the index register points to, or nowhere. -/
theorem C199_predict_partial (tbl : List Nat) (n : Nat) : predictTarget tbl n = tbl[n]? := by
  simp only [predictTarget]
  split
  · rw [List.getElem?_eq_none (by omega)]
  · rfl

/-- One item: a write of 77 to register 5 of the table. -/
def ex0 : St := { items := fun _ => { element := some 9, kind := .write, values := 1 }, lists := fun _ => 77, next := 2 }

-- the value 77 does not arrive
example : (body ⟨fun _ _ => true, fun _ => 0, []⟩ 3 4 5 0 ex0).map (·.bus) = some [(3, .write, 5), (4, .read, 0)] ∧
    (body ⟨fun _ _ => true, fun _ => 0, [8]⟩ 3 4 5 0 ex0).map (·.bus) = some [(3, .write, 5), (4, .write, 5)] ∧ Old ex0 0 ∧ ex0.copyMap = [] := by
  refine ⟨by decide, by decide, ⟨by decide, by decide⟩, rfl⟩

end Verif.RegIndirect
