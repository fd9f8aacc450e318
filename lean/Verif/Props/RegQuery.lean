import Verif.Model.RegQuery
import Verif.Props.MapSel
import Verif.Props.RegMap
/-! # Properties of the address queries of registers (C293-C296) -/
namespace Verif.RegQuery
open Verif.MapSel (RMap localReg Reaches Named C157_local_map)
open Verif.RegMap (Map Cfg physAddrs Entry initTable getRegByOffset narrowest Positive C18_bus_width C19_lookup_finds_a_claimant)

/-- The map `l` of a register serves queries about the map `m`: it is `m`, or `m` is not a map of the register and `l` is the first of
its maps that lies below `m`. -/
def ServedBy (maps : List RMap) (m l : RMap) : Prop :=
  (l = m ∧ l ∈ maps) ∨
  (m ∉ maps ∧ ∃ xs ys, maps = xs ++ l :: ys ∧ Reaches m.name l ∧ ∀ x ∈ xs, ¬ Reaches m.name x)

theorem first_unique {P : RMap → Prop} {l l' : RMap} : ∀ {xs xs' ys ys' : List RMap}, xs ++ l :: ys = xs' ++ l' :: ys' →
    P l → P l' → (∀ x ∈ xs, ¬ P x) → (∀ x ∈ xs', ¬ P x) → l = l'
  | [], [], _, _, h, _, _, _, _ => by simp at h; exact h.1
  | [], x :: _, _, _, h, p, _, _, n => by simp at h; exact absurd (h.1 ▸ p) (n x (by simp))
  | x :: _, [], _, _, h, _, p, n, _ => by simp at h; exact absurd (h.1 ▸ p) (n x (by simp))
  | x :: xs, x' :: xs', _, _, h, p, p', n, n' => by
    simp only [List.cons_append, List.cons.injEq] at h
    exact first_unique h.2 p p' (fun y hy => n y (by simp [hy])) (fun y hy => n' y (by simp [hy]))

theorem served (dflt : RMap → Option RMap) (maps : List RMap) (m l : RMap) (hn : Named maps m) (hs : ServedBy maps m l) :
    localReg dflt maps (some m) = (some l, 0) := by
  obtain ⟨h1, h2, h3, h4⟩ := C157_local_map dflt maps m hn
  have hne : (localReg dflt maps (some m)).1 ≠ none := by
    intro h
    have := h2.1 h
    rcases hs with ⟨rfl, hl⟩ | ⟨-, xs, ys, e, hr, -⟩
    · exact this l hl (.inl rfl)
    · exact this l (by simp [e]) hr
  obtain ⟨x, hx⟩ := Option.ne_none_iff_exists'.1 hne
  obtain ⟨a, b, c, d⟩ := h1 x hx
  have hxl : x = l := by
    rcases hs with ⟨rfl, hl⟩ | ⟨hm, xs, ys, e, hr, hx'⟩
    · exact c hl
    · obtain ⟨xs', ys', e', hx''⟩ := d hm
      exact first_unique (P := fun y => Reaches m.name y) (e'.symm.trans e) b hr hx'' hx'
  exact Prod.ext (hx.trans (by rw [hxl])) (h4 hne)

/-- C293. In a locked model, for a register that is mapped: the offset, the addresses (added to the caller's list) and the bus width
given for a map are those of the map that serves it; no warning. -/
theorem C293_mapped (c : Ctx) (m l : RMap) (i : Info) (hn : Named c.maps m) (hs : ServedBy c.maps m l) (hi : c.info l = some i)
    (hinit : i.initialized = true) (hmap : i.unmapped = false) :
    getOffset c (some m) = .ok i.offset 0 ∧
    (∀ addr, getAddresses c (some m) addr = .ok (c.width l, addr ++ i.addr) 0) ∧
    getAddress c (some m) = .ok i.addr.head? 0 := by
  have h := served c.dflt c.maps m l hn hs
  have ha : ∀ addr, getAddresses c (some m) addr = .ok (c.width l, addr ++ i.addr) 0 := by
    intro addr; simp [getAddresses, h, hi, mapInfo, hinit, hmap]
  refine ⟨by simp [getOffset, h, hi, mapInfo, hinit, hmap], ha, ?_⟩
  rw [getAddress, ha]
  cases i.addr <;> rfl

/-- C293. A register that is added to the map as unmapped: offset -1, no addresses, one warning for each query. -/
theorem C293_unmapped (c : Ctx) (m l : RMap) (i : Info) (hn : Named c.maps m) (hs : ServedBy c.maps m l) (hi : c.info l = some i)
    (hinit : i.initialized = true) (hmap : i.unmapped = true) :
    getOffset c (some m) = .ok (-1) 1 ∧ (∀ addr, getAddresses c (some m) addr = .ok (-1, addr) 1) ∧
    getAddress c (some m) = .ok none 1 := by
  have h := served c.dflt c.maps m l hn hs
  have ha : ∀ addr, getAddresses c (some m) addr = .ok (-1, addr) 1 := by
    intro addr; simp [getAddresses, h, hi, mapInfo, hinit, hmap]
  exact ⟨by simp [getOffset, h, hi, mapInfo, hinit, hmap], ha, by rw [getAddress, ha]⟩

/-- C293. Locking makes the queries available for unmapped registers too. -/
theorem C293_unmapped_locked (c : Ctx) (m l : RMap) (mp : Map) (n : Nat) (i : Info) (hn : Named c.maps m) (hs : ServedBy c.maps m l)
    (hi : c.info l = some (initInfo mp n i)) (hmap : i.unmapped = true) :
    getOffset c (some m) = .ok (-1) 1 ∧ (∀ addr, getAddresses c (some m) addr = .ok (-1, addr) 1) ∧
    getAddress c (some m) = .ok none 1 :=
  C293_unmapped c m l _ hn hs hi (by simp [initInfo, hmap]) (by simp [initInfo, hmap])

/-- C293. A register that is not in the map, at any depth: the same answers, with one warning. -/
theorem C293_not_in_map (c : Ctx) (m : RMap) (hn : Named c.maps m) (h0 : ∀ l ∈ c.maps, ¬ Reaches m.name l) :
    getOffset c (some m) = .ok (-1) 1 ∧ (∀ addr, getAddresses c (some m) addr = .ok (-1, addr) 1) ∧
    getAddress c (some m) = .ok none 1 := by
  obtain ⟨-, h2, h3, -⟩ := C157_local_map c.dflt c.maps m hn
  have h := Prod.ext (x := localReg c.dflt c.maps (some m)) (y := (none, 1)) (h2.2 h0) (h3 (h2.2 h0))
  have ha : ∀ addr, getAddresses c (some m) addr = .ok (-1, addr) 1 := by intro addr; simp [getAddresses, h]
  exact ⟨by simp [getOffset, h], ha, by rw [getAddress, ha]⟩

/-- C293. Without a map, a register in a single map answers for that map, and a register in none gives -1 and a warning. -/
theorem C293_without_map (c : Ctx) :
    (∀ m, c.maps = [m] → getOffset c none = getOffset c (some m) ∧ (∀ addr, getAddresses c none addr = getAddresses c (some m) addr) ∧
      getAddress c none = getAddress c (some m)) ∧
    (c.maps = [] → getOffset c none = .ok (-1) 1 ∧ ∀ addr, getAddresses c none addr = .ok (-1, addr) 1) := by
  constructor
  · intro m hm
    have h : localReg c.dflt c.maps none = localReg c.dflt c.maps (some m) := by
      rw [hm]; simp [localReg, MapSel.defaultReg, MapSel.localOf]
    simp [getOffset, getAddresses, getAddress, h]
  · intro hm
    have h : localReg c.dflt c.maps none = (none, 1) := by rw [hm]; rfl
    simp [getOffset, getAddresses, h]

/-- C293. Before the model is locked every query about a map that has the register is a fatal error. -/
theorem C293_not_locked (c : Ctx) (m l : RMap) (i : Info) (hn : Named c.maps m) (hs : ServedBy c.maps m l) (hi : c.info l = some i)
    (hinit : i.initialized = false) :
    getOffset c (some m) = .fatal ∧ (∀ addr, getAddresses c (some m) addr = .fatal) ∧ getAddress c (some m) = .fatal := by
  have h := served c.dflt c.maps m l hn hs
  have ha : ∀ addr, getAddresses c (some m) addr = .fatal := by intro addr; simp [getAddresses, h, hi, mapInfo, hinit]
  exact ⟨by simp [getOffset, h, hi, mapInfo, hinit], ha, by rw [getAddress, ha]⟩

/-- A register in two subsystem maps. -/
def exCtx : Ctx where
  maps := [MapSel.subA, .sub 2 MapSel.top]
  info := fun l => if l.name = 1 then some ⟨4, false, true, [0x104, 0x106]⟩ else some ⟨8, true, true, []⟩
  dflt := fun _ => none
  width := fun _ => 2
example : ServedBy exCtx.maps MapSel.top MapSel.subA :=
  .inr ⟨by decide, [], _, rfl, .inr ⟨MapSel.top, by decide, rfl⟩, by simp⟩
example : getAddresses exCtx (some MapSel.top) [7] = .ok (2, [7, 0x104, 0x106]) 0 := by decide
example : getOffset exCtx (some (.sub 2 MapSel.top)) = .ok (-1) 1 := by decide
example : getAddress exCtx (some (.root 9)) = .ok none 1 := by decide

/-- A register of the model: what the map it is in sees, where that map lies, its offset there, its size in bytes. -/
structure Placed where
  acc : Nat → RegField.Acc
  rg : Nat
  map : Map
  offset : Nat
  bytes : Nat

/-- The table of the root map after locking (`Verif.RegMap.initTable`), for these registers. -/
def lockedTable (ps : List Placed) : RegMap.Table := initTable (ps.map fun p => ⟨p.acc, p.rg, (physAddrs p.map p.offset 0 p.bytes []).1⟩)

theorem fold_ne_nil (f : List Nat → Nat → List Nat × Nat) (hf : ∀ x a, (f x a).1 ≠ []) : ∀ (as : List Nat) (s : List Nat × List Nat × Nat),
    as ≠ [] ∨ s.1 ≠ [] → (as.foldl (fun s a => (s.1 ++ (f s.2.1 a).1, (f s.2.1 a).1, (f s.2.1 a).2)) s).1 ≠ []
  | [], s, h => by simpa using h
  | a :: as, s, _ => fold_ne_nil f hf as _ (.inr (by simp [hf]))

theorem phys_ne_nil (m : Map) (hp : Positive m) : ∀ (base mo n : Nat) (x : List Nat), 1 ≤ n → (physAddrs m base mo n x).1 ≠ [] := by
  induction m with
  | root c b =>
    intro base mo n x hn
    have : ¬ n = 0 := by omega
    simp [physAddrs, this, RegMap.localAddrs_ne_nil c base mo n hn]
  | sub c off p ih =>
    intro base mo n x hn
    have : ¬ n = 0 := by omega
    simp only [physAddrs, this, if_false]
    exact fold_ne_nil (fun x a => physAddrs p (off + a * RegMap.ratio c.nBytes p.cfg.nBytes) 0 c.nBytes x)
      (fun x a => ih hp.2 _ _ _ _ hp.1) _ _ (.inl (RegMap.localAddrs_ne_nil c base mo n hn))

/-- C294. The addresses a register gives are the addresses at which the root map finds it, for reads and for writes, as long as no
other register has an address in common with it; and it gives at least one address. -/
theorem C294_round_trip (c : Ctx) (m l : RMap) (ps : List Placed) (p : Placed) (hn : Named c.maps m) (hs : ServedBy c.maps m l)
    (hp : p ∈ ps) (i : Info) (hmap : i.unmapped = false) (hoff : i.offset = p.offset) (hi : c.info l = some (initInfo p.map p.bytes i))
    (hpos : Positive p.map) (hb : 1 ≤ p.bytes)
    (hdis : ∀ q ∈ ps, q.rg ≠ p.rg → ∀ a ∈ (physAddrs q.map q.offset 0 q.bytes []).1, a ∉ (physAddrs p.map p.offset 0 p.bytes []).1) :
    (∃ a, getAddress c (some m) = .ok (some a) 0) ∧
    (∀ n as w, getAddresses c (some m) [] = .ok (n, as) w → ∀ a ∈ as, ∀ rd, getRegByOffset (lockedTable ps) a rd = some p.rg) ∧
    (∀ a w, getAddress c (some m) = .ok (some a) w → ∀ rd, getRegByOffset (lockedTable ps) a rd = some p.rg) := by
  have key : ∀ a ∈ (physAddrs p.map p.offset 0 p.bytes []).1, ∀ rd, getRegByOffset (lockedTable ps) a rd = some p.rg := by
    intro a ha rd
    obtain ⟨h1, h2⟩ := C19_lookup_finds_a_claimant (ps.map fun p => ⟨p.acc, p.rg, (physAddrs p.map p.offset 0 p.bytes []).1⟩) a rd
    obtain ⟨r, hr⟩ := Option.isSome_iff_exists.1 (h2 ⟨_, List.mem_map.2 ⟨p, hp, rfl⟩, ha⟩)
    obtain ⟨e, he, her, hea⟩ := h1 r hr
    obtain ⟨q, hq, rfl⟩ := List.mem_map.1 he
    by_cases hqr : q.rg = p.rg
    · rw [lockedTable, hr, ← her, ← hqr]
    · exact absurd ha (hdis q hq hqr a hea)
  have hin : (initInfo p.map p.bytes i).initialized = true := by simp [initInfo, hmap]
  have hun : (initInfo p.map p.bytes i).unmapped = false := by simp [initInfo, hmap]
  have had : (initInfo p.map p.bytes i).addr = (physAddrs p.map p.offset 0 p.bytes []).1 := by simp [initInfo, hmap, hoff]
  obtain ⟨-, h2, h3⟩ := C293_mapped c m l _ hn hs hi hin hun
  rw [had] at h2 h3
  refine ⟨?_, ?_, ?_⟩
  · rw [h3]
    have := phys_ne_nil p.map hpos p.offset 0 p.bytes [] hb
    cases hc : (physAddrs p.map p.offset 0 p.bytes []).1 with
    | nil => exact absurd hc this
    | cons a as => exact ⟨a, rfl⟩
  · intro n as w h a ha
    rw [h2] at h
    simp only [List.nil_append, Res.ok.injEq, Prod.mk.injEq] at h
    exact key a (h.1.2 ▸ ha)
  · intro a w h
    rw [h3] at h
    simp only [Res.ok.injEq] at h
    exact key a (List.mem_of_mem_head? (by rw [h.1]; rfl))

/-- The map of the examples: 2 bytes, big-endian, below nothing, at 0x100. -/
def exMap : Map := .root ⟨2, true, .big⟩ 0x100
def exPs : List Placed := [⟨fun _ => .RW, 5, exMap, 0, 4⟩, ⟨fun _ => .RW, 6, exMap, 4, 2⟩]
example : getRegByOffset (lockedTable exPs) 0x102 true = some 5 ∧ (initInfo exMap 4 ⟨0, false, false, []⟩).addr = [0x102, 0x100] ∧
    getRegByOffset (lockedTable exPs) 0x104 false = some 6 ∧ getRegByOffset (lockedTable exPs) 0x106 false = none := by decide
example : ∀ q ∈ exPs, q.rg ≠ 5 → ∀ a ∈ (physAddrs q.map q.offset 0 q.bytes []).1, a ∉ (physAddrs exMap 0 0 4 []).1 := by decide

/-- C295. In a root map that is not big-endian, and for registers of one word in any root map, the address of a register
(`get_address`) is the lowest of its addresses and is base address plus offset. -/
theorem C295_lowest_partial (c : Ctx) (m : RMap) (cfg : Cfg) (b n : Nat) (i : Info) (hn : Named c.maps m) (hm : m ∈ c.maps) (h1 : 1 ≤ n)
    (hmap : i.unmapped = false) (hi : c.info m = some (initInfo (.root cfg b) n i))
    (he : (cfg.endian ≠ .big ∧ cfg.endian ≠ .none) ∨ n ≤ cfg.nBytes) :
    getAddress c (some m) = .ok (some (b + i.offset)) 0 ∧
    ∀ w as k, getAddresses c (some m) [] = .ok (w, as) k → ∀ a ∈ as, b + i.offset ≤ a := by
  have hin : (initInfo (.root cfg b) n i).initialized = true := by simp [initInfo, hmap]
  have hun : (initInfo (.root cfg b) n i).unmapped = false := by simp [initInfo, hmap]
  have had : (initInfo (.root cfg b) n i).addr = (physAddrs (.root cfg b) i.offset 0 n []).1 := by simp [initInfo, hmap]
  obtain ⟨-, h2, h3⟩ := C293_mapped c m m _ hn (.inl ⟨rfl, hm⟩) hi hin hun
  rw [had] at h2 h3
  have hlow : (physAddrs (.root cfg b) i.offset 0 n []).1.head? = some (b + i.offset) ∧
      ∀ a ∈ (physAddrs (.root cfg b) i.offset 0 n []).1, b + i.offset ≤ a := by
    by_cases hle : n ≤ cfg.nBytes
    · have : ¬ n = 0 := by omega
      simp [physAddrs, this, RegMap.localAddrs, hle, Nat.add_comm]
    · obtain ⟨hb, hnn⟩ : cfg.endian ≠ .big ∧ cfg.endian ≠ .none := by
        rcases he with h | h
        · exact h
        · omega
      have : ¬ n = 0 := by omega
      have hw : RegMap.words n cfg.nBytes = (n - 1) / cfg.nBytes + 1 := rfl
      simp only [physAddrs, this, RegMap.localAddrs, hle, if_false, hw]
      cases hc : cfg.endian with
      | none => exact absurd hc hnn
      | big => exact absurd hc hb
      | little =>
        simp only [RegMap.countUp, List.range_succ_eq_map]
        constructor
        · simp [Nat.add_comm]
        · intro a ha
          simp only [List.map_cons, List.map_map, List.mem_cons, List.mem_map, Function.comp] at ha
          rcases ha with rfl | ⟨k, -, rfl⟩ <;> omega
      | littleFifo =>
        simp only [List.replicate_succ]
        constructor
        · simp [Nat.add_comm]
        · intro a ha
          simp only [List.map_cons, List.map_replicate, List.mem_cons, List.mem_replicate] at ha
          rcases ha with rfl | ⟨-, rfl⟩ <;> omega
      | bigFifo =>
        simp only [List.replicate_succ]
        constructor
        · simp [Nat.add_comm]
        · intro a ha
          simp only [List.map_cons, List.map_replicate, List.mem_cons, List.mem_replicate] at ha
          rcases ha with rfl | ⟨-, rfl⟩ <;> omega
  refine ⟨by rw [h3, hlow.1], ?_⟩
  intro w as k h a ha
  rw [h2] at h
  simp only [List.nil_append, Res.ok.injEq, Prod.mk.injEq] at h
  exact hlow.2 a (h.1.2 ▸ ha)

/-- C295 is false of every register of several words in a big-endian root map: the address given is the highest one. -/
theorem C295_big_endian_fails (c : Ctx) (m : RMap) (cfg : Cfg) (b n : Nat) (i : Info) (hn : Named c.maps m) (hm : m ∈ c.maps)
    (hw : 1 ≤ cfg.nBytes) (hmap : i.unmapped = false) (hi : c.info m = some (initInfo (.root cfg b) n i))
    (he : cfg.endian = .big) (h1 : cfg.nBytes < n) :
    ∃ a, getAddress c (some m) = .ok (some a) 0 ∧ b + i.offset < a := by
  have hin : (initInfo (.root cfg b) n i).initialized = true := by simp [initInfo, hmap]
  have hun : (initInfo (.root cfg b) n i).unmapped = false := by simp [initInfo, hmap]
  have had : (initInfo (.root cfg b) n i).addr = (physAddrs (.root cfg b) i.offset 0 n []).1 := by simp [initInfo, hmap]
  obtain ⟨-, -, h3⟩ := C293_mapped c m m _ hn (.inl ⟨rfl, hm⟩) hi hin hun
  rw [had] at h3
  have h0 : ¬ n = 0 := by omega
  have hle : ¬ n ≤ cfg.nBytes := by omega
  have hq : 1 ≤ (n - 1) / cfg.nBytes := (Nat.le_div_iff_mul_le (by omega)).2 (by omega)
  have hmu : 1 ≤ RegMap.mult cfg := by unfold RegMap.mult; split <;> omega
  have hpos : 0 < (n - 1) / cfg.nBytes * RegMap.mult cfg := Nat.mul_pos (by omega) (by omega)
  refine ⟨i.offset + (n - 1) / cfg.nBytes * RegMap.mult cfg + b, ?_, by omega⟩
  rw [h3]
  simp [physAddrs, h0, RegMap.localAddrs, hle, he, RegMap.words, RegMap.countDown]

example : getAddress ⟨[.root 0], fun _ => some (initInfo exMap 4 ⟨0, false, false, []⟩), fun _ => none, fun _ => 2⟩ (some (.root 0)) =
    .ok (some 0x102) 0 := by decide

theorem fold_width (m : Map) (hp : Positive m) : ∀ (items : List (Nat × Nat)) (w0 : Nat), (∀ it ∈ items, 1 ≤ it.2) → items ≠ [] →
    items.foldl (fun _ it => (physAddrs m it.1 0 it.2 []).2) w0 = narrowest m
  | [it], w0, h, _ => by simpa using C18_bus_width m hp it.1 0 it.2 (h it (by simp))
  | it :: it2 :: its, w0, h, _ => by
    rw [List.foldl_cons]
    exact fold_width m hp (it2 :: its) _ (fun x hx => h x (by simp [hx])) (by simp)

theorem narrowest_pos (m : Map) (hp : Positive m) : 1 ≤ narrowest m := by
  induction m with
  | root c b => exact hp
  | sub c o p ih => exact Nat.le_min.2 ⟨hp.1, ih hp.2⟩

/-- C296. After locking, the effective bus width (`get_n_bytes()`) of a map that has a mapped register or memory is that of the
narrowest bus on the way to the root; the width of the map itself is the one it was configured with. -/
theorem C296_width_partial (m : Map) (hp : Positive m) (items : List (Nat × Nat)) (hb : ∀ it ∈ items, 1 ≤ it.2) (hne : items ≠ []) :
    getNBytes m (some (systemWidth m items)) true = narrowest m ∧ getNBytes m (some (systemWidth m items)) false = m.cfg.nBytes := by
  have := narrowest_pos m hp
  refine ⟨?_, rfl⟩
  simp only [getNBytes, systemWidth, fold_width m hp items 0 hb hne]
  simp
  omega

/-- C296 is false of a map that has no register or memory of its own (all are in its submaps), whenever a bus above is narrower:
it gives its own width; and of every map before locking. -/
theorem C296_width_fails (m : Map) :
    getNBytes m (some (systemWidth m [])) true = m.cfg.nBytes ∧ (narrowest m < m.cfg.nBytes → getNBytes m (some (systemWidth m [])) true ≠ narrowest m) ∧
    getNBytes m none true = 0 := by
  refine ⟨rfl, fun h => ?_, rfl⟩
  show m.cfg.nBytes ≠ narrowest m
  omega

example : getNBytes (.sub ⟨4, true, .little⟩ 0 (.root ⟨2, true, .little⟩ 0)) (some (systemWidth (.sub ⟨4, true, .little⟩ 0 (.root ⟨2, true, .little⟩ 0)) [(0, 4)])) true = 2 := by decide
example : narrowest (.sub ⟨4, true, .little⟩ 0 (.root ⟨2, true, .little⟩ 0)) < 4 := by decide

end Verif.RegQuery
