import Verif.Spec.Mem
import Verif.Props.RegMap
namespace Verif.Mem
open Verif.RegMap

/-! ## C138: a memory behind a bus is an array -/

/-- The word at `o` holds `v`: cell `j` of it has the `j`-th part of `v`. -/
def Holds (as : List Nat) (st w : Nat) (s : Nat → Nat) (o v : Nat) : Prop :=
  ∀ j (hj : j < as.length), s (as[j] + st * o) = (v >>> (j * w * 8)) &&& (2 ^ (w * 8) - 1)

/-- Cells of different words, and different cells of one word, have different addresses. -/
def Apart (as : List Nat) (st : Nat) : Prop :=
  ∀ i j p q (hi : i < as.length) (hj : j < as.length), as[i] + st * p = as[j] + st * q → i = j ∧ p = q

theorem resolve_front {σ} (e : Env σ) (p : Path) : resolve e p = .front ↔ ViaFront e p := by
  unfold resolve ViaFront
  cases p <;> cases e.user <;> cases e.hdl <;> cases e.dfltBack <;> simp

theorem memAddrs_get (as : List Nat) (st o j : Nat) (hj : j < as.length) :
    (memAddrs (as, st) o)[j]'(by simp [memAddrs, hj]) = as[j] + st * o := by simp [memAddrs]

theorem check_front {σ} {e : Env σ} {l : Local σ} (hl : e.loc = some l) (hfd : l.fd = none) (hu : l.unmapped = false) {o : Nat} {vs : List Nat} {p : Path}
    {ok : Bool} (ho : o < e.size) (hp : resolve e p = .front) (hn : vs.length ≤ 1 ∨ (e.nBits ≤ 8 * l.w ∧ o + vs.length ≤ e.size)) :
    check e ⟨o, vs, ok, p⟩ = some ⟨true, ⟨o, vs, ok, .front⟩, some l, []⟩ := by
  simp only [check, show ¬ e.size ≤ o by omega, if_false, hp, hl, hfd, hu]
  simp only [Option.isNone_none, if_true, Bool.false_eq_true, if_false]
  rw [if_neg (by decide), if_neg (by omega), if_neg (by omega)]

theorem words_apart {A : List Nat} {st o m : Nat} (as : List Nat) (ha : Apart as st) (hA : A = memAddrs (as, st) o) :
    ∀ i j p q (hi : i < A.length) (hj : j < A.length), p < m → q < m → A[i] + st * p = A[j] + st * q → i = j ∧ p = q := by
  subst hA
  intro i j p q hi hj _ _ h
  have hi' : i < as.length := by simpa [memAddrs] using hi
  have hj' : j < as.length := by simpa [memAddrs] using hj
  rw [memAddrs_get as st o i hi', memAddrs_get as st o j hj'] at h
  have := ha i j (o + p) (o + q) hi' hj' (by rw [Nat.mul_add, Nat.mul_add]; omega)
  omega

/-- A front-door write of any number of words. -/
theorem doWrite_front {e : Env (Nat → Nat)} {l : Local (Nat → Nat)} (hbus : e.bus = memBus) (ho' : Reorders e.order) (hl : e.loc = some l) (hfd : l.fd = none)
    (hu : l.unmapped = false) (hne : l.info.1 ≠ []) (hap : Apart l.info.1 l.info.2) (s : Nat → Nat) {o : Nat} {vs : List Nat} {p : Path} (hvs : vs ≠ [])
    (ho : o < e.size) (hp : resolve e p = .front) (hn : vs.length ≤ 1 ∨ (e.nBits ≤ 8 * l.w ∧ o + vs.length ≤ e.size)) :
    ∃ s', doWrite e {} {} s { offset := o, value := vs, path := p } = some ⟨s', ⟨o, vs, true, .front⟩, [], sampled l ⟨o, vs, true, .front⟩⟩ ∧
      (∀ i (hi : i < vs.length), Holds l.info.1 l.info.2 l.w s' (o + i) vs[i]) ∧
      (∀ a, (∀ j i (hj : j < l.info.1.length), i < vs.length → a ≠ l.info.1[j] + l.info.2 * (o + i)) → s' a = s a) := by
  have hAl : (memAddrs l.info o).length = l.info.1.length := by simp [memAddrs]
  have hAne : memAddrs l.info o ≠ [] := by intro h; rw [h] at hAl; exact hne (List.eq_nil_of_length_eq_zero hAl.symm)
  obtain ⟨s', k, e1, e2, e3, e4⟩ := burst_write e.order ho' l.w e.nBits (2 ^ l.w - 1) l.info.2 vs (memAddrs l.info o) hAne
    (words_apart (m := vs.length) l.info.1 hap rfl) s false
  have hk : k = true := by rcases e2 with h | ⟨h, _⟩; exact h; exact absurd h hvs
  refine ⟨s', ?_, ?_, ?_⟩
  · unfold doWrite
    rw [check_front hl hfd hu ho hp hn]
    simp only [Option.bind_eq_bind, Option.bind_some, Hooks.all, List.foldl_nil, Bool.true_eq_false, if_false, transferW, if_true, hfd, hbus, e1, hk,
      List.append_nil, Option.pure_def]
  · intro i hi j hj
    have := e3 j i (by rw [hAl]; exact hj) hi
    rw [memAddrs_get l.info.1 l.info.2 o j hj] at this
    rw [← this, Nat.mul_add, Nat.add_assoc]
  · intro a ha
    apply e4
    intro j i hj hi heq
    have hj' : j < l.info.1.length := by rw [hAl] at hj; exact hj
    apply ha j i hj' hi
    rw [heq, memAddrs_get l.info.1 l.info.2 o j hj', Nat.mul_add]; omega

/-- A front-door read of one word. -/
theorem read_front {e : Env (Nat → Nat)} {l : Local (Nat → Nat)} (hbus : e.bus = memBus) (ho' : Reorders e.order) (hl : e.loc = some l) (hfd : l.fd = none)
    (hu : l.unmapped = false) (hw : 1 ≤ l.w) (hne : l.info.1 ≠ []) (s : Nat → Nat) {o : Nat} {p : Path}
    (ho : o < e.size) (hp : resolve e p = .front) :
    ∃ v sm, read e {} {} s o p = some (⟨s, ⟨o, [v], true, .front⟩, [], sm⟩, v) ∧
      ∀ u, u < 2 ^ (l.info.1.length * (l.w * 8)) → Holds l.info.1 l.info.2 l.w s o u → v = u := by
  have hAl : (memAddrs l.info o).length = l.info.1.length := by simp [memAddrs]
  have hAne : memAddrs l.info o ≠ [] := by intro h; rw [h] at hAl; exact hne (List.eq_nil_of_length_eq_zero hAl.symm)
  obtain ⟨ok1, h1, h2⟩ := runReads_mem l.w _ (order_perm_kind (ho' (mkAccesses .read l.w 0 e.nBits (2 ^ l.w - 1) 0 (memAddrs l.info o)))) s 0 false
  have hne' : e.order (mkAccesses .read l.w 0 e.nBits (2 ^ l.w - 1) 0 (memAddrs l.info o)) ≠ [] := by
    intro h
    have := (ho' (mkAccesses .read l.w 0 e.nBits (2 ^ l.w - 1) 0 (memAddrs l.info o))).length_eq
    rw [h, (C17_access_count .read l.w 0 e.nBits (2 ^ l.w - 1) (memAddrs l.info o)).1] at this
    exact hAne (List.eq_nil_of_length_eq_zero this.symm)
  have hk : ok1 = true := by rcases h2 with h | ⟨h, _⟩; exact h; exact absurd h hne'
  subst hk
  generalize hv : List.foldl _ 0 _ = v at h1
  have hb : busRead memBus e.order l.w e.nBits (2 ^ l.w - 1) l.info.2 (memAddrs l.info o) 1 (s, false) = (s, [v], true) := by
    simp only [busRead, h1]
  refine ⟨v, sampled l ⟨o, [v], true, .front⟩, ?_, ?_⟩
  · unfold read doRead
    rw [check_front hl hfd hu ho hp (.inl (by simp))]
    simp only [Option.bind_eq_bind, Option.bind_some, Hooks.all, List.foldl_nil, Bool.true_eq_false, if_false, transferR, if_true, hfd, hbus,
      List.length_singleton, hb, List.append_nil, Option.pure_def, List.head?_cons]
  · intro u hu hh
    obtain ⟨k, g1, _⟩ := burst_read e.order ho' l.w hw e.nBits (2 ^ l.w - 1) l.info.2 [u] (memAddrs l.info o) hAne s false
      (by rw [hAl]; simpa using hu) (by
        intro j i hj hi
        have hi0 : i = 0 := by simpa using hi
        subst hi0
        have hj' : j < l.info.1.length := by rw [hAl] at hj; exact hj
        rw [memAddrs_get l.info.1 l.info.2 o j hj', Nat.mul_zero, Nat.add_zero]
        exact hh j hj')
    rw [List.length_singleton, hb] at g1
    simp only [Prod.mk.injEq, List.cons.injEq, and_true, true_and] at g1
    exact g1.1

theorem apart_root (c : Cfg) (b off size n : Nat) (hn : 1 ≤ n) (hs : 2 ≤ size) (hw : 1 ≤ c.nBytes) (he : c.endian = .little ∨ c.endian = .big)
    (as : List Nat) (st : Nat) (hm : memInfo (.root c b) off size n = some (as, st)) :
    Apart as st ∧ as ≠ [] ∧ n ≤ as.length * c.nBytes := by
  have he' : c.endian ≠ .none := by rcases he with h | h <;> rw [h] <;> decide
  obtain ⟨as', st', hm', hlen, hst, hget⟩ := C59_memory_addresses c b off size n hn hs he'
  rw [hm] at hm'
  simp only [Option.some.injEq, Prod.mk.injEq] at hm'
  obtain ⟨rfl, rfl⟩ := hm'
  have hk : 1 ≤ words n c.nBytes := by simp [words]
  have hmu : 1 ≤ (if c.byteAddr then c.nBytes else 1) := by split <;> omega
  refine ⟨?_, ?_, ?_⟩
  · intro i j p q hi hj h
    have gA : ∀ o i (hi : i < as.length), as[i] + st * o = wordAddr c.endian (b + off + st * o) (if c.byteAddr then c.nBytes else 1) (words n c.nBytes) i := by
      intro o i hi
      have := hget o i (by omega)
      rw [List.getElem?_eq_getElem (by simpa [memAddrs] using hi), memAddrs_get as st o i hi] at this
      simpa using this
    rw [gA p i hi, gA q j hj] at h
    rw [hlen] at hi hj
    generalize (if c.byteAddr then c.nBytes else 1) = m at *
    generalize words n c.nBytes = k at *
    subst hst
    have key : ∀ i j, i < k → j < k → i * m + k * m * p = j * m + k * m * q → i = j ∧ p = q := by
      intro i j hi hj h
      have h' : (i + k * p) * m = (j + k * q) * m := by
        rw [Nat.add_mul, Nat.add_mul, Nat.mul_right_comm k p m, Nat.mul_right_comm k q m]; exact h
      have h'' := Nat.eq_of_mul_eq_mul_right hmu h'
      have hp : p = q := by
        have e1 : (i + k * p) / k = p := by rw [Nat.add_mul_div_left _ _ (by omega), Nat.div_eq_of_lt hi]; omega
        have e2 : (j + k * q) / k = q := by rw [Nat.add_mul_div_left _ _ (by omega), Nat.div_eq_of_lt hj]; omega
        rw [← e1, ← e2, h'']
      subst hp
      exact ⟨by omega, rfl⟩
    rcases he with e | e <;> rw [e] at h <;> simp only [wordAddr] at h
    · exact key i j hi hj (by omega)
    · have := key (k - 1 - i) (k - 1 - j) (by omega) (by omega) (by omega)
      exact ⟨by omega, this.2⟩
  · intro h; rw [h] at hlen; simp at hlen; omega
  · rw [hlen]; exact (words_spec n _ hn hw).1

theorem lastWritten_append (o : Nat) (a b : List Op) : lastWritten o (a ++ b) = (lastWritten o b).or (lastWritten o a) := by
  induction a with
  | nil => simp [lastWritten]
  | cons x a ih => rw [List.cons_append, lastWritten, ih, lastWritten, Option.or_assoc]

/-- All words written so far hold the value written last. -/
def Inv (as : List Nat) (st w : Nat) (s : Nat → Nat) (h : List Op) : Prop :=
  ∀ o v, lastWritten o h = some v → v < 2 ^ (as.length * (w * 8)) ∧ Holds as st w s o v

theorem inv_write {as : List Nat} {st w : Nat} (hap : Apart as st) {s s' : Nat → Nat} {done : List Op} (hi : Inv as st w s done) (op : Op) {o : Nat} {vs : List Nat}
    (hop : ∀ o', written o' op = if o ≤ o' then vs[o' - o]? else none) (hv : ∀ v ∈ vs, v < 2 ^ (as.length * (w * 8)))
    (h1 : ∀ i (hi : i < vs.length), Holds as st w s' (o + i) vs[i])
    (h2 : ∀ a, (∀ j i (hj : j < as.length), i < vs.length → a ≠ as[j] + st * (o + i)) → s' a = s a) :
    Inv as st w s' (done ++ [op]) := by
  intro o' v hl
  rw [lastWritten_append, lastWritten, lastWritten, Option.none_or] at hl
  cases hw : written o' op with
  | some u =>
    rw [hw, Option.some_or, Option.some.injEq] at hl
    subst hl
    rw [hop] at hw
    split at hw
    · next hle =>
      obtain ⟨hlt, e⟩ := List.getElem?_eq_some_iff.1 hw
      have := h1 (o' - o) hlt
      rw [e, show o + (o' - o) = o' by omega] at this
      exact ⟨hv _ (List.mem_of_getElem? hw), this⟩
    · cases hw
  | none =>
    rw [hw, Option.none_or] at hl
    obtain ⟨g1, g2⟩ := hi o' v hl
    refine ⟨g1, fun j hj => ?_⟩
    rw [h2 _ ?_]; exact g2 j hj
    intro j' i hj' hi' heq
    have := (hap j j' o' (o + i) hj hj' heq).2
    subst this
    rw [hop, if_pos (by omega), show o + i - o = i by omega] at hw
    rw [List.getElem?_eq_getElem hi'] at hw; cases hw

/-- The setting: a memory mapped in a root map, without user front door, on a bus to a device with one cell per address. -/
structure Mapped (c : Cfg) (b off n : Nat) (e : Env (Nat → Nat)) (l : Local (Nat → Nat)) : Prop where
  bus : e.bus = memBus
  order : Reorders e.order
  loc : e.loc = some l
  fd : l.fd = none
  mapped : l.unmapped = false
  info : memInfo (.root c b) off e.size n = some l.info
  width : l.w = c.nBytes
  pos : 1 ≤ c.nBytes
  endian : c.endian = .little ∨ c.endian = .big
  bytes : n = (e.nBits - 1) / 8 + 1
  size : 2 ≤ e.size

theorem exec_front {c : Cfg} {b off n : Nat} {e : Env (Nat → Nat)} {l : Local (Nat → Nat)} (M : Mapped c b off n e l) (s : Nat → Nat) (done : List Op)
    (hi : Inv l.info.1 l.info.2 l.w s done) (op : Op) (ha : Allowed e l.w n op) :
    ∃ s1 r, exec e s op = some (s1, r) ∧ r.ok = true ∧ r.errs = [] ∧ Inv l.info.1 l.info.2 l.w s1 (done ++ [op]) ∧
      (∀ o p, op = .read o p → ∀ v, lastWritten o done = some v → r.value = some v) ∧
      ∀ a, (∀ o, o < e.size → a ∉ memAddrs l.info o) → s1 a = s a := by
  have hn : 1 ≤ n := by have := M.bytes; omega
  obtain ⟨hap, hne, hbig⟩ := apart_root c b off e.size n hn M.size M.pos M.endian l.info.1 l.info.2 M.info
  have hbig' : 8 * n ≤ l.info.1.length * (l.w * 8) := by
    rw [M.width, Nat.mul_comm c.nBytes 8, ← Nat.mul_assoc, Nat.mul_comm _ 8, Nat.mul_assoc]
    exact Nat.mul_le_mul_left 8 hbig
  have hval : ∀ v, v < 2 ^ (8 * n) → v < 2 ^ (l.info.1.length * (l.w * 8)) := fun v hv =>
    Nat.lt_of_lt_of_le hv (Nat.pow_le_pow_right (by decide) hbig')
  have frame : ∀ {o m a}, o + m ≤ e.size → (∀ o, o < e.size → a ∉ memAddrs l.info o) →
      ∀ j i (hj : j < l.info.1.length), i < m → a ≠ l.info.1[j] + l.info.2 * (o + i) := by
    intro o m a hom hna j i hj hi heq
    apply hna (o + i) (by omega)
    rw [heq]
    exact List.mem_map.2 ⟨_, List.getElem_mem hj, rfl⟩
  cases op with
  | write o v p =>
    obtain ⟨h1, h2, h3⟩ := ha
    obtain ⟨s', e1, e2, e3⟩ := doWrite_front M.bus M.order M.loc M.fd M.mapped hne hap s (vs := [v]) (by simp) h1 ((resolve_front _ _).2 h3) (.inl (by simp))
    refine ⟨s', ⟨true, [], none⟩, by simp only [exec, write, e1, Option.map_some], rfl, rfl, ?_, (by intro o p h; cases h), ?_⟩
    · refine inv_write hap hi _ (o := o) (vs := [v]) ?_ (by simpa using hval v h2) e2 e3
      intro o'
      simp only [written]
      by_cases h : o = o'
      · subst h; simp
      · rw [if_neg h]; split
        · rw [List.getElem?_eq_none]; simp; omega
        · rfl
    · intro a hna
      exact e3 a (frame (m := 1) (by omega) hna)
  | burst o vs p =>
    obtain ⟨h1, h2, h3, h4, h5⟩ := ha
    have hlen : 0 < vs.length := List.length_pos_iff.2 h1
    obtain ⟨s', e1, e2, e3⟩ := doWrite_front M.bus M.order M.loc M.fd M.mapped hne hap s (vs := vs) h1 (o := o) (by omega) ((resolve_front _ _).2 h5)
      (by rcases h4 with h | h; exact .inl h; exact .inr ⟨h, h2⟩)
    refine ⟨s', ⟨true, [], none⟩, by simp only [exec, burstWrite, e1, Option.map_some], rfl, rfl, ?_, (by intro o p h; cases h), ?_⟩
    · exact inv_write hap hi _ (o := o) (vs := vs) (fun _ => rfl) (fun v hv => hval v (h3 v hv)) e2 e3
    · intro a hna
      exact e3 a (frame (m := vs.length) h2 hna)
  | read o p =>
    obtain ⟨h1, h2⟩ := ha
    obtain ⟨v, sm, e1, e2⟩ := read_front M.bus M.order M.loc M.fd M.mapped (by rw [M.width]; exact M.pos) hne s h1 ((resolve_front _ _).2 h2)
    refine ⟨s, ⟨true, [], some v⟩, by simp only [exec, e1, Option.map_some], rfl, rfl, ?_, ?_, fun _ _ => rfl⟩
    · intro o' v' hl
      rw [lastWritten_append] at hl
      exact hi o' v' (by simpa [lastWritten, written] using hl)
    · intro o' p' h u hu
      cases h
      obtain ⟨g1, g2⟩ := hi o u hu
      rw [e2 u g1 g2]

theorem execAll_front {c : Cfg} {b off n : Nat} {e : Env (Nat → Nat)} {l : Local (Nat → Nat)} (M : Mapped c b off n e l) (h : List Op) (s : Nat → Nat) (done : List Op)
    (hi : Inv l.info.1 l.info.2 l.w s done) (ha : ∀ op ∈ h, Allowed e l.w n op) :
    ∃ s1 rs, execAll e s h = some (s1, rs) ∧ rs.length = h.length ∧
      (∀ i (op : Op) (r : Res), h[i]? = some op → rs[i]? = some r → r.ok = true ∧ r.errs = [] ∧
        ∀ o p, op = .read o p → ∀ v, lastWritten o (done ++ h.take i) = some v → r.value = some v) ∧
      ∀ a, (∀ o, o < e.size → a ∉ memAddrs l.info o) → s1 a = s a := by
  induction h generalizing s done with
  | nil => exact ⟨s, [], rfl, rfl, by simp, fun _ _ => rfl⟩
  | cons op h ih =>
    obtain ⟨s1, r, e1, e2, e3, e4, e5, e6⟩ := exec_front M s done hi op (ha op List.mem_cons_self)
    obtain ⟨s2, rs, f1, f2, f3, f4⟩ := ih s1 (done ++ [op]) e4 (fun x hx => ha x (List.mem_cons_of_mem _ hx))
    refine ⟨s2, r :: rs, by simp [execAll, e1, f1], by simp [f2], ?_, fun a hna => by rw [f4 a hna, e6 a hna]⟩
    intro i op' r' h1 h2
    cases i with
    | zero =>
      simp only [List.getElem?_cons_zero, Option.some.injEq] at h1 h2
      subst h1; subst h2
      exact ⟨e2, e3, by simpa using e5⟩
    | succ i =>
      simp only [List.getElem?_cons_succ] at h1 h2
      have := f3 i op' r' h1 h2
      simpa using this

/-- C138. For every history of allowed front-door accesses, single or burst, every access reports OK and no error, every read returns the value written
last to that word, and nothing outside the memory is touched. -/
theorem C138_memory_is_an_array (c : Cfg) (b off n : Nat) (e : Env (Nat → Nat)) (l : Local (Nat → Nat)) (M : Mapped c b off n e l) (h : List Op) (s : Nat → Nat)
    (ha : ∀ op ∈ h, Allowed e l.w n op) :
    ∃ s1 rs, execAll e s h = some (s1, rs) ∧ rs.length = h.length ∧
      (∀ i (op : Op) (r : Res), h[i]? = some op → rs[i]? = some r → r.ok = true ∧ r.errs = [] ∧
        ∀ o p, op = .read o p → ∀ v, lastWritten o (h.take i) = some v → r.value = some v) ∧
      ∀ a, (∀ o, o < e.size → a ∉ memAddrs l.info o) → s1 a = s a := by
  obtain ⟨s1, rs, h1, h2, h3, h4⟩ := execAll_front M h s [] (by intro o v hl; simp [lastWritten] at hl) ha
  exact ⟨s1, rs, h1, h2, by simpa using h3, h4⟩

-- Non-vacuity: a memory of 16 words of 4 bytes at 0x120 on a big-endian bus of 2 bytes.
def loc4 : Local (Nat → Nat) := { info := ([0x122, 0x120], 4), w := 2 }
def env4 : Env (Nat → Nat) := { size := 16, nBits := 32, loc := some loc4, bus := memBus }

example : Mapped ⟨2, true, .big⟩ 0x100 0x20 4 env4 loc4 :=
  ⟨rfl, fun _ => List.Perm.refl _, rfl, rfl, rfl, by decide, rfl, by decide, .inr rfl, rfl, by decide⟩

example : (execAll env4 (fun _ => 0) [.write 3 0x12345678 .front, .burst 4 [7] .dflt, .write 4 8 .back, .read 3 .dflt, .read 4 .front]).map
    (fun r => r.2.map (·.value)) = some [none, none, none, some 0x12345678, some 8] := by decide

/-! ## C139: accesses outside of the memory -/

/-- C139 fails: an access at an offset not in the memory, through the front door, is not refused but raises an exception (IndexError), whatever
map, bus and hooks that leave the path alone. -/
theorem C139_front_door_out_of_range_fails {σ} (e : Env σ) (s : σ) (o : Nat) (ho : e.size ≤ o) (vs : List Nat) (v : Nat) :
    write e {} {} s o v .front = none ∧ read e {} {} s o .front = none ∧ burstWrite e {} {} s o vs .front = none ∧ burstRead e {} {} s o [] .front = none := by
  simp [write, read, burstWrite, burstRead, doWrite, doRead, check, ho, Hooks.all, transferW, transferR]

/-- C139 fails: on the default path, without back door, such an access does nothing, reports the error and a missing HDL path, and gives the status OK; a read
gives 0. -/
theorem C139_default_path_out_of_range_fails {σ} (e : Env σ) (s : σ) (o : Nat) (ho : e.size ≤ o) (hro : e.ro = false) (hu : e.user = none) (hh : e.hdl = none) (v : Nat) :
    (write e {} {} s o v .dflt).map (fun r => (r.dev, r.item.ok, r.errs)) = some (s, true, [.offset, .noHdl]) ∧
    (read e {} {} s o .dflt).map (fun r => (r.1.dev, r.1.item.ok, r.1.errs, r.2)) = some (s, true, [.offset, .noHdl], 0) := by
  simp [write, read, doWrite, doRead, check, ho, Hooks.all, transferW, transferR, hro, hu, hh, hdlOr]

/-- C139 fails: a burst over the end of the memory is reported, but performed all the same: the cells behind the memory are written, and the status
is OK. -/
theorem C139_burst_over_the_end_fails (c : Cfg) (b off n : Nat) (e : Env (Nat → Nat)) (l : Local (Nat → Nat)) (M : Mapped c b off n e l) (s : Nat → Nat)
    (o : Nat) (vs : List Nat) (ho : o < e.size) (hover : e.size < o + vs.length) (hlen : 1 < vs.length) (hnb : e.nBits ≤ 8 * l.w) :
    ∃ s', (burstWrite e {} {} s o vs .front).map (fun r => (r.dev, r.item.ok, r.errs)) = some (s', true, [.burst]) ∧
      ∀ i (hi : i < vs.length), Holds l.info.1 l.info.2 l.w s' (o + i) vs[i] := by
  obtain ⟨hap, hne, _⟩ := apart_root c b off e.size n (by have := M.bytes; omega) M.size M.pos M.endian l.info.1 l.info.2 M.info
  have hvs : vs ≠ [] := by intro h; rw [h] at hlen; simp at hlen
  have hAl : (memAddrs l.info o).length = l.info.1.length := by simp [memAddrs]
  have hAne : memAddrs l.info o ≠ [] := by intro h; rw [h] at hAl; exact hne (List.eq_nil_of_length_eq_zero hAl.symm)
  obtain ⟨s', k, e1, e2, e3, e4⟩ := burst_write e.order M.order l.w e.nBits (2 ^ l.w - 1) l.info.2 vs (memAddrs l.info o) hAne
    (words_apart (m := vs.length) l.info.1 hap rfl) s false
  have hk : k = true := by rcases e2 with h | ⟨h, _⟩; exact h; exact absurd h hvs
  have hc : check e ⟨o, vs, true, .front⟩ = some ⟨false, ⟨o, vs, true, .front⟩, some l, [.burst]⟩ := by
    simp only [check, show ¬ e.size ≤ o by omega, if_false, show resolve e .front = .front by simp [resolve], M.loc, M.fd, M.mapped]
    simp only [Option.isNone_none, if_true, Bool.false_eq_true, if_false]
    rw [if_neg (by decide), if_neg (by omega), if_pos ⟨hlen, hover⟩]
  refine ⟨s', ?_, ?_⟩
  · simp [burstWrite, doWrite, hc, Hooks.all, transferW, M.fd, M.bus, e1, hk]
  · intro i hi j hj
    have := e3 j i (by rw [hAl]; exact hj) hi
    rw [memAddrs_get l.info.1 l.info.2 o j hj] at this
    rw [← this, Nat.mul_add, Nat.add_assoc]

example : (burstWrite { env4 with nBits := 16, loc := some { info := ([0x120], 2), w := 2 } } {} {} (fun _ => 0) 15 [1, 2, 3] .front).map
    (fun r => (r.item.ok, r.errs, r.dev 0x140, r.dev 0x142)) = some (true, [.burst], 2, 3) := by decide

/-- C139. What holds: an error is reported for every write that does come back and is not within the memory, or is a burst of words wider than the bus; and for no other. -/
theorem C139_errors_reported_partial {σ} (e : Env σ) (l : Local σ) (hl : e.loc = some l) (hfd : l.fd = none) (hu : l.unmapped = false) (pre post : Hooks) (s : σ)
    (o : Nat) (vs : List Nat) (p : Path) (hp : o < e.size → ViaFront e p) (hhooks : ∀ it, (pre.all it).path = it.path) (r : Out σ)
    (h : burstWrite e pre post s o vs p = some r) :
    r.errs = [] ↔ o < e.size ∧ (vs.length ≤ 1 ∨ (e.nBits ≤ 8 * l.w ∧ o + vs.length ≤ e.size)) := by
  unfold burstWrite doWrite at h
  by_cases ho : e.size ≤ o
  · have hc : check e ⟨o, vs, true, p⟩ = some ⟨false, ⟨o, vs, false, p⟩, none, [.offset]⟩ := by simp [check, ho]
    rw [hc] at h
    simp only [Option.bind_eq_bind, Option.bind_some, Option.pure_def] at h
    have : r.errs ≠ [] := by
      split at h
      · cases h; simp
      · obtain ⟨x, _, h2⟩ := Option.bind_eq_some_iff.1 h
        cases h2; simp
    simp only [this, false_iff]; omega
  · have hp' := (resolve_front _ _).2 (hp (by omega))
    have hc : check e ⟨o, vs, true, p⟩ = some ⟨decide (vs.length ≤ 1 ∨ (e.nBits ≤ 8 * l.w ∧ o + vs.length ≤ e.size)),
        ⟨o, vs, decide (vs.length ≤ 1 ∨ e.nBits ≤ 8 * l.w), .front⟩, some l,
        if vs.length ≤ 1 ∨ (e.nBits ≤ 8 * l.w ∧ o + vs.length ≤ e.size) then [] else if e.nBits ≤ 8 * l.w then [.burst] else [.narrow]⟩ := by
      simp only [check, ho, if_false, hp', hl, hfd, hu]
      simp only [Option.isNone_none, if_true, Bool.false_eq_true, if_false]
      rw [if_neg (by decide)]
      by_cases h1 : 1 < vs.length
      · by_cases h2 : l.w * 8 < e.nBits
        · have h3 : ¬ e.nBits ≤ 8 * l.w := by omega
          have h4 : ¬ vs.length ≤ 1 := by omega
          rw [if_pos ⟨h1, h2⟩]; simp [h3, h4]
        · have h3 : e.nBits ≤ 8 * l.w := by omega
          have h4 : ¬ vs.length ≤ 1 := by omega
          rw [if_neg (by omega)]
          by_cases h5 : e.size < o + vs.length
          · rw [if_pos ⟨h1, h5⟩]
            have h6 : ¬ o + vs.length ≤ e.size := by omega
            simp [h3, h4, h6]
          · rw [if_neg (by omega)]
            have h6 : o + vs.length ≤ e.size := by omega
            simp [h3, h6]
      · rw [if_neg (by omega), if_neg (by omega)]
        have h4 : vs.length ≤ 1 := by omega
        simp [h4]
    rw [hc] at h
    simp only [Option.bind_eq_bind, Option.bind_some, Option.pure_def] at h
    have key : r.errs = (if vs.length ≤ 1 ∨ (e.nBits ≤ 8 * l.w ∧ o + vs.length ≤ e.size) then [] else if e.nBits ≤ 8 * l.w then [Err.burst] else [Err.narrow]) := by
      split at h
      · cases h; rfl
      · obtain ⟨x, h1, h2⟩ := Option.bind_eq_some_iff.1 h
        cases h2
        have : x.2.2.1 = [] := by
          unfold transferW at h1
          rw [if_pos (by simp [hhooks])] at h1
          cases h1; rfl
        simp [this]
    rw [key]
    split
    · next hh => simp only [true_iff]; exact ⟨by omega, hh⟩
    · next hh =>
      have : ∀ q : Prop, (¬ q) → (((if e.nBits ≤ 8 * l.w then [Err.burst] else [Err.narrow]) = []) ↔ q) := by
        intro q hq; split <;> simp [hq]
      apply this
      intro hc; exact hh hc.2

/-! ## C140: burst reads -/

/-- C140 fails: a burst read never reads anything: through the front door the device is not accessed, no values come back and the status is not OK, whatever the
memory, map and bus; a list that is not empty, which would say how many words to read, is refused with an exception. -/
theorem C140_burst_read_fails {σ} (e : Env σ) (l : Local σ) (hl : e.loc = some l) (hfd : l.fd = none) (hu : l.unmapped = false) (s : σ) (o : Nat) (p : Path)
    (ho : o < e.size) (hp : ViaFront e p) :
    (burstRead e {} {} s o [] p).map (fun r => (r.1.dev, r.1.item.ok, r.1.errs, r.2)) = some (s, false, [], []) ∧
    ∀ arg, arg ≠ [] → burstRead e {} {} s o arg p = none := by
  refine ⟨?_, fun arg ha => by simp [burstRead, ha]⟩
  simp only [burstRead, doRead, check_front hl hfd hu ho ((resolve_front _ _).2 hp) (.inl (by simp : ([] : List Nat).length ≤ 1))]
  simp [transferR, hfd, busRead, Hooks.all]

example : (burstRead env4 {} {} (fun _ => 0) 3 [] .front).map (fun r => (r.1.item.ok, r.2)) = some (false, []) := by decide

/-! ## C141: hooks -/

/-- The hook does not make an access acceptable again that an earlier one refused. -/
def Sticky (f : Item → Item) : Prop := ∀ x, x.ok = false → (f x).ok = false

theorem sticky_foldl (fs : List (Item → Item)) (hs : ∀ f ∈ fs, Sticky f) (x : Item) (hx : x.ok = false ∨ ∃ f ∈ fs, ∀ y, (f y).ok = false) :
    (fs.foldl (fun x f => f x) x).ok = false := by
  induction fs generalizing x with
  | nil => simpa using hx
  | cons f fs ih =>
    apply ih (fun g hg => hs g (List.mem_cons_of_mem _ hg))
    rcases hx with hx | ⟨g, hg, hy⟩
    · exact .inl (hs f List.mem_cons_self x hx)
    · rcases List.mem_cons.1 hg with rfl | hg
      · exact .inl (hy x)
      · exact .inr ⟨g, hg, hy⟩

/-- C141. A pre-write method or callback that refuses the access keeps it from the device, by whatever path; the status is not OK. -/
theorem C141_write_veto {σ} (e : Env σ) (pre post : Hooks) (s : σ) (it : Item) (hs : ∀ f ∈ pre.cbs, Sticky f)
    (hv : (∀ y, (pre.mem y).ok = false) ∨ ∃ f ∈ pre.cbs, ∀ y, (f y).ok = false) (r : Out σ) (h : doWrite e pre post s it = some r) :
    r.dev = s ∧ r.item.ok = false ∧ r.samples = [] := by
  unfold doWrite at h
  obtain ⟨c, _, h⟩ := Option.bind_eq_some_iff.1 h
  have : (pre.all { c.item with ok := true }).ok = false :=
    sticky_foldl pre.cbs hs _ (by rcases hv with hv | hv; exact .inl (hv _); exact .inr hv)
  simp only [this, if_true, Option.pure_def, Option.some.injEq] at h
  subst h
  exact ⟨rfl, this, rfl⟩

/-- C141. The same for the pre-read method. -/
theorem C141_read_method_veto {σ} (e : Env σ) (pre post : Hooks) (s : σ) (it : Item) (hv : ∀ y, (pre.mem y).ok = false) (r : Out σ)
    (h : doRead e pre post s it = some r) : r.dev = s ∧ r.item.ok = false ∧ r.samples = [] := by
  unfold doRead at h
  obtain ⟨c, _, h⟩ := Option.bind_eq_some_iff.1 h
  simp only [hv, if_true, Option.pure_def, Option.some.injEq] at h
  subst h
  exact ⟨rfl, hv _, rfl⟩

/-- C141. What the pre-write hooks make of offset and values is what is written, and what the post-write hooks make of the result is what the user gets. -/
theorem C141_hooks_change_the_access {σ} (e : Env σ) (l : Local σ) (hl : e.loc = some l) (hfd : l.fd = none) (hu : l.unmapped = false) (m m' : Item → Item)
    (f g f' g' : Item → Item) (s : σ) (o v : Nat) (ho : o < e.size) (it : Item) (hit : it = g (f (m ⟨o, [v], true, .front⟩))) (hok : it.ok = true) (hp : it.path = .front) :
    let w := busWrite e.bus e.order l.w e.nBits (2 ^ l.w - 1) l.info.2 (memAddrs l.info it.offset) it.value (s, false)
    (write e { mem := m, cbs := [f, g] } { mem := m', cbs := [f', g'] } s o v .front).map (fun r => (r.dev, r.item)) =
      some (w.1, g' (f' (m' { it with ok := w.2 }))) := by
  intro w
  have hc := check_front hl hfd hu (vs := [v]) (ok := true) ho (show resolve e .front = .front by simp [resolve]) (.inl (by simp))
  simp only [write, doWrite, hc, Option.bind_eq_bind, Option.bind_some, Hooks.all, List.foldl_cons, List.foldl_nil, ← hit, hok, Bool.true_eq_false, if_false,
    transferW, hp, if_true, hfd, Option.pure_def, Option.map_some]
  rfl

example : (write env4 { cbs := [fun x => { x with offset := 5 }, fun x => { x with value := [9] }] } {} (fun _ => 0) 3 1 .front).map (fun r => (r.dev 0x12c, r.dev 0x134, r.dev 0x136)) =
    some (0, 0, 9) := by decide

/-- C144 fails: pre-read callbacks are called but never run: they have no influence, whatever they are. -/
theorem C144_read_callbacks_fails {σ} (e : Env σ) (pre post : Hooks) (cbs : List (Item → Item)) (s : σ) (it : Item) :
    doRead e { pre with cbs := cbs } post s it = doRead e pre post s it := rfl

/-- C144 fails: so a pre-read callback that refuses the access does not keep it from the device. -/
theorem C144_read_veto_fails :
    (read env4 { cbs := [fun x => { x with ok := false }] } {} (fun _ => 7) 3 .front).map (fun r => (r.1.item.ok, r.2)) = some (true, 0x70007) := by decide

/-! ## C142: coverage -/

/-- C142. A front-door write that succeeds samples every word written, one that fails none. -/
theorem C142_words_written_are_sampled_partial {σ} (e : Env σ) (l : Local σ) (hl : e.loc = some l) (hfd : l.fd = none) (hu : l.unmapped = false) (s : σ) (o : Nat)
    (vs : List Nat) (p : Path) (ho : o < e.size) (hp : ViaFront e p) (hn : vs.length ≤ 1 ∨ (e.nBits ≤ 8 * l.w ∧ o + vs.length ≤ e.size)) :
    ∃ r, burstWrite e {} {} s o vs p = some r ∧ (r.item.ok = true → ∀ i, i < vs.length → l.info.2 * (o + i) ∈ r.samples) ∧ (r.item.ok = false → r.samples = []) := by
  unfold burstWrite doWrite
  rw [check_front hl hfd hu ho ((resolve_front _ _).2 hp) hn]
  simp only [Option.bind_eq_bind, Option.bind_some, Hooks.all, List.foldl_nil, Bool.true_eq_false, if_false, transferW, if_true, hfd, Option.pure_def]
  refine ⟨_, rfl, ?_, ?_⟩
  · intro h i hi
    simp only at h
    simp only [sampled, h, if_true, List.mem_map, List.mem_range]
    exact ⟨i, by omega, rfl⟩
  · intro h
    simp only at h
    simp [sampled, h]

/-- C142 fails: every successful write also samples the word after the last one written, even if that is not in the memory. -/
theorem C142_next_word_is_sampled_fails {σ} (e : Env σ) (l : Local σ) (hl : e.loc = some l) (hfd : l.fd = none) (hu : l.unmapped = false) (s : σ) (o : Nat)
    (vs : List Nat) (p : Path) (ho : o < e.size) (hp : ViaFront e p) (hn : vs.length ≤ 1 ∨ (e.nBits ≤ 8 * l.w ∧ o + vs.length ≤ e.size)) (r : Out σ)
    (h : burstWrite e {} {} s o vs p = some r) (hok : r.item.ok = true) : l.info.2 * (o + vs.length) ∈ r.samples := by
  unfold burstWrite doWrite at h
  rw [check_front hl hfd hu ho ((resolve_front _ _).2 hp) hn] at h
  simp only [Option.bind_eq_bind, Option.bind_some, Hooks.all, List.foldl_nil, Bool.true_eq_false, if_false, transferW, if_true, hfd, Option.pure_def,
    Option.some.injEq] at h
  subst h
  simp only at hok
  simp only [sampled, hok, if_true, List.mem_map, List.mem_range]
  exact ⟨vs.length, by omega, rfl⟩

example : (write env4 {} {} (fun _ => 0) 15 1 .front).map (·.samples) = some [60, 64] := by decide

/-! ## C143: the width of the values -/

/-- C143 fails: a value wider than the memory is written as it is: in a memory of 12 bits, 0xffff is written and read back. -/
theorem C143_values_cut_to_width_fails :
    (execAll { env4 with nBits := 12, loc := some { info := ([0x120], 2), w := 2 } } (fun _ => 0) [.write 3 0xffff .front, .read 3 .front]).map
      (fun r => r.2.map (·.value)) = some [none, some 0xffff] := by decide

theorem holds_mod {as : List Nat} {st w : Nat} {s : Nat → Nat} {o v : Nat} (h : Holds as st w s o v) : Holds as st w s o (v % 2 ^ (as.length * (w * 8))) := by
  intro j hj
  rw [h j hj]
  apply Nat.eq_of_testBit_eq
  intro i
  simp only [Nat.testBit_and, Nat.testBit_shiftRight, Nat.testBit_mod_two_pow, Nat.testBit_two_pow_sub_one]
  by_cases hi : i < w * 8
  · have : j * w * 8 + i < as.length * (w * 8) := by
      have h1 : (j + 1) * (w * 8) ≤ as.length * (w * 8) := Nat.mul_le_mul_right _ (by omega)
      rw [Nat.add_mul, Nat.one_mul] at h1
      rw [Nat.mul_assoc]; omega
    simp [this]
  · simp [hi]

/-- C143. What holds: any value written is read back cut to the bus words of the memory word. -/
theorem C143_values_cut_to_bus_words_partial (c : Cfg) (b off n : Nat) (e : Env (Nat → Nat)) (l : Local (Nat → Nat)) (M : Mapped c b off n e l) (s : Nat → Nat)
    (o v : Nat) (ho : o < e.size) :
    ∃ r, write e {} {} s o v .front = some r ∧ r.item.ok = true ∧
      (read e {} {} r.dev o .front).map (fun q => (q.1.item.ok, q.2)) = some (true, v % 2 ^ (l.info.1.length * (l.w * 8))) := by
  obtain ⟨hap, hne, _⟩ := apart_root c b off e.size n (by have := M.bytes; omega) M.size M.pos M.endian l.info.1 l.info.2 M.info
  have hp : resolve e .front = .front := by simp [resolve]
  obtain ⟨s', e1, e2, _⟩ := doWrite_front M.bus M.order M.loc M.fd M.mapped hne hap s (vs := [v]) (by simp) ho hp (.inl (by simp))
  obtain ⟨u, sm, f1, f2⟩ := read_front M.bus M.order M.loc M.fd M.mapped (by rw [M.width]; exact M.pos) hne s' ho hp
  refine ⟨_, e1, rfl, ?_⟩
  have h0 : Holds l.info.1 l.info.2 l.w s' o v := by simpa using e2 0 (by simp)
  simp only [f1, Option.map_some]
  rw [f2 _ (Nat.mod_lt _ (Nat.two_pow_pos _)) (holds_mod h0)]

end Verif.Mem
