import Verif.Spec.RegMem
import Verif.Props.Mem
import Verif.Props.RegChip
namespace Verif.RegMem
open Verif.Reg Verif.RegAccess Verif.RegMap Verif.RegSystem

variable {m : Nat} {σ : Type} {sel : Nat → Option (Fin m)} {a : Bus σ}

/-- One memory replaced. -/
def put (t : Fin m → Nat → Nat) (j : Fin m) (x : Nat → Nat) : Fin m → Nat → Nat := fun k => if k = j then x else t k

theorem put_self (t : Fin m → Nat → Nat) (j : Fin m) : put t j (t j) = t := by
  funext k; simp only [put]; split
  · next h => rw [h]
  · rfl

theorem put_put (t : Fin m → Nat → Nat) (j : Fin m) (x y : Nat → Nat) : put (put t j x) j y = put t j y := by
  funext k; simp only [put]; split <;> rfl

theorem put_at (t : Fin m → Nat → Nat) (j : Fin m) (x : Nat → Nat) : put t j x j = x := by simp [put]

theorem soc_mem {j : Fin m} {op : BusOp} (h : sel op.addr = some j) (s : σ) (t : Fin m → Nat → Nat) :
    soc sel a (s, t) op = ((s, put t j (memBus (t j) op).1), (memBus (t j) op).2) := by simp [soc, h]; rfl

theorem soc_reg {op : BusOp} (h : sel op.addr = none) (s : σ) (t : Fin m → Nat → Nat) :
    soc sel a (s, t) op = (((a s op).1, t), (a s op).2) := by simp [soc, h]

theorem writes_mem {j : Fin m} (ops : List BusOp) (h : ∀ op ∈ ops, sel op.addr = some j) (s : σ) (t : Fin m → Nat → Nat) (b : Bool) :
    runWrites (soc sel a) ops ((s, t), b) = ((s, put t j (runWrites memBus ops (t j, b)).1), (runWrites memBus ops (t j, b)).2) := by
  induction ops generalizing t b with
  | nil => simp [runWrites, put_self]
  | cons op ops ih =>
    simp only [runWrites, soc_mem (h op (by simp))]
    split
    · rfl
    · rw [ih (fun o ho => h o (by simp [ho])), put_at, put_put]

theorem reads_mem {j : Fin m} (w : Nat) (ops : List BusOp) (h : ∀ op ∈ ops, sel op.addr = some j) (s : σ) (t : Fin m → Nat → Nat) (v : Nat) (b : Bool) :
    runReads (soc sel a) w ops ((s, t), v, b) = ((s, put t j (runReads memBus w ops (t j, v, b)).1), (runReads memBus w ops (t j, v, b)).2) := by
  induction ops generalizing t v b with
  | nil => simp [runReads, put_self]
  | cons op ops ih =>
    simp only [runReads, soc_mem (op := { op with data := 0 }) (h op (by simp))]
    split
    · rfl
    · rw [ih (fun o ho => h o (by simp [ho])), put_at, put_put]

theorem writes_reg (ops : List BusOp) (h : ∀ op ∈ ops, sel op.addr = none) (s : σ) (t : Fin m → Nat → Nat) (b : Bool) :
    runWrites (soc sel a) ops ((s, t), b) = (((runWrites a ops (s, b)).1, t), (runWrites a ops (s, b)).2) := by
  induction ops generalizing s b with
  | nil => rfl
  | cons op ops ih =>
    simp only [runWrites, soc_reg (h op (by simp))]
    split
    · rfl
    · rw [ih (fun o ho => h o (by simp [ho]))]

theorem reads_reg (w : Nat) (ops : List BusOp) (h : ∀ op ∈ ops, sel op.addr = none) (s : σ) (t : Fin m → Nat → Nat) (v : Nat) (b : Bool) :
    runReads (soc sel a) w ops ((s, t), v, b) = (((runReads a w ops (s, v, b)).1, t), (runReads a w ops (s, v, b)).2) := by
  induction ops generalizing s v b with
  | nil => rfl
  | cons op ops ih =>
    simp only [runReads, soc_reg (op := { op with data := 0 }) (h op (by simp))]
    split
    · rfl
    · rw [ih (fun o ho => h o (by simp [ho]))]

theorem addr_of_access {order : Order} (ho : Reorders order) {d : Dir} {w v : Nat} {nb : Int} {be i : Nat} {as : List Nat} {op : BusOp}
    (h : op ∈ order (mkAccesses d w v nb be i as)) : op.addr ∈ as := by
  have := ((ho (mkAccesses d w v nb be i as)).map (·.addr)).mem_iff.1 (List.mem_map.2 ⟨op, h, rfl⟩)
  rwa [mkAccesses_addrs] at this

theorem busWrite_mem {order : Order} (ho : Reorders order) {j : Fin m} (w : Nat) (nb : Int) (be st : Nat) (vs : List Nat) (as : List Nat)
    (h : ∀ k, k < vs.length → ∀ x ∈ as, sel (x + st * k) = some j) (s : σ) (t : Fin m → Nat → Nat) (b : Bool) :
    busWrite (soc sel a) order w nb be st as vs ((s, t), b) =
      ((s, put t j (busWrite memBus order w nb be st as vs (t j, b)).1), (busWrite memBus order w nb be st as vs (t j, b)).2) := by
  induction vs generalizing as t b with
  | nil => simp [busWrite, put_self]
  | cons v vs ih =>
    simp only [busWrite]
    rw [writes_mem (j := j) _ (fun op hop => by simpa using h 0 (by simp) _ (addr_of_access ho hop))]
    rw [ih (as.map (· + st)) (by
      intro k hk x hx
      obtain ⟨y, hy, rfl⟩ := List.mem_map.1 hx
      have := h (k + 1) (by simpa using hk) y hy
      rw [← this]; congr 1; rw [Nat.mul_add, Nat.mul_one]; omega), put_at, put_put]

theorem busRead_mem {order : Order} (ho : Reorders order) {j : Fin m} (w : Nat) (nb : Int) (be st : Nat) (as : List Nat)
    (h : ∀ x ∈ as, sel x = some j) (s : σ) (t : Fin m → Nat → Nat) (b : Bool) :
    busRead (soc sel a) order w nb be st as 1 ((s, t), b) =
      ((s, put t j (busRead memBus order w nb be st as 1 (t j, b)).1), (busRead memBus order w nb be st as 1 (t j, b)).2) := by
  simp only [busRead]
  rw [reads_mem (j := j) _ _ (fun op hop => h _ (addr_of_access ho hop))]

theorem regDev_reg {order : Order} (ho : Reorders order) (w nb : Nat) (as : List Nat) (h : ∀ x ∈ as, sel x = none) (t : Fin m → Nat → Nat) :
    Alike (fun (x : σ × (Fin m → Nat → Nat)) (s : σ) => x = (s, t)) (regDev (soc sel a) order w nb as) (regDev a order w nb as) := by
  constructor
  · rintro _ s v rfl
    simp only [regDev, busWrite]
    rw [writes_reg _ (fun op hop => h _ (addr_of_access ho hop))]
    exact ⟨rfl, rfl⟩
  · rintro _ s rfl
    simp only [regDev, busRead]
    rw [reads_reg _ _ (fun op hop => h _ (addr_of_access ho hop))]
    exact ⟨rfl, rfl⟩

/-! ### Memory accesses through the front door -/

theorem exec_write {ρ : Type} {e : Mem.Env ρ} {l : Mem.Local ρ} (hl : e.loc = some l) (hfd : l.fd = none) (hu : l.unmapped = false) (s : ρ) {o : Nat} {vs : List Nat}
    {p : Mem.Path} (h1 : o < e.size) (h2 : Mem.ViaFront e p) (h3 : vs.length ≤ 1 ∨ (e.nBits ≤ 8 * l.w ∧ o + vs.length ≤ e.size)) :
    Mem.exec e s (.burst o vs p) = some ((busWrite e.bus e.order l.w e.nBits (2 ^ l.w - 1) l.info.2 (memAddrs l.info o) vs (s, false)).1,
      ⟨(busWrite e.bus e.order l.w e.nBits (2 ^ l.w - 1) l.info.2 (memAddrs l.info o) vs (s, false)).2, [], none⟩) := by
  have hr : Mem.resolve e p = .front := (Mem.resolve_front _ _).2 h2
  have hc : Mem.check e ⟨o, vs, true, p⟩ = some ⟨true, ⟨o, vs, true, .front⟩, some l, []⟩ := by
    simp only [Mem.check, show ¬ e.size ≤ o by omega, if_false, hr, hl, hfd, hu]
    have hn : ¬ (1 < vs.length ∧ l.w * 8 < e.nBits) := by rintro ⟨x, y⟩; omega
    have hn' : ¬ (1 < vs.length ∧ e.size < o + vs.length) := by rintro ⟨x, y⟩; omega
    simp [hn, hn']
  simp [Mem.exec, Mem.burstWrite, Mem.doWrite, hc, Mem.Hooks.all, Mem.transferW, hfd]

theorem exec_read {ρ : Type} {e : Mem.Env ρ} {l : Mem.Local ρ} (hl : e.loc = some l) (hfd : l.fd = none) (hu : l.unmapped = false) (s : ρ) {o : Nat}
    {p : Mem.Path} (h1 : o < e.size) (h2 : Mem.ViaFront e p) :
    Mem.exec e s (.read o p) = some ((busRead e.bus e.order l.w e.nBits (2 ^ l.w - 1) l.info.2 (memAddrs l.info o) 1 (s, false)).1,
      ⟨(busRead e.bus e.order l.w e.nBits (2 ^ l.w - 1) l.info.2 (memAddrs l.info o) 1 (s, false)).2.2, [],
        (busRead e.bus e.order l.w e.nBits (2 ^ l.w - 1) l.info.2 (memAddrs l.info o) 1 (s, false)).2.1.head?⟩) := by
  have hr : Mem.resolve e p = .front := (Mem.resolve_front _ _).2 h2
  have hc : Mem.check e ⟨o, [0], true, p⟩ = some ⟨true, ⟨o, [0], true, .front⟩, some l, []⟩ := by
    simp only [Mem.check, show ¬ e.size ≤ o by omega, if_false, hr, hl, hfd, hu]
    simp
  simp [Mem.exec, Mem.read, Mem.doRead, hc, Mem.Hooks.all, Mem.transferR, hfd, busRead]

theorem exec_write1 {ρ : Type} (e : Mem.Env ρ) (s : ρ) (o v : Nat) (p : Mem.Path) : Mem.exec e s (.write o v p) = Mem.exec e s (.burst o [v] p) := rfl

/-- A memory behind the common bus behaves as on its own; nothing else is touched. -/
theorem exec_place {j : Fin m} {e : Mem.Env (Nat → Nat)} {l : Mem.Local (Nat → Nat)} (hb : e.bus = memBus) (ho : Reorders e.order) (hl : e.loc = some l) (hfd : l.fd = none)
    (hu : l.unmapped = false) (hus : e.user = none) (hh : e.hdl = none) (hsel : Selected sel j e) {n : Nat} {op : Mem.Op} (hop : Mem.Allowed e l.w n op) (s : σ) (t : Fin m → Nat → Nat) :
    Mem.exec (place e (soc sel a)) (s, t) op = (Mem.exec e (t j) op).map fun r => ((s, put t j r.1), r.2) := by
  have hsel' := hsel l hl
  have hpl : (place e (soc sel a)).loc = some { info := l.info, w := l.w, unmapped := l.unmapped } := by simp [place, hl]
  have hvia : ∀ p, Mem.ViaFront (place e (soc sel a)) p := fun p => .inr (.inr ⟨rfl, rfl⟩)
  have hvia' : ∀ p, Mem.ViaFront e p := fun p => .inr (.inr ⟨hus, hh⟩)
  have hburst : ∀ o vs p, o < e.size → (vs.length ≤ 1 ∨ (e.nBits ≤ 8 * l.w ∧ o + vs.length ≤ e.size)) →
      Mem.exec (place e (soc sel a)) (s, t) (.burst o vs p) = (Mem.exec e (t j) (.burst o vs p)).map fun r => ((s, put t j r.1), r.2) := by
    intro o vs p h1 h2
    rw [exec_write (ρ := σ × (Fin m → Nat → Nat)) hpl rfl hu (s, t) (o := o) (vs := vs) (p := p) h1 (hvia p) h2, exec_write hl hfd hu (t j) (o := o) (vs := vs) (p := p) h1 (hvia' p) h2]
    simp only [Option.map_some]
    have : busWrite (place e (soc sel a)).bus (place e (soc sel a)).order l.w (place e (soc sel a)).nBits (2 ^ l.w - 1) l.info.2 (memAddrs l.info o) vs ((s, t), false) = _ :=
      busWrite_mem (j := j) (sel := sel) (a := a) ho l.w e.nBits (2 ^ l.w - 1) l.info.2 vs (memAddrs l.info o) (by
        intro k hk x hx
        obtain ⟨y, hy, rfl⟩ := List.mem_map.1 hx
        refine hsel' (o + k) (by rcases h2 with h | h <;> omega) _ (List.mem_map.2 ⟨y, hy, ?_⟩)
        rw [Nat.mul_add]; omega) s t false
    rw [this, hb]
  cases hop' : op with
  | write o v p =>
    subst hop'
    rw [exec_write1, exec_write1]
    exact hburst o [v] p hop.1 (.inl (by simp))
  | burst o vs p =>
    subst hop'
    obtain ⟨h1, h2, h3, h4, h5⟩ := hop
    have := List.length_pos_iff.2 h1
    exact hburst o vs p (by omega) (by rcases h4 with h | h; exact .inl h; exact .inr ⟨h, h2⟩)
  | read o p =>
    subst hop'
    rw [exec_read (ρ := σ × (Fin m → Nat → Nat)) hpl rfl hu (s, t) (o := o) (p := p) hop.1 (hvia p), exec_read hl hfd hu (t j) (o := o) (p := p) hop.1 (hvia' p)]
    simp only [Option.map_some]
    have : busRead (place e (soc sel a)).bus (place e (soc sel a)).order l.w (place e (soc sel a)).nBits (2 ^ l.w - 1) l.info.2 (memAddrs l.info o) 1 ((s, t), false) = _ :=
      busRead_mem (j := j) (sel := sel) (a := a) ho l.w e.nBits (2 ^ l.w - 1) l.info.2 (memAddrs l.info o) (hsel' o hop.1) s t false
    rw [this, hb]

end Verif.RegMem
