import Verif.Model.Reg
/-!
# Model of `UVMRegFIFO` (src/uvm/reg/uvm_reg_fifo.py) and of the accesses it inherits from `UVMReg`

Accesses are one whole operation each (they are serialised by `XatomicX`, modelled in `Verif.Model.RegAtomic`),
through the front door of a map in which the register is mapped.  The answer of the bus (`busOk`, the value read)
is an input.  Not modelled: callbacks, coverage, back doors, file name and line bookkeeping, warnings.
-/
namespace Verif.RegFifo
open Verif.RegField (maskInt Rights PKind Path)
open Verif.Reg (Reg RF)

/-- uvm_reg_fifo.py 70-74: the register, `m_size`, `fifo`, `m_set_cnt` and `m_update_in_progress`. -/
structure Fifo where
  reg : Reg
  cap : Nat
  fifo : List Nat
  setCnt : Nat
  updating : Bool

/-- uvm_reg_fifo.py 70-84: a new FIFO register after `build`: one RW field named "value" over all the bits. -/
def new (cap nBits : Nat) : Fifo :=
  let r := Reg.new nBits
  { reg := (Reg.addField r ⟨0, RegField.configure [] r.nBits .RW false 0 true⟩).1, cap := cap, fifo := [], setCnt := 0, updating := false }

/-- `self.value.value`. -/
def val (r : Reg) : Nat :=
  match r.fields with
  | x :: _ => x.f.value
  | [] => 0

/-- uvm_reg_fifo.py 106-107. -/
def size (s : Fifo) : Nat := s.fifo.length

/-- uvm_reg_fifo.py 148-155: `set`. -/
def set (s : Fifo) (v : Int) : Fifo :=
  let v := maskInt s.reg.nBits v
  if s.fifo.length = s.cap then s
  else
    let r := Reg.set s.reg v
    { s with reg := r, setCnt := s.setCnt + 1, fifo := s.fifo ++ [val r] }

/-- uvm_reg_fifo.py 197-200: `get`; `none` is the IndexError of an empty FIFO. -/
def get (s : Fifo) : Option Nat := s.fifo[0]?

/-- uvm_reg_fifo.py 222-240: `do_predict` for a request whose status was `ok`; gives the status afterwards.
`none`: the field raised (byte enable clear). -/
def doPredict (s : Fifo) (v : Int) (k : PKind) (p : Path) (rt : Rights) (ok : Bool) : Option (Fifo × Bool) :=
  match Reg.doPredict s.reg v k p rt (-1) with
  | none => none
  | some (r, ok') =>
    let s1 := { s with reg := r }
    if (ok && ok') = false then some (s1, false)
    else
      match k with
      | .write | .direct =>
        if s1.fifo.length ≠ s1.cap ∧ s1.updating = false then some ({ s1 with fifo := s1.fifo ++ [val r] }, true)
        else some (s1, true)
      | .read =>
        match s1.fifo with
        | [] => some (s1, true)
        | _ :: rest => some ({ s1 with fifo := rest }, true)

/-- uvm_reg_fifo.py 253-262: `pre_write`: does the status stay OK? -/
def preWrite (s : Fifo) : Bool :=
  if s.setCnt > 0 ∧ s.updating = false then false
  else if s.fifo.length ≥ s.cap ∧ s.updating = false then false
  else true

/-- uvm_reg_fifo.py 271-275: `pre_read`. -/
def preRead (s : Fifo) : Bool := if s.fifo.length = 0 then false else true

/-- uvm_reg.py 852-915 with 1389-1553: `write`.  `set` is the overridden one (898).  Gives the values sent to the
bus and the final status. -/
def write (s : Fifo) (v : Int) (rt : Rights) (busOk auto : Bool) : Fifo × List Nat × Bool :=
  let s := set s v
  let v := maskInt s.reg.nBits v
  if preWrite s = false then (s, [], false)
  else if auto then
    match doPredict s v .write .front rt busOk with
    | some (s', _) => (s', [v], busOk)
    | none => (s, [v], busOk)
  else (s, [v], busOk)

/-- uvm_reg.py 918-965 with 1207-1249 and 1579-1757: `read`, the bus giving `rv`.  Gives whether the bus was
accessed, the value returned and the final status. -/
def read (s : Fifo) (rv : Nat) (rt : Rights) (busOk auto : Bool) : Fifo × Bool × Nat × Bool :=
  if preRead s = false then (s, false, 0, false)
  else if auto then
    match doPredict s rv .read .front rt busOk with
    | some (s', _) => (s', true, rv, busOk)
    | none => (s, true, rv, busOk)
  else (s, true, rv, busOk)

/-- uvm_reg_fifo.py 173-180: the loop of `update`, at most `n` iterations; `i` is the index.  Gives the values
sent to the bus, `none` when the index is out of range or `n` was not enough. -/
def updateLoop (rt : Rights) (busOk auto : Bool) : Nat → Fifo → Int → Option (Fifo × List Nat)
  | 0, s, _ => if s.setCnt > 0 then none else some (s, [])
  | n + 1, s, i =>
    if s.setCnt > 0 then
      if i ≥ 0 then
        match s.fifo[i.toNat]? with
        | none => none
        | some v =>
          let r := write s v rt busOk auto
          match updateLoop rt busOk auto n { r.1 with setCnt := r.1.setCnt - 1 } (i + 1) with
          | none => none
          | some (s', ws) => some (s', r.2.1 ++ ws)
      else updateLoop rt busOk auto n { s with setCnt := s.setCnt - 1 } (i + 1)
    else some (s, [])

/-- uvm_reg_fifo.py 165-181: `update`. -/
def update (s : Fifo) (rt : Rights) (busOk auto : Bool) : Option (Fifo × List Nat) :=
  if s.setCnt = 0 ∨ s.fifo.length = 0 then some (s, [])
  else
    match updateLoop rt busOk auto (s.cap + s.setCnt) { s with updating := true } ((s.fifo.length : Int) - s.setCnt) with
    | none => none
    | some (s', ws) => some ({ s' with updating := false }, ws)

/-- uvm_reg_fifo.py 278-279: `post_randomize`. -/
def postRandomize (s : Fifo) : Fifo := { s with setCnt := 0 }

/-- What a user does with a FIFO register.  `reset` is inherited (uvm_reg.py 791-818). -/
inductive Op where
  | set (v : Int)
  | predict (v : Int) (k : PKind) (p : Path) (rt : Rights) (ok : Bool)
  | write (v : Int) (rt : Rights) (busOk auto : Bool)
  | read (rv : Nat) (rt : Rights) (busOk auto : Bool)
  | update (rt : Rights) (busOk auto : Bool)
  | randomize
  | reset (k : RegField.Kind)

def step (s : Fifo) : Op → Fifo
  | .set v => set s v
  | .predict v k p rt ok => match doPredict s v k p rt ok with
    | some (s', _) => s'
    | none => s
  | .write v rt b a => (write s v rt b a).1
  | .read rv rt b a => (read s rv rt b a).1
  | .update rt b a => match update s rt b a with
    | some (s', _) => s'
    | none => s
  | .randomize => postRandomize s
  | .reset k => { s with reg := Reg.reset s.reg k }

def run (s : Fifo) (ops : List Op) : Fifo := ops.foldl step s

end Verif.RegFifo
