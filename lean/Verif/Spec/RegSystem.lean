import Verif.Model.RegSystem
import Verif.Spec.RegMap
import Verif.Spec.Reg
/-! # Specification vocabulary for the registers of a block on a bus -/
namespace Verif.RegSystem
open Verif.Reg Verif.RegField Verif.RegAccess Verif.RegMap

/-- The number held by the words of `w` bytes at the given addresses, the first one lowest. -/
def contents (w : Nat) (s : Nat → Nat) : List Nat → Nat
  | [] => 0
  | a :: as => s a + 2 ^ (8 * w) * contents w s as

/-- A memory of words of `w` bytes. -/
def WordMem (w : Nat) (s : Nat → Nat) : Prop := ∀ a, s a < 2 ^ (8 * w)

/-- Every register has addresses, and no address is used twice. -/
structure Apart {n : Nat} (ports : Fin n → Port) : Prop where
  some : ∀ i, (ports i).addrs ≠ []
  once : ∀ i, (ports i).addrs.Nodup
  apart : ∀ i j, i ≠ j → ∀ a ∈ (ports i).addrs, a ∉ (ports j).addrs

/-- One variable per register, of `bits i` bits, and nothing else: writing assigns, reading returns the variable. -/
def variables {n : Nat} (bits : Fin n → Nat) (i : Fin n) (_ : Reg) : Dev (Fin n → Nat) where
  wr m v := (fun j => if j = i then v % 2 ^ bits i else m j, true)
  rd m := (m, m i, true)

/-- The operation may change what register `i` has in the device. -/
def Writes {n : Nat} (i : Fin n) : Fin n × RegAccess.Op → Prop
  | (j, .write _) => j = i
  | (j, .update) => j = i
  | _ => False

/-- All fields are readable and writable and lie inside the register. -/
def Plain (r : Reg) : Prop := ∀ x ∈ r.fields, x.f.access = .RW ∧ x.lsb + x.f.size ≤ r.nBits

/-- The mirror of every field is the part of the number `c` at its position. -/
def Tracks (r : Reg) (c : Nat) : Prop := ∀ x ∈ r.fields, ∀ j, j < x.f.size → x.f.mirrored.testBit j = c.testBit (x.lsb + j)

/-- The fields fill the register. -/
def Full (r : Reg) : Prop := ∀ k, k < r.nBits → ∃ x ∈ r.fields, Covers x k

end Verif.RegSystem
