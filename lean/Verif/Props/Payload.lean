import Verif.Model.Payload
/-!
# Properties of generic payloads: C319
-/
namespace Verif.Payload

/-! ## C319 -/

/-- Specification: the last command and address given in a history. -/
def lastCommand (d : Cmd) : List Op → Cmd
  | [] => d
  | .setCommand c :: l => lastCommand c l
  | .setRead :: l => lastCommand .read l
  | .setWrite :: l => lastCommand .write l
  | .setAddress _ :: l => lastCommand d l

def lastAddress (d : Int) : List Op → Int
  | [] => d
  | .setAddress a :: l => lastAddress a l
  | _ :: l => lastAddress d l

theorem fold (l : List Op) (g : Gp) :
    (l.foldl step g).command = lastCommand g.command l ∧ (l.foldl step g).address = lastAddress g.address l := by
  induction l generalizing g with
  | nil => exact ⟨rfl, rfl⟩
  | cons o l ih =>
    rw [List.foldl_cons, (ih _).1, (ih _).2]
    cases o <;> exact ⟨rfl, rfl⟩

/-- C319: the command and the address are the last ones given, at first "ignore" and 0; `is_read` and `is_write` tell the command and are never both true. -/
theorem C319_last (l : List Op) :
    getCommand (l.foldl step new) = lastCommand .ignore l ∧ getAddress (l.foldl step new) = lastAddress 0 l ∧
    (isRead (l.foldl step new) = true ↔ lastCommand .ignore l = .read) ∧ (isWrite (l.foldl step new) = true ↔ lastCommand .ignore l = .write) := by
  have h := fold l new
  refine ⟨h.1, h.2, ?_, ?_⟩
  · simp only [isRead, h.1, beq_iff_eq]; rfl
  · simp only [isWrite, h.1, beq_iff_eq]; rfl

theorem C319_not_both (l : List Op) : ¬ (isRead (l.foldl step new) = true ∧ isWrite (l.foldl step new) = true) := by
  rw [(C319_last l).2.2.1, (C319_last l).2.2.2]
  rintro ⟨h1, h2⟩
  rw [h1] at h2; cases h2

example : isRead ([.setWrite, .setAddress 16, .setRead].foldl step new) = true ∧ getAddress ([.setWrite, .setAddress 16, .setRead].foldl step new) = 16 := by
  decide

end Verif.Payload
