import Verif.Model.ReportText
/-!
# What report texts are to say
-/
namespace Verif.ReportText

/-- Messages whose parts can be told apart: no blanks or `@` in names, no parentheses around the line number, and so on. -/
structure Plain (m : Msg) : Prop where
  elems : m.elems = []
  handler : ∃ n, m.handler = some n ∧ '@' ∉ n ∧ ' ' ∉ n
  file : '(' ∉ m.file ∧ m.file.head? ≠ some '@'
  line : ')' ∉ m.line
  ctx : ' ' ∉ m.ctx
  id : ']' ∉ m.id

/-- The messages of a history. -/
def messages : List Op → List (Sev × Txt)
  | [] => []
  | .message s i :: l => (s, i) :: messages l
  | _ :: l => messages l

/-- The ids of a history, each once, in the order of their first messages. -/
def firstSeen (ids : List Txt) : List Txt := ids.foldl (fun seen i => if i ∈ seen then seen else seen ++ [i]) []

/-- All ids that `get_id_set` gave in a history, and all severities that `get_severity_set` gave. -/
def listedIds (s : Server) : List Op → List Txt
  | [] => []
  | o :: l => (step s o).2.1 ++ listedIds (step s o).1 l

def listedSevs (s : Server) : List Op → List Sev
  | [] => []
  | o :: l => (step s o).2.2 ++ listedSevs (step s o).1 l

/-- How many messages of this severity, of this id. -/
def sevCount (ops : List Op) (s : Sev) : Nat := ((messages ops).filter fun e => e.1 = s).length
def idCount (ops : List Op) (i : Txt) : Nat := ((messages ops).filter fun e => e.2 = i).length

end Verif.ReportText
