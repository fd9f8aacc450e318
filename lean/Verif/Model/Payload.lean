import Verif.Util.Machine
/-!
# Model of generic payloads (src/uvm/tlm2/uvm_tlm2_generic_payload.py)

Only the accessors: most of the class is commented out in the source; `convert2string` (643-655) calls `get_response_string`, which does not exist, and always raises.
-/
namespace Verif.Payload

/-- 42-59: `uvm_tlm_command_e`. -/
inductive Cmd where
  | read | write | ignore
deriving DecidableEq, Repr

/-- 381-390: `m_address`, `m_command`. -/
structure Gp where
  address : Int
  command : Cmd
deriving DecidableEq, Repr

/-- 381-390. -/
def new : Gp := ⟨0, .ignore⟩

inductive Op where
  | setCommand (c : Cmd)
  | setRead
  | setWrite
  | setAddress (a : Int)
deriving DecidableEq, Repr

/-- 676-677, 695-696, 713-719. -/
def step (g : Gp) : Op → Gp
  | .setCommand c => { g with command := c }
  | .setRead => { g with command := .read }
  | .setWrite => { g with command := .write }
  | .setAddress a => { g with address := a }

/-- 671-672, 686-687, 704-705, 725-726. -/
def getCommand (g : Gp) : Cmd := g.command
def isRead (g : Gp) : Bool := g.command == .read
def isWrite (g : Gp) : Bool := g.command == .write
def getAddress (g : Gp) : Int := g.address

end Verif.Payload
