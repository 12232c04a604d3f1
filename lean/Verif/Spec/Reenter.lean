import Verif.Model.Reenter
import Verif.Spec.Schedule

/-!
# Calls from within the packet handler
-/

namespace Netcode

variable {w : Nat}

/-- The calls considered: those of `Allowed`; commits begin when the encoder is not in a commit; when the handler returns and an
automatic repair is due, the window is not empty. -/
def AllowedR (c : Cfg w) (x : Sys × Phase) : RAct → Prop
  | .begin d => x.2 = .idle ∧ Allowed c x.1 (.commit d)
  | .api (.commit d) => x.2 = .idle ∧ Allowed c x.1 (.commit d)
  | .api a => Allowed c x.1 a
  | .ret => x.2 = .first → x.1.enc.due = true → Allowed c x.1 .repair

/-- The states that such calls reach. -/
inductive ReachR (c : Cfg w) (inOrder : Bool) : Sys × Phase → Prop
  | init : ReachR c inOrder (Sys.init c.clk inOrder, .idle)
  | step {x x' : Sys × Phase} {a : RAct} : ReachR c inOrder x → AllowedR c x a → Sys.stepR c x a = .ok x' → ReachR c inOrder x'

/-- The identifier of the next source is incremented. -/
def Sys.bump (s : Sys) : Sys := { s with enc := s.enc.bump }

/-- The state as seen by a caller who does not know about the handler: the source of a commit that has begun has taken its identifier. -/
def outside : Sys × Phase → Sys
  | (s, .idle) => s
  | (s, _) => s.bump

end Netcode
