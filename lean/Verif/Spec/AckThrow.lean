import Verif.Model.AckThrow
import Verif.Spec.Late

/-!
# Runs in which the packet handler of the decoder throws
-/

namespace Netcode

variable {w : Nat}

/-- The states reached by the steps of `Reach`, and by calls of `generate_ack` and `maybe_ack` in which the packet handler throws. -/
inductive ReachThrow (c : Cfg w) (inOrder : Bool) : Sys → Prop
  | init : ReachThrow c inOrder (Sys.init c.clk inOrder)
  | step {s s' : Sys} {a : Act} {t : Bool} : ReachThrow c inOrder s → Allowed c s a → s.stepA c (a, t) = .ok s' → ReachThrow c inOrder s'

/-- The same with sources that may be late with ordering. -/
inductive ReachThrowLate (c : Cfg w) (inOrder : Bool) : Sys → Prop
  | init : ReachThrowLate c inOrder (Sys.init c.clk inOrder)
  | step {s s' : Sys} {a : Act} {t : Bool} : ReachThrowLate c inOrder s → AllowedLate c s a → s.stepA c (a, t) = .ok s' → ReachThrowLate c inOrder s'

end Netcode
