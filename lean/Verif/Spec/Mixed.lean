import Verif.Model.Mixed
import Verif.Spec.Lossless

/-!
# An encoder and a decoder with different fields: schedules
-/

namespace Netcode

variable {w v : Nat}

/-- The states that lossless schedules reach, where the decoder has the field `g`. -/
inductive MixedReach (c : Cfg w) (g : GF v) (inOrder : Bool) : Sys → Prop
  | init : MixedReach c g inOrder (Sys.init c.clk inOrder)
  | step {s s' : Sys} {a : Act} : MixedReach c g inOrder s → Fifo w s a → s.stepMixed c g a = .ok s' → MixedReach c g inOrder s'

end Netcode
