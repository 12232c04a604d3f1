import Verif.Spec.Line

/-!
# Runs in which no source is evicted
-/

namespace Netcode

variable {w : Nat}

/-- The window is not full when a datum is committed, so that no older one is evicted. -/
def Roomy (s : Sys) : Act → Prop
  | .commit _ => s.enc.window ≠ s.enc.windowSize
  | _ => True

instance (s : Sys) (a : Act) : Decidable (Roomy s a) :=
  match a with
  | .commit _ => inferInstanceAs (Decidable (_ ≠ _))
  | .repair | .setRate _ | .setWindow _ | .setAdaptive _ | .setSystematic _ | .deliver _ | .ack _ | .genAck | .maybeAck | .setAckNb _
  | .setAckPeriod _ => inferInstanceAs (Decidable True)

/-- The states that allowed calls and arrivals (`Verif/Spec/Schedule.lean`) reach without evictions. -/
inductive RoomReach (c : Cfg w) (inOrder : Bool) : Sys → Prop
  | init : RoomReach c inOrder (Sys.init c.clk inOrder)
  | step {s s' : Sys} {a : Act} : RoomReach c inOrder s → Allowed c s a → Roomy s a → s.step c a = .ok s' → RoomReach c inOrder s'

/-- The states that correct calls, losses and repetitions (`Verif/Spec/Line.lean`) reach without evictions. -/
inductive RoomLine (c : Cfg w) (inOrder : Bool) : Sys → Prop
  | init : RoomLine c inOrder (Sys.init c.clk inOrder)
  | step {s s' : Sys} {a : Act} : RoomLine c inOrder s → Line w s a → Roomy s a → s.step c a = .ok s' → RoomLine c inOrder s'

end Netcode
