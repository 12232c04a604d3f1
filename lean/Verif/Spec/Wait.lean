import Verif.Spec.Schedule

/-!
# Runs in which the window of the encoder is bounded and no ack reaches it
-/

namespace Netcode

variable {w : Nat}

/-- No ack reaches the encoder.  The window size is set to at most `W` before the first commit, and it is never set below the number of
sources in the window. -/
def OneSided (W : Nat) (s : Sys) : Act → Prop
  | .ack _ => False
  | .setWindow n => s.enc.window ≤ n ∧ n ≤ W
  | .commit _ => s.enc.windowSize ≤ W
  | _ => True

instance (W : Nat) (s : Sys) (a : Act) : Decidable (OneSided W s a) :=
  match a with
  | .ack _ => inferInstanceAs (Decidable False)
  | .setWindow _ => inferInstanceAs (Decidable (_ ∧ _))
  | .commit _ => inferInstanceAs (Decidable (_ ≤ _))
  | .repair | .setRate _ | .setAdaptive _ | .setSystematic _ | .deliver _ | .genAck | .maybeAck | .setAckNb _
  | .setAckPeriod _ => inferInstanceAs (Decidable True)

/-- The states that such calls, and arrivals as in `Verif/Spec/Schedule.lean`, reach. -/
inductive SidedReach (c : Cfg w) (W : Nat) (inOrder : Bool) : Sys → Prop
  | init : SidedReach c W inOrder (Sys.init c.clk inOrder)
  | step {s s' : Sys} {a : Act} : SidedReach c W inOrder s → Allowed c s a → OneSided W s a → s.step c a = .ok s' → SidedReach c W inOrder s'

/-- For each datum in turn: it is committed, the source and the repair of the encoder arrive, and the decoder sends an ack, its `j`-th, that
arrives; `n` packets were emitted before. -/
def stallRun (n : Nat) : List (List Byte × Nat) → List Act
  | [] => []
  | (d, j) :: t => [.commit d, .deliver n, .deliver (n + 1), .genAck, .ack j] ++ stallRun (n + 2) t

end Netcode
