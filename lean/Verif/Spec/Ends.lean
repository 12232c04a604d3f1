import Verif.Model.System
import Verif.Spec.EncHist
import Verif.Spec.DecHist
import Verif.Spec.Late

/-!
# The calls that each end of a system gets

Each step of the environment is a call of the encoder, a call of the decoder, or nothing (the arrival of a packet that was never sent).
-/

namespace Netcode

variable {w : Nat}

/-- The call of the encoder that a step is. -/
def Act.encCall (s : Sys) : Act → List EAct
  | .commit d => [.commit d]
  | .repair => [.repair]
  | .setRate n => [.setRate n]
  | .setWindow n => [.setWindow n]
  | .setAdaptive b => [.setAdaptive b]
  | .setSystematic b => [.setSystematic b]
  | .ack j => (s.dec.out[j]?).toList.map fun a => .packet (writeAck a).flatten
  | _ => []

/-- The call of the decoder that a step is. -/
def Act.decCall (s : Sys) : Act → List DAct
  | .deliver i => (s.enc.out[i]?).toList.map fun p => .packet p.bytes
  | .genAck => [.genAck]
  | .maybeAck => [.maybeAck]
  | .setAckNb n => [.setAckNb n]
  | .setAckPeriod ms => [.setAckPeriod ms]
  | _ => []

/-- The calls of the encoder during a run; the one that ends it early is the last. -/
def encCalls (c : Cfg w) : Sys → List Act → List EAct
  | _, [] => []
  | s, a :: t => a.encCall s ++ match s.step c a with
    | .ok s' => encCalls c s' t
    | .error _ => []

/-- The calls of the decoder during a run; the one that ends it early is the last. -/
def decCalls (c : Cfg w) : Sys → List Act → List DAct
  | _, [] => []
  | s, a :: t => a.decCall s ++ match s.step c a with
    | .ok s' => decCalls c s' t
    | .error _ => []

/-- The data that a list of steps commits. -/
def committedBy (acts : List Act) : List (List Byte) := acts.filterMap fun | .commit d => some d | _ => none

/-- Each step of a run is permitted in the state in which it is done. -/
def RunPermits (c : Cfg w) (late : Bool) : Sys → List Act → Prop
  | _, [] => True
  | s, a :: t => Permits c late s a ∧ ∀ s', s.step c a = .ok s' → RunPermits c late s' t

end Netcode
