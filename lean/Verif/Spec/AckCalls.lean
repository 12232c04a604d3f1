import Verif.Spec.DataCalls
import Verif.Model.AckCalls

/-!
# Packet handlers of a decoder that call it
-/

namespace Netcode

variable {w : Nat}

/-- The call changes a setting. -/
def DCall.Setting : DCall → Prop
  | .setAckNb _ => True
  | .setAckPeriod _ => True
  | _ => False

/-- From its `k`-th ack on the handler asks for no more acks. -/
def SettlesAt (k : Nat) (H : Nat → List DCall) : Prop := ∀ n, k ≤ n → ∀ x ∈ H n, x.Setting

/-- The states that calls and arrivals reach from a new encoder and a new decoder, when the packet handler of the decoder makes any allowed
calls, and these return. -/
inductive ReachK (c : Cfg w) (late io : Bool) : Sys → Prop
  | init : ReachK c late io (Sys.init c.clk io)
  | step {s s' : Sys} {a : Act} {H : Nat → List DCall} {fuel : Nat} : ReachK c late io s → Permits c late s a → CallsOk H →
      s.stepK c H fuel a = .ok s' → ReachK c late io s'

end Netcode
