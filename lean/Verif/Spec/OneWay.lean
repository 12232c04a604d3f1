import Verif.Model.OneWay
import Verif.Spec.Late
import Verif.Spec.Trail

/-!
# The one-way accelerator: schedules
-/

namespace Netcode

/-- The encoder of the sender and the decoder of the receiver. -/
def OneWay.sys (t : OneWay) : Sys where
  enc := t.enc
  dec := t.dec
  committed := t.sent
  hist := t.hist
  errs := 0

/-- The acks sent in a step fit in the buffer of the sender. -/
def OneWay.AcksFit (c : Cfg 8) (t : OneWay) (a : OneAct) : Prop :=
  ∀ t', t.act c a = .ok t' → ∀ k ∈ t'.dec.out.drop t.dec.out.length, (writeAck k).flatten.length ≤ smallBuffer

/-- The steps considered: datagrams of at most 3316 bytes, fewer than 2^32 of them and of repairs; packets and acks as in `Allowed` or `AllowedLate`; acks
that fit in a buffer. -/
def OneWay.Allowed (c : Cfg 8) (late : Bool) (t : OneWay) : OneAct → Prop
  | .app d => d.length ≤ 3316 ∧ t.sent.length + 1 < 2 ^ 32 ∧ t.enc.nbSentRepairs + 2 < 2 ^ 32
  | .packet i => Permits c late t.sys (.deliver i) ∧ t.AcksFit c (.packet i)
  | .ack j _ => Permits c late t.sys (.ack j)
  | .timer => t.AcksFit c .timer

/-- The states that such steps reach. -/
inductive OneReach (c : Cfg 8) (late : Bool) : OneWay → Prop
  | init : OneReach c late (OneWay.init c.clk)
  | step {t t' : OneWay} {a : OneAct} : OneReach c late t → t.Allowed c late a → t.step c a = .ok t' → OneReach c late t'

end Netcode
