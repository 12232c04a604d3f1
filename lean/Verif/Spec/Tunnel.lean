import Verif.Model.Tunnel
import Verif.Spec.Late
import Verif.Spec.Trail

/-!
# The tunnel: schedules

Each direction of the tunnel, from the encoder of a side to the decoder of the other one and back, is under the limits of
`Verif/Spec/Schedule.lean` (`late = false`) or of `Verif/Spec/Late.lean` (`late = true`).
-/

namespace Netcode

/-- The direction that carries the data of the application of the side `x`. -/
def Tun.dir (t : Tun) (x : Bool) : Sys where
  enc := (t.side x).enc
  dec := (t.side !x).dec
  committed := (t.side x).sent
  hist := (t.side !x).hist
  errs := 0

/-- The acks sent in a step fit in the buffer of the other side. -/
def AcksFit (c : Cfg 8) (t : Tun) (a : TunAct) : Prop :=
  ∀ s, t.act c a = .ok s → ∀ k ∈ s.dec.out.drop (t.side a.at).dec.out.length, (writeAck k).flatten.length ≤ bufferSize

/-- The steps considered: datagrams of the application of at most 32697 bytes, fewer than 2^32 of them and of repairs; packets and acks as
in `Allowed` or `AllowedLate`; acks that fit in a buffer. -/
def TAllowed (c : Cfg 8) (late : Bool) (t : Tun) : TunAct → Prop
  | .app x d => d.length ≤ 32697 ∧ (t.side x).sent.length + 1 < 2 ^ 32 ∧ (t.side x).enc.nbSentRepairs + 2 < 2 ^ 32
  | .packet x i junk => Permits c late (t.dir !x) (.deliver i) ∧ AcksFit c t (.packet x i junk)
  | .ack x j _ => Permits c late (t.dir x) (.ack j)
  | .timer x => AcksFit c t (.timer x)

/-- The states that such steps reach. -/
inductive TReach (c : Cfg 8) (late : Bool) : Tun → Prop
  | init : TReach c late (Tun.init c.clk)
  | step {t t' : Tun} {a : TunAct} : TReach c late t → TAllowed c late t a → t.step c a = .ok t' → TReach c late t'

end Netcode
