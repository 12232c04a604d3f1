import Verif.Model.Float
import Verif.Spec.EncHist
import Verif.Spec.DecHist

/-!
# Settings in a history

The value a setting has after a sequence of calls: the one of the last call that sets it, or the default value of the
documentation (configuration in encoder.hh:51-77 and decoder.hh:50-78) when no call sets it.
-/

namespace Netcode

/-- The last code type set; systematic by default. -/
def systematicSet (acts : List EAct) : Bool :=
  (acts.filterMap fun | .setSystematic b => some b | _ => none).getLast?.getD true

/-- The last adaptive mode set; not adaptive by default. -/
def adaptiveSet (acts : List EAct) : Bool :=
  (acts.filterMap fun | .setAdaptive b => some b | _ => none).getLast?.getD false

/-- The last window size set; the greatest `size_t` by default. -/
def windowSet (acts : List EAct) : Nat :=
  (acts.filterMap fun | .setWindow n => some n | _ => none).getLast?.getD (2 ^ 64 - 1)

/-- The last ack period set, in milliseconds; 100 by default. -/
def periodSet (acts : List DAct) : Int :=
  (acts.filterMap fun | .setAckPeriod n => some n | _ => none).getLast?.getD 100

/-- The last number of packets between acks set; 50 by default. -/
def countSet (acts : List DAct) : Nat :=
  (acts.filterMap fun | .setAckNb n => some n | _ => none).getLast?.getD 50

/-- The packet is an ack that an encoder (a new one, as well as any other) reads without an exception. -/
def accepts (p : List Byte) : Bool :=
  match Enc.init.notify ieee true p with
  | .ok (_, .ok _) => true
  | _ => false

/-- The number of packets of type ack given to an encoder. -/
def nbAcksOf : List EAct → Nat
  | [] => 0
  | .packet p :: t => (if p.head? = some 0#8 then 1 else 0) + nbAcksOf t
  | _ :: t => nbAcksOf t

/-- The number of received packets an ack reports: the two bytes after its type, in network order. -/
def reportedBy (p : List Byte) : Nat := 256 * (p.getD 1 0#8).toNat + (p.getD 2 0#8).toNat

/-- The rate for `sent` packets `received` of which were received: 50 if less than 1 % is lost, otherwise half of the
inverse of the loss rate, rounded up. -/
def adaptiveRate (sent received : Nat) : Nat :=
  let lost := sent - received
  if 100 * lost < sent ∨ sent = 0 then 50 else ((sent : Rat) / (2 * lost)).ceil.toNat

end Netcode
