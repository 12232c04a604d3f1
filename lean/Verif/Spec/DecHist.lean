import Verif.Model.NDecoder
import Verif.Spec.Observe

/-!
# Histories of a decoder

What a user (and a network that may deliver anything) can do with an `ntc::decoder`, in any order.
-/

namespace Netcode

variable {w : Nat}

/-- A call of the interface of a decoder. -/
inductive DAct where
  /-- `decoder(packet)`, with any bytes -/
  | packet (p : List Byte)
  /-- `generate_ack()` -/
  | genAck
  /-- `maybe_ack()` -/
  | maybeAck
  | setAckNb (n : Nat)
  | setAckPeriod (ms : Int)
  deriving DecidableEq, Repr

/-- The decoder after a call. -/
def NDec.act (gf : GF w) (dbg : Bool) (clk : Clock) (d : NDec) : DAct → Out NDec
  | .packet p => (d.notify gf dbg clk p).map (·.1)
  | .genAck => .ok d.generateAck
  | .maybeAck => .ok (d.maybeAck clk)
  | .setAckNb n => d.setAckNb dbg n
  | .setAckPeriod ms => .ok (d.setAckPeriod ms)

/-- The decoder after a sequence of calls. -/
def NDec.after (gf : GF w) (dbg : Bool) (clk : Clock) (d : NDec) (acts : List DAct) : Out NDec :=
  acts.foldlM (NDec.act gf dbg clk) d

/-- The number of packets whose first byte is `ty`. -/
def nbOfType (ty : Byte) : List DAct → Nat
  | [] => 0
  | .packet p :: t => (if p.head? = some ty then 1 else 0) + nbOfType ty t
  | _ :: t => nbOfType ty t

/-- The packet is a whole source packet, and the source is neither outdated nor held. -/
def NDec.Fresh (d : NDec) (p : List Byte) : Bool :=
  match readSource p with
  | .ok (src, _) => decide (p.head? = some 2#8 ∧ ¬ d.det.Outdated src.id ∧ ¬ d.det.Holds src.id)
  | .error _ => false

/-- 1 for the arrival of a fresh source packet, 0 for another call. -/
def NDec.freshBy (d : NDec) : DAct → Nat
  | .packet p => if d.Fresh p then 1 else 0
  | _ => 0

/-- The number of fresh source packets during the calls. -/
def nbFresh (gf : GF w) (dbg : Bool) (clk : Clock) : NDec → List DAct → Nat
  | _, [] => 0
  | d, a :: t =>
    d.freshBy a +
    (match d.act gf dbg clk a with
      | .ok d' => nbFresh gf dbg clk d' t
      | .error _ => 0)

/-- The sum of the numbers of packets that acks report. -/
def reported (l : List Ack) : Nat := (l.map (·.nbPackets)).sum

/-- During these calls there was a time at which the decoder held source `x`. -/
def NDec.EverHeld (gf : GF w) (dbg : Bool) (clk : Clock) (d : NDec) (acts : List DAct) (x : Nat) : Prop :=
  ∃ pre d', pre <+: acts ∧ d.after gf dbg clk pre = .ok d' ∧ d'.det.Holds x

/-- For each call: 1 if it gives the decoder a packet of type source or repair, and the number of acks it sends. -/
def ackTrace (gf : GF w) (dbg : Bool) (clk : Clock) : NDec → List DAct → List (Nat × Nat)
  | _, [] => []
  | d, a :: t =>
    match d.act gf dbg clk a with
    | .ok d' => (nbOfType 1#8 [a] + nbOfType 2#8 [a], d'.out.length - d.out.length) :: ackTrace gf dbg clk d' t
    | .error _ => []

/-- For each ack, the number of packets received since the previous one; `n` is the number of packets already received
before the first call. -/
def sinceLast : Nat → List (Nat × Nat) → List Nat
  | _, [] => []
  | n, (c, 0) :: t => sinceLast (n + c) t
  | n, (c, k + 1) :: t => (n + c) :: (List.replicate k 0 ++ sinceLast 0 t)

end Netcode
