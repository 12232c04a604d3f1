import Verif.Model.Restart
import Verif.Spec.Late

/-!
# Schedules with restarts

The schedules of `Verif/Spec/Schedule.lean` and `Verif/Spec/Late.lean`, during which the decoder may be replaced by a new one any number of times.
-/

namespace Netcode

variable {w : Nat}

/-- Does the step bring an ack to the encoder? -/
def Act.isAck : Act → Bool
  | .ack _ => true
  | _ => false

/-- What may happen besides new decoders. -/
structure Leftovers where
  /-- acks of earlier decoders reach the encoder -/
  acks : Bool
  /-- packets that were emitted before the last ack reached the encoder reach a new decoder -/
  packets : Bool
  /-- encoders are replaced -/
  encoders : Bool
  /-- sources may be late with ordering -/
  late : Bool

/-- The states reached.  The first index is the ordering asked of the present decoder, the second one counts the packets of
the encoder that were emitted before the last ack reached it. -/
inductive Again (c : Cfg w) (o : Leftovers) : Bool → Nat → Pair → Prop
  | init (io : Bool) : Again c o io 0 (Pair.init c.clk io)
  | act {io : Bool} {k : Nat} {p p' : Pair} {a : Act} : Again c o io k p → Permits c o.late p.sys a → p.step c (.act a) = .ok p' →
      Again c o io (if a.isAck then p'.sys.enc.out.length else k) p'
  | newDecoder {io : Bool} {k : Nat} {p p' : Pair} (io' : Bool) (k' : Nat) : Again c o io k p →
      k ≤ k' ∨ o.packets = true → p.step c (.newDecoder io' k') = .ok p' → Again c o io' 0 p'
  | newEncoder {io : Bool} {k : Nat} {p p' : Pair} : Again c o io k p → o.encoders = true →
      p.step c .newEncoder = .ok p' → Again c o io 0 p'
  | oldAck {io : Bool} {k : Nat} {p p' : Pair} (j : Nat) : Again c o io k p → o.acks = true →
      p.step c (.oldAck j) = .ok p' → Again c o io p'.sys.enc.out.length p'

/-- Nothing of that: what a decoder sent before it was replaced is lost, and so are the packets that were emitted before the
last ack reached the encoder. -/
def noLeftovers : Leftovers := ⟨false, false, false, false⟩

/-- The same if sources may be late with ordering. -/
def lateSources : Leftovers := ⟨false, false, false, true⟩

end Netcode
