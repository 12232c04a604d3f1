import Verif.Model.CProg

/-!
# How a C program does what a C++ program does
-/

namespace Netcode

variable {w : Nat}

/-- Puts bytes into the packet of the program and gives them to the library by `k`. -/
def sendC (k : CCall) (l : List Byte) : List CCall := [.pktResize (BitVec.ofNat 16 l.length), .pktWrite l, k]

/-- The calls of the C interface for a step of the closed system in the state `s`.  There is no `maybe_ack` in the C interface. -/
def toC (s : Sys) : Act → List CCall
  | .commit d => [.dataResize (BitVec.ofNat 16 d.length), .dataWrite d, .addData]
  | .repair => [.repair]
  | .setRate n => [.rate (BitVec.ofNat 64 n)]
  | .setWindow n => [.windowSize (BitVec.ofNat 64 n)]
  | .setAdaptive b => [.adaptive b]
  | .setSystematic b => [.codeType b]
  | .deliver i => match s.enc.out[i]? with
    | none => []
    | some p => sendC .addToDec p.bytes
  | .ack j => match s.dec.out[j]? with
    | none => []
    | some a => sendC .addToEnc (writeAck a).flatten
  | .genAck => [.genAck]
  | .maybeAck => []
  | .setAckNb n => [.ackNb (BitVec.ofNat 16 n)]
  | .setAckPeriod ms => [.ackPeriod (BitVec.ofInt 64 ms)]

/-- The sizes and the numbers of the step fit in the types of the C interface. -/
def FitsC (s : Sys) : Act → Prop
  | .commit d => d.length < 2 ^ 16
  | .setRate n => n < 2 ^ 64
  | .setWindow n => n < 2 ^ 64
  | .deliver i => ∀ p, s.enc.out[i]? = some p → p.bytes.length < 2 ^ 16
  | .ack j => ∀ a, s.dec.out[j]? = some a → (writeAck a).flatten.length < 2 ^ 16
  | .maybeAck => False
  | .setAckNb n => n < 2 ^ 16
  | .setAckPeriod ms => -2 ^ 63 ≤ ms ∧ ms < 2 ^ 63
  | _ => True

/-- The calls of the C program that does what the closed system does: all packets it gives to the library are those that its own callbacks
got. -/
def callsC (c : Cfg w) : Sys → List Act → List CCall
  | _, [] => []
  | s, a :: l => toC s a ++ (match s.step c a with
    | .ok s' => callsC c s' l
    | .error _ => [])

/-- All steps fit in the types of the C interface. -/
def AllFitC (c : Cfg w) : Sys → List Act → Prop
  | _, [] => True
  | s, a :: l => FitsC s a ∧ match s.step c a with
    | .ok s' => AllFitC c s' l
    | .error _ => True

instance (s : Sys) (a : Act) : Decidable (FitsC s a) := by
  cases a <;> unfold FitsC <;> infer_instance

instance decAllFitC (c : Cfg w) : (s : Sys) → (l : List Act) → Decidable (AllFitC c s l)
  | _, [] => isTrue trivial
  | s, a :: l => by
    unfold AllFitC
    have : Decidable (match s.step c a with
      | .ok s' => AllFitC c s' l
      | .error _ => True) := by
      cases s.step c a with
      | ok s' => exact decAllFitC c s' l
      | error _ => exact isTrue trivial
    infer_instance

end Netcode
