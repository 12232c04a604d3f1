import Verif.Spec.Late
import Verif.Model.DataCalls

/-!
# Data handlers that call the library
-/

namespace Netcode

variable {w : Nat}

/-- The precondition of the call (decoder.hh:268). -/
def DCall.Ok : DCall → Prop
  | .setAckNb n => n ≠ 0
  | _ => True

instance (x : DCall) : Decidable x.Ok := by cases x <;> unfold DCall.Ok <;> infer_instance

/-- A data handler whose calls are all allowed. -/
def CallsOk (H : Nat → List DCall) : Prop := ∀ n, ∀ x ∈ H n, x.Ok

/-- The states that calls and arrivals reach from a new encoder and a new decoder, when the data handler makes any allowed calls. -/
inductive ReachC (c : Cfg w) (late io : Bool) : Sys → Prop
  | init : ReachC c late io (Sys.init c.clk io)
  | step {s s' : Sys} {a : Act} {H : Nat → List DCall} : ReachC c late io s → Permits c late s a → CallsOk H →
      s.stepC c H a = .ok s' → ReachC c late io s'

/-- Packets given to a decoder, one after the other, and what the calls return or throw. -/
def NDec.feed (receive : NDec → List Byte → Out (NDec × Except CppErr Nat)) :
    NDec → List (List Byte) → Out (NDec × List (Except CppErr Nat))
  | d, [] => .ok (d, [])
  | d, p :: t => do
    let (d, r) ← receive d p
    let (d, rs) ← NDec.feed receive d t
    return (d, r :: rs)

/-- What two decoders have in common that differ in acks only. -/
structure ButAcks (d e : NDec) : Prop where
  det : e.det = d.det
  data : e.data = d.data
  repairs : e.nbRepairs = d.nbRepairs
  sources : e.nbSources = d.nbSources

end Netcode
