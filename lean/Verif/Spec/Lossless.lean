import Verif.Spec.Schedule

/-!
# Schedules without losses

The packets of a systematic encoder reach the decoder one by one in the order in which they were emitted.  Acks may be
lost, duplicated, delayed and reordered.
-/

namespace Netcode

variable {w : Nat}

/-- The calls and arrivals considered: correct calls that keep the code systematic; packets arrive in the order of
emission, each once.  An identifier list longer than 16 million might not fit the wire format. -/
def Fifo (w : Nat) (s : Sys) (a : Act) : Prop :=
  ApiOk w s a ∧
  match a with
  | .setSystematic b => b = true
  | .deliver i => i = s.hist.length ∧ ∀ r, s.enc.out[i]? = some (.repair r) → r.ids.length ≤ 16000000
  | .ack j => ∀ k, s.dec.out[j]? = some k → k.ids.length ≤ 16000000
  | _ => True

/-- The states that lossless schedules reach. -/
inductive FifoReach (c : Cfg w) (inOrder : Bool) : Sys → Prop
  | init : FifoReach c inOrder (Sys.init c.clk inOrder)
  | step {s s' : Sys} {a : Act} : FifoReach c inOrder s → Fifo w s a → s.step c a = .ok s' → FifoReach c inOrder s'

/-- Is a packet a source? -/
def EPkt.isSource : EPkt → Bool
  | .source _ => true
  | .repair _ => false

/-- Number of sources among the packets that arrived. -/
def Sys.arrivedSources (s : Sys) : Nat := (s.enc.out.take s.hist.length).countP EPkt.isSource

end Netcode
