import Verif.Spec.Trail
import Verif.Spec.Late

/-!
# What a receiver makes of a packet

A program receives packets into a buffer.  What it hands over is the packet, the packet followed by old bytes, or the packet cut at
the size of the buffer.
-/

namespace Netcode

variable {w : Nat}

/-- The bytes `q` hold all of the packet that matters: the whole packet, or, for a repair, at least what comes before the second copy of
its symbol and the size of it (packetizer.hh:114-118). -/
def EPkt.Enough (p : EPkt) (q : List Byte) : Prop :=
  p.bytes <+: q ∨ ∃ r, p = .repair r ∧ q <+: p.bytes ∧ p.bytes.length ≤ q.length + (2 + r.sym.length)

/-- One step of the closed system, when the bytes `q` are handed over in place of the packet. -/
def Sys.stepVia (c : Cfg w) (s : Sys) (a : Act) (q : List Byte) : Out Sys :=
  match a with
  | .deliver i =>
    match s.enc.out[i]? with
    | none => return s
    | some _ => do
      let (d, r) ← s.dec.notify c.gf c.dbg c.clk q
      return { s with dec := d, hist := s.hist ++ [i], errs := s.errs + errCount r }
  | .ack i =>
    match s.dec.out[i]? with
    | none => return s
    | some _ => do
      let (e, r) ← s.enc.notify c.F c.dbg q
      return { s with enc := e, errs := s.errs + errCount r }
  | a => s.step c a

/-- The steps considered: those of `Allowed` or `AllowedLate`, when what is handed over is enough. -/
structure AllowedVia (c : Cfg w) (late : Bool) (s : Sys) (a : Act) (q : List Byte) : Prop where
  allowed : Permits c late s a
  packet : ∀ i p, a = .deliver i → s.enc.out[i]? = some p → p.Enough q
  ack : ∀ j k, a = .ack j → s.dec.out[j]? = some k → (writeAck k).flatten <+: q

/-- The states that such steps reach. -/
inductive ReachVia (c : Cfg w) (late inOrder : Bool) : Sys → Prop
  | init : ReachVia c late inOrder (Sys.init c.clk inOrder)
  | step {s s' : Sys} {a : Act} {q : List Byte} : ReachVia c late inOrder s → AllowedVia c late s a q → s.stepVia c a q = .ok s' →
      ReachVia c late inOrder s'

end Netcode
