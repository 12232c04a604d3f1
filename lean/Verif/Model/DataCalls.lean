import Verif.Model.System

/-!
# A decoder that is called from within its data handler

`handle_source` (decoder.hh:290-300) runs the user's data handler in the middle of the work of `detail::decoder`.  Here the handler
calls the decoder back: it asks for acks and changes settings (`NDec.notifyC`), or gives it packets (`Dec.onSourceN`).
-/

namespace Netcode

variable {w : Nat}

/-! ## Acks and settings -/

/-- What the data handler asks of the decoder. decoder.hh:213-279. -/
inductive DCall where
  | genAck
  | maybeAck
  | setAckNb (n : Nat)
  | setAckPeriod (ms : Int)
  deriving DecidableEq, Repr

/-- One such call (decoder.hh:211-279), while `m_decoder.sources()` has the keys `held`. -/
def NDec.call (dbg : Bool) (clk : Clock) (held : List Nat) (d : NDec) : DCall → Out NDec
  | .genAck => return d.generateAckWith held
  | .maybeAck => return d.maybeAckWith clk held
  | .setAckNb n => d.setAckNb dbg n
  | .setAckPeriod ms => return d.setAckPeriod ms

/-- `handle_source` (decoder.hh:290-300): the data handler is given the datum and makes the calls `H n` if it is the n-th one it is
given. -/
def NDec.handleSourceC (dbg : Bool) (clk : Clock) (H : Nat → List DCall) (d : NDec) (ev : Event) : Out NDec := do
  let d ← (H d.data.length).foldlM (NDec.call dbg clk ev.held) { d with data := d.data ++ [ev.data] }
  return d.maybeAckWith clk ev.held

/-- `NDec.afterDet` with this handler: the calls do not change the state of `detail::decoder`, and all they read of it is
`Event.held`. `handle_source`, decoder.hh:292-300. -/
def NDec.afterDetC (dbg : Bool) (clk : Clock) (H : Nat → List DCall) (d : NDec) (det' : Dec) : Out NDec :=
  (det'.log.drop d.det.log.length).foldlM (NDec.handleSourceC dbg clk H) { d with det := det' }

/-- `operator()(packet&&)` (decoder.hh:87-122) with this handler. -/
def NDec.notifyC (gf : GF w) (dbg : Bool) (clk : Clock) (H : Nat → List DCall) (d : NDec) (p : List Byte) :
    Out (NDec × Except CppErr Nat) := do
  cassert dbg (p.length ≠ 0)
  match getPacketType p with
  | .error (.fault f) => .error f
  | .error (.cpp x) => return (d, .error x)
  | .ok .repair =>
    let d := { d with nbRepairs := d.nbRepairs + 1, ackPackets := (d.ackPackets + 1) % 2 ^ 16 }
    match readRepair p with
    | .error (.fault f) => .error f
    | .error (.cpp x) => return (d, .error x)
    | .ok (r, n) =>
      let det' ← d.det.onRepair gf dbg r
      let d ← d.afterDetC dbg clk H det'
      return (d, .ok n)
  | .ok .source =>
    let d := { d with nbSources := d.nbSources + 1, ackPackets := (d.ackPackets + 1) % 2 ^ 16 }
    match readSource p with
    | .error (.fault f) => .error f
    | .error (.cpp x) => return (d, .error x)
    | .ok (s, n) =>
      let det' ← d.det.onSource gf dbg s
      let d ← d.afterDetC dbg clk H det'
      return (d, .ok n)
  | .ok .ack => return (d, .error .packetType)

/-- One step of the encoder and the decoder (`Sys.step`) when the decoder has such a data handler.
Calls of encoder.hh:80-111, 162-169 and decoder.hh:81-122, 213-248. -/
def Sys.stepC (c : Cfg w) (H : Nat → List DCall) (s : Sys) : Act → Out Sys
  | .deliver i =>
    match s.enc.out[i]? with
    | none => return s
    | some p => do
      let (d, r) ← s.dec.notifyC c.gf c.dbg c.clk H p.bytes
      return { s with dec := d, hist := s.hist ++ [i], errs := s.errs + errCount r }
  | a => s.step c a

/-! ## Packets -/

/-- Lines 252-263 of detail/decoder.cc (`Dec.giveNew`) when the data handler, given this source, calls the decoder again; `inner` is
what these calls do to the state of `detail::decoder`.  The callbacks of the sources that are flushed because of it are not
considered. -/
def Dec.giveNewN (dbg : Bool) (src : DSource) (inner : Dec → Out Dec) (s : Dec) : Out Dec :=
  if !s.inOrder then inner (s.callback src)
  else if src.id = s.firstMissing then do
    let s ← inner (s.callback src)
    Dec.flush dbg { s with firstMissing := (s.firstMissing + 1) % 2 ^ 32 }
  else .ok s

/-- Lines 265-277 of detail/decoder.cc: removal of the new source from the repairs. -/
def Dec.removeNew (gf : GF w) (dbg : Bool) (src : DSource) (s : Dec) : Out Dec :=
  match s.missing.get? src.id with
  | none => .ok s
  | some links => do
    let s ← removeFromAll gf dbg src links s
    return { s with missing := s.missing.erase src.id }

/-- `operator()(decoder_source&&)` and `add_source_recursive` (detail/decoder.cc:33-50, 249-337) with this handler.  The callbacks of
the sources that are decoded because of this one are not considered. -/
def Dec.onSourceN (gf : GF w) (dbg : Bool) (s : Dec) (src : DSource) (inner : Dec → Out Dec) : Out Dec :=
  if s.lastId.any (fun l => decide (src.id < l)) then .ok s
  else if s.sources.has src.id then .ok s
  else do
    let s ← s.giveNewN dbg src inner
    let fuel := s.fuel
    let s ← s.removeNew gf dbg src
    let s ← scanMissing gf dbg (fuel - 1) (s.missing.keys.head?) s
    let s ← addSourceTail dbg src s
    s.fullDecode gf dbg

end Netcode
