import Verif.Model.DataCalls

/-!
# A decoder that is called from within its packet handler

`generate_ack` (decoder.hh:211-228) gives the ack to the user's packet handler before it starts a fresh one, and `maybe_ack`
(decoder.hh:230-248) takes note of the date of the ack after that.  Here the packet handler, told that an ack is complete (`mark_end`,
packetizer.hh:356-361), asks the decoder for acks and changes its settings.  Packet handlers that give packets to the decoder are not
modelled, nor are calls before the ack is complete.
-/

namespace Netcode

variable {w : Nat}

/-- A call of the decoder while `m_decoder.sources()` has the keys `held` (decoder.hh:211-279), when the packet handler, given its n-th
ack, makes the calls `H n`.  The first argument bounds the depth of the calls. -/
def NDec.callK (dbg : Bool) (clk : Clock) (H : Nat → List DCall) (held : List Nat) : Nat → NDec → DCall → Out NDec
  | 0, _, _ => .error .fuel
  | fuel + 1, d, .genAck => do
    let ids := held.foldl setInsert d.ackIds
    let d ← (H d.out.length).foldlM (fun d x => NDec.callK dbg clk H held fuel d x)
      { d with ackIds := ids, out := d.out ++ [{ ids := ids, nbPackets := d.ackPackets }] }
    return { d with nbAcks := d.nbAcks + 1, ackIds := [], ackPackets := 0 }
  | fuel + 1, d, .maybeAck =>
    if d.ackPackets ≥ d.ackNb then do
      let d ← NDec.callK dbg clk H held fuel d .genAck
      return { d with lastAck := clk d.ticks, ticks := d.ticks + 1 }
    else if d.ackPeriod ≠ 0 then
      let now := clk d.ticks
      let d := { d with ticks := d.ticks + 1 }
      if now - d.lastAck ≥ d.ackPeriod * 1000000 then do
        let d ← NDec.callK dbg clk H held fuel d .genAck
        return { d with lastAck := now }
      else return d
    else return d
  | _ + 1, d, .setAckNb n => d.setAckNb dbg n
  | _ + 1, d, .setAckPeriod ms => return d.setAckPeriod ms

/-- `handle_source` (decoder.hh:290-300) with this handler. -/
def NDec.handleSourceK (dbg : Bool) (clk : Clock) (H : Nat → List DCall) (fuel : Nat) (d : NDec) (ev : Event) : Out NDec :=
  NDec.callK dbg clk H ev.held fuel { d with data := d.data ++ [ev.data] } .maybeAck

/-- `NDec.afterDet` with this handler: the calls do not change the state of `detail::decoder`, and all they read of it is
`Event.held`. `handle_source`, decoder.hh:292-300. -/
def NDec.afterDetK (dbg : Bool) (clk : Clock) (H : Nat → List DCall) (fuel : Nat) (d : NDec) (det' : Dec) : Out NDec :=
  (det'.log.drop d.det.log.length).foldlM (NDec.handleSourceK dbg clk H fuel) { d with det := det' }

/-- `operator()(packet&&)` (decoder.hh:87-122) with this handler. -/
def NDec.notifyK (gf : GF w) (dbg : Bool) (clk : Clock) (H : Nat → List DCall) (fuel : Nat) (d : NDec) (p : List Byte) :
    Out (NDec × Except CppErr Nat) := do
  cassert dbg (p.length ≠ 0)
  match getPacketType p with
  | .error (.fault f) => .error f
  | .error (.cpp x) => return (d, .error x)
  | .ok .repair =>
    let d := { d with nbRepairs := d.nbRepairs + 1, ackPackets := (d.ackPackets + 1) % 2 ^ 16 }
    match readRepair p with
    | .error (.fault f) => .error f
    | .error (.cpp x) => return (d, .error x)
    | .ok (r, n) =>
      let det' ← d.det.onRepair gf dbg r
      let d ← d.afterDetK dbg clk H fuel det'
      return (d, .ok n)
  | .ok .source =>
    let d := { d with nbSources := d.nbSources + 1, ackPackets := (d.ackPackets + 1) % 2 ^ 16 }
    match readSource p with
    | .error (.fault f) => .error f
    | .error (.cpp x) => return (d, .error x)
    | .ok (s, n) =>
      let det' ← d.det.onSource gf dbg s
      let d ← d.afterDetK dbg clk H fuel det'
      return (d, .ok n)
  | .ok .ack => return (d, .error .packetType)

/-- One step of the encoder and the decoder (`Sys.step`) when the decoder has such a packet handler.
Calls of encoder.hh:80-111, 162-169 and decoder.hh:81-122, 213-248. -/
def Sys.stepK (c : Cfg w) (H : Nat → List DCall) (fuel : Nat) (s : Sys) : Act → Out Sys
  | .deliver i =>
    match s.enc.out[i]? with
    | none => return s
    | some p => do
      let (d, r) ← s.dec.notifyK c.gf c.dbg c.clk H fuel p.bytes
      return { s with dec := d, hist := s.hist ++ [i], errs := s.errs + errCount r }
  | .genAck => do
    let d ← s.dec.callK c.dbg c.clk H s.dec.det.sources.keys fuel .genAck
    return { s with dec := d }
  | .maybeAck => do
    let d ← s.dec.callK c.dbg c.clk H s.dec.det.sources.keys fuel .maybeAck
    return { s with dec := d }
  | a => s.step c a

end Netcode
