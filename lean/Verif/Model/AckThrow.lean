import Verif.Model.Handlers
import Verif.Model.System

/-!
# A packet handler of a decoder that throws

The same code as in `Model/NDecoder.lean` and `Model/Handlers.lean`, for a packet handler of `ntc::decoder` (the one that is given the
acks) that may throw; the data handler does not.
-/

namespace Netcode

variable {w : Nat}

/-- `generate_ack` (decoder.hh:211-228) when the packet handler throws in `write_ack`: the identifiers of the sources held have been added
to `m_ack` (lines 217-220); the counter is not incremented and `m_ack` is not reset. -/
def NDec.generateAckT (d : NDec) (held : List Nat) : NDec := { d with ackIds := held.foldl setInsert d.ackIds }

/-- `maybe_ack` (decoder.hh:230-248) when the packet handler throws: `m_last_ack_date` is not updated.  The result tells whether there was an
ack to send, hence whether the exception leaves the call. -/
def NDec.maybeAckT (clk : Clock) (d : NDec) (held : List Nat) : NDec × Bool :=
  if d.ackPackets ≥ d.ackNb then (d.generateAckT held, true)
  else if d.ackPeriod ≠ 0 then
    let now := clk d.ticks
    let d := { d with ticks := d.ticks + 1 }
    if now - d.lastAck ≥ d.ackPeriod * 1000000 then (d.generateAckT held, true) else (d, false)
  else (d, false)

/-- The end of `decoder(packet)` (decoder.hh:99-115) after `detail::decoder` returned or the exception of the packet handler went through
it: in the last callback the data handler returned, and `maybe_ack` threw (decoder.hh:290-300). -/
def NDec.afterDetA (clk : Clock) (d : NDec) (n : Nat) (x : XOut Dec) : Except Stop (NDec × HRes) :=
  match x with
  | .ok det' => .ok (d.afterDet clk det', .read n)
  | .error (.fault f) => .error (.fault f)
  | .error .terminate => .error .terminate
  | .error (.thrown det') =>
    let evs := det'.log.drop d.det.log.length
    let d := evs.dropLast.foldl (NDec.handleSource clk) { d with det := det' }
    match evs.getLast? with
    | none => .ok (d, .user)
    | some ev => .ok (({ d with data := d.data ++ [ev.data] }.maybeAckT clk ev.held).1, .user)

/-- `operator()(packet&&)` (decoder.hh:87-122).  `H n` tells whether the packet handler throws in the `n`-th callback of `detail::decoder`;
this supposes that an ack is due there (`NDec.maybeAckT` with result `true`). -/
def NDec.notifyA (gf : GF w) (H : DHandler) (dbg : Bool) (clk : Clock) (d : NDec) (p : List Byte) :
    Except Stop (NDec × HRes) := do
  match cassert dbg (p.length ≠ 0) with
  | .error f => .error (.fault f)
  | .ok () =>
  match getPacketType p with
  | .error (.fault f) => .error (.fault f)
  | .error (.cpp x) => return (d, .cpp x)
  | .ok .repair =>
    let d := { d with nbRepairs := d.nbRepairs + 1, ackPackets := (d.ackPackets + 1) % 2 ^ 16 }
    match readRepair p with
    | .error (.fault f) => .error (.fault f)
    | .error (.cpp x) => return (d, .cpp x)
    | .ok (r, n) => d.afterDetA clk n (d.det.onRepairH gf H dbg r)
  | .ok .source =>
    let d := { d with nbSources := d.nbSources + 1, ackPackets := (d.ackPackets + 1) % 2 ^ 16 }
    match readSource p with
    | .error (.fault f) => .error (.fault f)
    | .error (.cpp x) => return (d, .cpp x)
    | .ok (s, n) => d.afterDetA clk n (d.det.onSourceH gf H dbg s)
  | .ok .ack => return (d, .cpp .packetType)

/-- One step of the closed system (`Sys.step`); with `true`, if the user asks for an ack, the packet handler of the decoder throws.
decoder.hh:212-248. -/
def Sys.stepA (c : Cfg w) (s : Sys) : Act × Bool → Out Sys
  | (.genAck, true) => return { s with dec := s.dec.generateAckT s.dec.det.sources.keys }
  | (.maybeAck, true) => return { s with dec := (s.dec.maybeAckT c.clk s.dec.det.sources.keys).1 }
  | (a, _) => s.step c a

end Netcode
