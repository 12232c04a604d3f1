import Verif.Model.Decoder

/-!
# ntc::decoder

Model of `netcode/decoder.hh`.

The callback that `detail::decoder` calls for each source (`handle_source`, decoder.hh:290-300) runs the
user's data handler and `maybe_ack`.  Neither changes the state of `detail::decoder`, and all they read of
it is the set of sources held at that time, which `Event.held` records; the model therefore replays the
calls after `detail::decoder` returned.  User handlers that throw are the subject of
`Model/Handlers.lean`.
-/

namespace Netcode

variable {w : Nat}

/-- `std::chrono::steady_clock`: the value (in ns) returned by the i-th call of `now()`. decoder.hh:237, 241. -/
abbrev Clock := Nat → Int

/-- State of `ntc::decoder` (decoder.hh:302-342). `ticks` counts the calls of `now()`, `data` is the log of
the data handler, `out` the acks given to the packet handler: what
`write_ack` was called with. -/
structure NDec where
  det : Dec
  ackPeriod : Int
  ackNb : Nat
  lastAck : Int
  ackIds : List Nat
  ackPackets : Nat
  nbRepairs : Nat
  nbSources : Nat
  nbAcks : Nat
  ticks : Nat
  data : List (List Byte)
  out : List Ack
  deriving DecidableEq, Repr

/-- Constructor (decoder.hh:50-78). -/
def NDec.init (clk : Clock) (inOrder : Bool) : NDec where
  det := Dec.init inOrder
  ackPeriod := 100
  ackNb := 50
  lastAck := clk 0
  ackIds := []
  ackPackets := 0
  nbRepairs := 0
  nbSources := 0
  nbAcks := 0
  ticks := 1
  data := []
  out := []

/-- `generate_ack` (decoder.hh:211-228) when `m_decoder.sources()` has the keys `held`. -/
def NDec.generateAckWith (d : NDec) (held : List Nat) : NDec :=
  { d with
    out := d.out ++ [{ ids := held.foldl setInsert d.ackIds, nbPackets := d.ackPackets }]
    nbAcks := d.nbAcks + 1
    ackIds := []
    ackPackets := 0 }

/-- `maybe_ack` (decoder.hh:230-248); periods are in milliseconds, the clock in nanoseconds.  The integers are unbounded here:
`Model/AckPeriod.lean` has the arithmetic of 64 bits, and C92 says when it makes no difference. -/
def NDec.maybeAckWith (clk : Clock) (d : NDec) (held : List Nat) : NDec :=
  if d.ackPackets ≥ d.ackNb then
    { d.generateAckWith held with lastAck := clk d.ticks, ticks := d.ticks + 1 }
  else if d.ackPeriod ≠ 0 then
    let now := clk d.ticks
    let d := { d with ticks := d.ticks + 1 }
    if now - d.lastAck ≥ d.ackPeriod * 1000000 then { d.generateAckWith held with lastAck := now }
    else d
  else d

/-- `generate_ack` called by the user (decoder.hh:211-228). -/
def NDec.generateAck (d : NDec) : NDec := d.generateAckWith d.det.sources.keys

/-- `maybe_ack` called by the user (decoder.hh:230-248). -/
def NDec.maybeAck (clk : Clock) (d : NDec) : NDec := d.maybeAckWith clk d.det.sources.keys

/-- `handle_source` (decoder.hh:290-300). -/
def NDec.handleSource (clk : Clock) (d : NDec) (ev : Event) : NDec :=
  { d with data := d.data ++ [ev.data] }.maybeAckWith clk ev.held

/-- Result of a call of `detail::decoder`: new state, then the callbacks it made. decoder.hh:292-300. -/
def NDec.afterDet (clk : Clock) (d : NDec) (det' : Dec) : NDec :=
  (det'.log.drop d.det.log.length).foldl (NDec.handleSource clk) { d with det := det' }

/-- `operator()(packet&&)` (decoder.hh:87-122): the number of bytes read or the exception thrown. -/
def NDec.notify (gf : GF w) (dbg : Bool) (clk : Clock) (d : NDec) (p : List Byte) :
    Out (NDec × Except CppErr Nat) := do
  cassert dbg (p.length ≠ 0)
  match getPacketType p with
  | .error (.fault f) => .error f
  | .error (.cpp x) => return (d, .error x)
  | .ok .repair =>
    let d := { d with nbRepairs := d.nbRepairs + 1, ackPackets := (d.ackPackets + 1) % 2 ^ 16 }
    match readRepair p with
    | .error (.fault f) => .error f
    | .error (.cpp x) => return (d, .error x)
    | .ok (r, n) =>
      let det' ← d.det.onRepair gf dbg r
      return (d.afterDet clk det', .ok n)
  | .ok .source =>
    let d := { d with nbSources := d.nbSources + 1, ackPackets := (d.ackPackets + 1) % 2 ^ 16 }
    match readSource p with
    | .error (.fault f) => .error f
    | .error (.cpp x) => return (d, .error x)
    | .ok (s, n) =>
      let det' ← d.det.onSource gf dbg s
      return (d.afterDet clk det', .ok n)
  | .ok .ack => return (d, .error .packetType)

/-- `set_ack_period` (decoder.hh:254-260) -/
def NDec.setAckPeriod (d : NDec) (ms : Int) : NDec := { d with ackPeriod := ms }

/-- `set_ack_nb_packets` (decoder.hh:270-279); the argument is a `uint16_t`. -/
def NDec.setAckNb (dbg : Bool) (d : NDec) (nb : Nat) : Out NDec := do
  cassert dbg (0 < nb)
  return { d with ackNb := min nb 128 }

end Netcode
