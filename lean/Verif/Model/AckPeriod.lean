import Verif.Spec.DecHist

/-!
# The arithmetic of the ack timer

`maybe_ack` (decoder.hh:230-248) compares a duration in nanoseconds, `now - m_last_ack_date`, with a duration in milliseconds,
`m_ack_period`.  `std::chrono` subtracts the dates in 64 signed bits, and converts the milliseconds to nanoseconds by a product of 64
signed bits before it compares.  `Model/NDecoder.lean` calculates with integers of any size; here a result that does not fit is undefined.
-/

namespace Netcode

variable {w : Nat}

/-- The result of a calculation on `std::int64_t`, the `rep` of `std::chrono::milliseconds` and of `std::chrono::nanoseconds`. decoder.hh:242. -/
def int64 (x : Int) : Out Int := do
  ensure (decide (-2 ^ 63 ≤ x ∧ x < 2 ^ 63)) .overflow
  return x

/-- `maybe_ack` (decoder.hh:230-248) when `m_decoder.sources()` has the keys `held`. -/
def NDec.maybeAck64With (clk : Clock) (d : NDec) (held : List Nat) : Out NDec :=
  if d.ackPackets ≥ d.ackNb then
    .ok { d.generateAckWith held with lastAck := clk d.ticks, ticks := d.ticks + 1 }
  else if d.ackPeriod ≠ 0 then do
    let now := clk d.ticks
    let d := { d with ticks := d.ticks + 1 }
    -- decoder.hh:242
    let elapsed ← int64 (now - d.lastAck)
    let period ← int64 (d.ackPeriod * 1000000)
    if elapsed ≥ period then return { d.generateAckWith held with lastAck := now } else return d
  else .ok d

/-- `handle_source` (decoder.hh:290-300). -/
def NDec.handleSource64 (clk : Clock) (d : NDec) (ev : Event) : Out NDec :=
  { d with data := d.data ++ [ev.data] }.maybeAck64With clk ev.held

/-- `NDec.afterDet` with this arithmetic. decoder.hh:292-300. -/
def NDec.afterDet64 (clk : Clock) (d : NDec) (det' : Dec) : Out NDec :=
  (det'.log.drop d.det.log.length).foldlM (NDec.handleSource64 clk) { d with det := det' }

/-- `operator()(packet&&)` (decoder.hh:87-122). -/
def NDec.notify64 (gf : GF w) (dbg : Bool) (clk : Clock) (d : NDec) (p : List Byte) :
    Out (NDec × Except CppErr Nat) := do
  cassert dbg (p.length ≠ 0)
  match getPacketType p with
  | .error (.fault f) => .error f
  | .error (.cpp x) => return (d, .error x)
  | .ok .repair =>
    let d := { d with nbRepairs := d.nbRepairs + 1, ackPackets := (d.ackPackets + 1) % 2 ^ 16 }
    match readRepair p with
    | .error (.fault f) => .error f
    | .error (.cpp x) => return (d, .error x)
    | .ok (r, n) =>
      let det' ← d.det.onRepair gf dbg r
      let d ← d.afterDet64 clk det'
      return (d, .ok n)
  | .ok .source =>
    let d := { d with nbSources := d.nbSources + 1, ackPackets := (d.ackPackets + 1) % 2 ^ 16 }
    match readSource p with
    | .error (.fault f) => .error f
    | .error (.cpp x) => return (d, .error x)
    | .ok (s, n) =>
      let det' ← d.det.onSource gf dbg s
      let d ← d.afterDet64 clk det'
      return (d, .ok n)
  | .ok .ack => return (d, .error .packetType)

/-- The decoder after a call (decoder.hh:80-122, 211-279). -/
def NDec.act64 (gf : GF w) (dbg : Bool) (clk : Clock) (d : NDec) : DAct → Out NDec
  | .packet p => (d.notify64 gf dbg clk p).map (·.1)
  | .genAck => .ok d.generateAck
  | .maybeAck => d.maybeAck64With clk d.det.sources.keys
  | .setAckNb n => d.setAckNb dbg n
  | .setAckPeriod ms => .ok (d.setAckPeriod ms)

/-- The decoder after a sequence of calls. Models no code: a fold over the calls of decoder.hh:81-122, 213-279. -/
def NDec.after64 (gf : GF w) (dbg : Bool) (clk : Clock) (d : NDec) (acts : List DAct) : Out NDec :=
  acts.foldlM (NDec.act64 gf dbg clk) d

end Netcode
