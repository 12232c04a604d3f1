import Verif.Model.CProg
import Verif.Spec.DecHist

/-!
# Recording a run of a decoder, and replaying it

Model of a decoder that was built with `NTC_DUMP_PACKETS` (decoder.hh:69-71, 93-95) and of `tools/replay.cc`.

Simplifications: the file is the sequence of bytes that was written (the destructor of `m_dump_file` ran before the file is read); the tool
is given a file that it can open; what it prints is left out.
-/

namespace Netcode

variable {w : Nat}

/-- A decoder that writes the packets it gets to a file. decoder.hh:69-71, 93-95. -/
structure Recorder where
  dec : NDec
  file : List Cell
  deriving DecidableEq, Repr

/-- A call of such a decoder: a packet or one of the calls that take no packet. decoder.hh:81-122, 213-279. -/
inductive RCall where
  | packet (p : Packet)
  | genAck
  | maybeAck
  | setAckNb (n : Nat)
  | setAckPeriod (ms : Int)
  deriving DecidableEq, Repr

/-- One call, with what a call that takes a packet returns or throws.  The packet is written before it is looked at (decoder.hh:91-97). -/
def Recorder.call (gf : GF w) (dbg : Bool) (clk : Clock) (s : Recorder) : RCall → Out (Recorder × Except CppErr Nat)
  | .packet p => do
    cassert dbg (p.size ≠ 0)
    let file := s.file ++ dumpPacket p
    let b ← p.bytes
    let (d, r) ← s.dec.notify gf dbg clk b
    return (⟨d, file⟩, r)
  | .genAck => return ({ s with dec := s.dec.generateAck }, .ok 0)
  | .maybeAck => return ({ s with dec := s.dec.maybeAck clk }, .ok 0)
  | .setAckNb n => do
    let d ← s.dec.setAckNb dbg n
    return ({ s with dec := d }, .ok 0)
  | .setAckPeriod ms => return ({ s with dec := s.dec.setAckPeriod ms }, .ok 0)

/-- A sequence of calls; the program goes on after an exception. Models no code: a fold. -/
def Recorder.run (gf : GF w) (dbg : Bool) (clk : Clock) (s : Recorder) (l : List RCall) : Out Recorder :=
  l.foldlM (fun s a => (s.call gf dbg clk a).map (·.1)) s

/-- The beginning: the file is empty. decoder.hh:70. -/
def Recorder.new (clk : Clock) (inOrder : Bool) : Recorder := ⟨NDec.init clk inOrder, []⟩

/-- How `main` of tools/replay.cc ends. tools/replay.cc:94-102. -/
inductive REnd where
  /-- `break` (tools/replay.cc:66-69) -/
  | eof
  /-- an exception of the library was caught (tools/replay.cc:93-96, 97-100) -/
  | cpp (x : CppErr)
  /-- `std::runtime_error{"ack"}` (tools/replay.cc:75) was caught -/
  | ack
  /-- `std::length_error` was caught (the sizes in a file are too small for this to happen) -/
  | length
  deriving DecidableEq, Repr

/-- The body of the loop of tools/replay.cc, after the test for the end of the file (lines 71-91): the packetizer of the tool reads a copy
of the packet, then its decoder gets another. `.inr` is an exception. -/
def replayPacket (gf : GF w) (dbg : Bool) (clk : Clock) (d : NDec) (b : List Byte) : Out (NDec ⊕ REnd) :=
  match getPacketType b with
  | .error (.fault f) => .error f
  | .error (.cpp x) => return .inr (.cpp x)
  | .ok .ack => return .inr .ack
  | .ok .repair =>
    match readRepair b with
    | .error (.fault f) => .error f
    | .error (.cpp x) => return .inr (.cpp x)
    | .ok _ => do
      match ← d.notify gf dbg clk b with
      | (d, .ok _) => return .inl d
      | (_, .error x) => return .inr (.cpp x)
  | .ok .source =>
    match readSource b with
    | .error (.fault f) => .error f
    | .error (.cpp x) => return .inr (.cpp x)
    | .ok _ => do
      match ← d.notify gf dbg clk b with
      | (d, .ok _) => return .inl d
      | (_, .error x) => return .inr (.cpp x)

/-- The loop of tools/replay.cc:62-92.  `fuel` bounds the iterations: each one consumes at least two bytes. -/
def replayRun (gf : GF w) (dbg : Bool) (clk : Clock) : Nat → NDec → List Cell → Out (NDec × REnd)
  | 0, _, _ => .error .fuel
  | fuel + 1, d, s =>
    match undumpPacket s with
    | .error (.ub u) => .error (.ub u)
    | .error .length => return (d, .length)
    | .ok (p, s) =>
      if s = [] then return (d, .eof)
      else do
        let b ← p.bytes
        match ← replayPacket gf dbg clk d b with
        | .inl d => replayRun gf dbg clk fuel d s
        | .inr x => return (d, x)

/-- `main` of tools/replay.cc (lines 40-103) on a file: its decoder and how it ended. The decoder is one for a field of 8 bits that hands
data over in order (lines 59-60). -/
def replayMain (gf : GF 8) (dbg : Bool) (clk : Clock) (s : List Cell) : Out (NDec × REnd) :=
  replayRun gf dbg clk (s.length + 1) (NDec.init clk true) s

end Netcode
