import Verif.Model.NDecoder
import Verif.Model.Encoder

/-!
# An encoder, a decoder and the network between them

`dispatch` (netcode/dispatch.hh) and the closed system made of one `ntc::encoder`, one `ntc::decoder` and a
network which may lose, duplicate, delay and reorder the packets of both directions.
-/

namespace Netcode

variable {w : Nat}

/-- `dispatch` (dispatch.hh:17-43). -/
def dispatch (gf : GF w) (F : F64) (dbg : Bool) (clk : Clock) (e : Enc) (d : NDec) (p : List Byte) :
    Out ((Enc × NDec) × Except CppErr Nat) :=
  match getPacketType p with
  | .error (.fault f) => .error f
  | .error (.cpp x) => .ok ((e, d), .error x)
  | .ok .ack => do
    let (e, r) ← e.notify F dbg p
    return ((e, d), r)
  | .ok _ => do
    let (d, r) ← d.notify gf dbg clk p
    return ((e, d), r)

/-- What does not change during a run: the field, the arithmetic on `double`, whether assertions are
compiled in and the clock of the decoder.
`m_gf` (galois_field.hh:163-166), `double` (encoder.hh:300-307), `assert`, `steady_clock` (decoder.hh:237, 241). -/
structure Cfg (w : Nat) where
  gf : GF w
  F : F64
  dbg : Bool
  clk : Clock

/-- One step of the environment: a call of the API, or the arrival of a packet.
encoder.hh:80-111, 162-169 and the setters; decoder.hh:81-122, 213-279. -/
inductive Act where
  /-- the application commits a datum to the encoder -/
  | commit (d : List Byte)
  /-- the application forces a repair -/
  | repair
  | setRate (n : Nat)
  | setWindow (n : Nat)
  | setAdaptive (b : Bool)
  | setSystematic (b : Bool)
  /-- the `i`-th packet emitted by the encoder reaches the decoder -/
  | deliver (i : Nat)
  /-- the `j`-th packet emitted by the decoder reaches the encoder -/
  | ack (j : Nat)
  | genAck
  | maybeAck
  | setAckNb (n : Nat)
  | setAckPeriod (ms : Int)
  deriving Repr

/-- The system.  `committed`, `hist` (indices of the packets that reached the decoder) and `errs`
(exceptions thrown) are history. encoder.hh:348-394, decoder.hh:303-346. -/
structure Sys where
  enc : Enc
  dec : NDec
  committed : List (List Byte)
  hist : List Nat
  errs : Nat
  deriving DecidableEq, Repr

/-- A new encoder and a new decoder. decoder.hh:60-78 and the constructor of encoder.hh. -/
def Sys.init (clk : Clock) (inOrder : Bool) : Sys :=
  { enc := Enc.init, dec := NDec.init clk inOrder, committed := [], hist := [], errs := 0 }

/-- Number of exceptions in a result. errors.hh:14-30. -/
def errCount {α : Type} : Except CppErr α → Nat
  | .ok _ => 0
  | .error _ => 1

/-- One step.  The bytes of a packet are the concatenation of the chunks given to the packet handler.
encoder.hh:80-111, 162-169; decoder.hh:81-122, 213-279. -/
def Sys.step (c : Cfg w) (s : Sys) : Act → Out Sys
  | .commit d => do
    let e ← s.enc.commit c.gf c.dbg d
    return { s with enc := e, committed := s.committed ++ [d] }
  | .repair => do
    let e ← s.enc.generateRepair c.gf c.dbg
    return { s with enc := e }
  | .setRate n => do
    let e ← s.enc.setRate c.dbg n
    return { s with enc := e }
  | .setWindow n => do
    let e ← s.enc.setWindowSize c.dbg n
    return { s with enc := e }
  | .setAdaptive b => return { s with enc := s.enc.setAdaptive b }
  | .setSystematic b => return { s with enc := s.enc.setCodeType b }
  | .deliver i =>
    match s.enc.out[i]? with
    | none => return s
    | some p => do
      let (d, r) ← s.dec.notify c.gf c.dbg c.clk p.bytes
      return { s with dec := d, hist := s.hist ++ [i], errs := s.errs + errCount r }
  | .ack j =>
    match s.dec.out[j]? with
    | none => return s
    | some p => do
      let (e, r) ← s.enc.notify c.F c.dbg (writeAck p).flatten
      return { s with enc := e, errs := s.errs + errCount r }
  | .genAck => return { s with dec := s.dec.generateAck }
  | .maybeAck => return { s with dec := s.dec.maybeAck c.clk }
  | .setAckNb n => do
    let d ← s.dec.setAckNb c.dbg n
    return { s with dec := d }
  | .setAckPeriod ms => return { s with dec := s.dec.setAckPeriod ms }

/-- A run. Models no code: a fold. -/
def Sys.run (c : Cfg w) (s : Sys) (acts : List Act) : Out Sys := acts.foldlM (Sys.step c) s

end Netcode
