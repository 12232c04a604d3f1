import Verif.Model.System

/-!
# The two sides of a tunnel

`examples/accelerator/transcoder.hh`: each side has an encoder for the datagrams of its application and a decoder for those of the other
side.  One UDP socket carries the packets of the encoder and the acks of the decoder; `dispatch` tells them apart.
-/

namespace Netcode

/-- Why the program ends: a fault, an exception of the library, or of `send_to` for a datagram that UDP cannot carry.  All of them leave
`io.run()` (accelerator.cc:84-92). -/
inductive TStop where
  | fault (f : Fault)
  | exn (x : CppErr)
  | send
  deriving DecidableEq, Repr

/-- `buffer_size` (transcoder.hh:39) -/
def bufferSize : Nat := 65504

/-- The largest datagram over IPv4, beyond which `send_to` throws. transcoder.hh:76, 96. -/
def maxDatagram : Nat := 65507

/-- One side (transcoder.hh:244-277).  `sent` (the data given to the encoder) and `hist` (the indices of the packets of the other encoder
that arrived) are history. -/
structure Side where
  enc : Enc
  dec : NDec
  seen : Bool
  sent : List (List Byte)
  hist : List Nat

/-- The constructor (transcoder.hh:91-121): a decoder with ordering and an ack period of zero, an encoder with a window of 32 sources and
an adaptive rate. -/
def Side.init (clk : Clock) : Side where
  enc := { Enc.init with windowSize := 32, adaptive := true }
  dec := (NDec.init clk true).setAckPeriod 0
  seen := false
  sent := []
  hist := []

/-- A datagram of the application (`start_app_handler`, transcoder.hh:162-194): the socket cuts it at the size of the buffer; an empty one
is ignored. -/
def Side.app (c : Cfg 8) (s : Side) (d : List Byte) : Except TStop Side :=
  if d.length > 0 then
    match s.enc.commit c.gf c.dbg (d.take bufferSize) with
    | .error f => .error (.fault f)
    | .ok e => .ok { s with enc := e, sent := s.sent ++ [d.take bufferSize] }
  else .ok s

/-- The buffer after a datagram arrived (transcoder.hh:128-129): the datagram, cut at the size of the buffer, then what was there before
(`junk`). -/
def received (p junk : List Byte) : List Byte := p.take bufferSize ++ junk.take (bufferSize - p.length)

/-- A datagram of the other side (`start_handler`, transcoder.hh:126-159).  The buffer is not resized to the length of the datagram.
`i?` is the index of the packet if it comes from the encoder. -/
def Side.arrive (c : Cfg 8) (s : Side) (p : List Byte) (i? : Option Nat) (junk : List Byte) : Except TStop Side :=
  let s := { s with seen := true }
  if p.length > 0 then
    match dispatch c.gf c.F c.dbg c.clk s.enc s.dec (received p junk) with
    | .error f => .error (.fault f)
    | .ok (_, .error x) => .error (.exn x)
    | .ok ((e, d), .ok _) => .ok { s with enc := e, dec := d, hist := s.hist ++ i?.toList }
  else .ok s

/-- The timer (`start_timer_handler`, transcoder.hh:197-213). -/
def Side.timer (s : Side) : Side := if s.seen then { s with dec := s.dec.generateAck } else s

/-- Whether `send_to` accepts all that the handlers were given since `s` (transcoder.hh:70-76, 92-96). -/
def Side.fits (s s' : Side) : Bool :=
  (s'.enc.out.drop s.enc.out.length).all (fun p => p.bytes.length ≤ maxDatagram) &&
  (s'.dec.out.drop s.dec.out.length).all (fun a => (writeAck a).flatten.length ≤ maxDatagram) &&
  (s'.dec.data.drop s.dec.data.length).all (fun d => d.length ≤ maxDatagram)

/-- The tunnel: two sides, called `false` and `true`. transcoder.hh:105-292. -/
structure Tun where
  a : Side
  b : Side

/-- A side. Models no code. -/
def Tun.side (t : Tun) : Bool → Side
  | false => t.a
  | true => t.b

/-- Change a side. Models no code. -/
def Tun.set (t : Tun) (x : Bool) (s : Side) : Tun :=
  match x with
  | false => { t with a := s }
  | true => { t with b := s }

/-- What happens at the side `x`: a datagram of its application, the arrival of the `i`-th packet of the encoder, or of the `j`-th ack
of the decoder, of the other side, or the timer. transcoder.hh:146, 177, 208. -/
inductive TunAct where
  | app (x : Bool) (d : List Byte)
  | packet (x : Bool) (i : Nat) (junk : List Byte)
  | ack (x : Bool) (j : Nat) (junk : List Byte)
  | timer (x : Bool)
  deriving Repr

/-- The side at which it happens. Models no code. -/
def TunAct.at : TunAct → Bool
  | .app x _ => x
  | .packet x _ _ => x
  | .ack x _ _ => x
  | .timer x => x

/-- What a side does. transcoder.hh:155-166, 186-197, 215-218. -/
def Tun.act (c : Cfg 8) (t : Tun) : TunAct → Except TStop Side
  | .app x d => (t.side x).app c d
  | .packet x i junk =>
    match (t.side !x).enc.out[i]? with
    | none => .ok (t.side x)
    | some p => (t.side x).arrive c p.bytes (some i) junk
  | .ack x j junk =>
    match (t.side !x).dec.out[j]? with
    | none => .ok (t.side x)
    | some p => (t.side x).arrive c (writeAck p).flatten none junk
  | .timer x => .ok (t.side x).timer

/-- One step. accelerator.cc:87 (`io.run`). -/
def Tun.step (c : Cfg 8) (t : Tun) (a : TunAct) : Except TStop Tun := do
  let s ← t.act c a
  if (t.side a.at).fits s then return t.set a.at s else .error .send

/-- A new tunnel. transcoder.hh:110-138. -/
def Tun.init (clk : Clock) : Tun := ⟨Side.init clk, Side.init clk⟩

/-- A run. Models no code: a fold. -/
def Tun.run (c : Cfg 8) (t : Tun) (acts : List TunAct) : Except TStop Tun := acts.foldlM (Tun.step c) t

end Netcode
