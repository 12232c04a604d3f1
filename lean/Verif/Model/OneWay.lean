import Verif.Model.System
import Verif.Model.Tunnel

/-!
# The one-way accelerator

`examples/accelerator-oneway/sender.cc` and `receiver.cc`: the sender has an encoder for the datagrams of its application, the receiver
a decoder that gives them to the application at the other end; acks travel back.
-/

namespace Netcode

/-- `buffer_size` (sender.cc:11, receiver.cc:11) -/
def smallBuffer : Nat := 4096

/-- The two programs.  `up` is `m_tunnel_up` (receiver.cc:224); `sent` (the data given to the encoder) and `hist` (the indices of the
packets that arrived) are history. -/
structure OneWay where
  enc : Enc
  dec : NDec
  up : Bool
  sent : List (List Byte)
  hist : List Nat

/-- A sender with a window of 256 sources and an adaptive rate (sender.cc:237-239), a receiver with ordering that sends an ack every
5 ms or 64 packets (receiver.cc:257-264). -/
def OneWay.init (clk : Clock) : OneWay where
  enc := { Enc.init with windowSize := 256, adaptive := true }
  dec := { (NDec.init clk true).setAckPeriod 5 with ackNb := 64 }
  up := false
  sent := []
  hist := []

/-- What happens: a datagram of the application, the arrival of the `i`-th packet of the encoder or of the `j`-th ack, or the timer of
the receiver. sender.cc:107, 157; receiver.cc:152, 176. -/
inductive OneAct where
  | app (d : List Byte)
  | packet (i : Nat)
  | ack (j : Nat) (junk : List Byte)
  | timer
  deriving Repr

/-- The buffer of the sender after an ack arrived (sender.cc:154-174), which is not resized to the length of the ack: the ack, cut at the
size of the buffer, then what was there before. -/
def receivedAck (p junk : List Byte) : List Byte := p.take smallBuffer ++ junk.take (smallBuffer - p.length)

/-- `app_handler::start` (sender.cc:104-125): the socket cuts the datagram at the size of the buffer; an empty one is ignored. -/
def OneWay.app (c : Cfg 8) (t : OneWay) (d : List Byte) : Except TStop OneWay :=
  if d.length > 0 then
    match t.enc.commit c.gf c.dbg (d.take smallBuffer) with
    | .error f => .error (.fault f)
    | .ok e => .ok { t with enc := e, sent := t.sent ++ [d.take smallBuffer] }
  else .ok t

/-- `netcode_handler::start` of the receiver (receiver.cc:149-170): the packet is cut at the size of the buffer, and the buffer is resized
to its length.  An exception of the decoder ends the program (receiver.cc:268-277). -/
def OneWay.arrive (c : Cfg 8) (t : OneWay) (p : List Byte) (i : Nat) : Except TStop OneWay :=
  match t.dec.notify c.gf c.dbg c.clk (p.take smallBuffer) with
  | .error f => .error (.fault f)
  | .ok (_, .error x) => .error (.exn x)
  | .ok (d, .ok _) => .ok { t with dec := d, up := true, hist := t.hist ++ [i] }

/-- `netcode_handler::start` of the sender (sender.cc:154-174).  An exception of the encoder ends the program (sender.cc:246-249). -/
def OneWay.arriveAck (c : Cfg 8) (t : OneWay) (p junk : List Byte) : Except TStop OneWay :=
  match t.enc.notify c.F c.dbg (receivedAck p junk) with
  | .error f => .error (.fault f)
  | .ok (_, .error x) => .error (.exn x)
  | .ok (e, .ok _) => .ok { t with enc := e }

/-- `start_timer` (receiver.cc:172-188) -/
def OneWay.timer (t : OneWay) : OneWay := if t.up then { t with dec := t.dec.generateAck } else t

/-- What the programs do. sender.cc:115-120, 165-169; receiver.cc:160-166, 182-185. -/
def OneWay.act (c : Cfg 8) (t : OneWay) : OneAct → Except TStop OneWay
  | .app d => t.app c d
  | .packet i =>
    match t.enc.out[i]? with
    | none => .ok t
    | some p => t.arrive c p.bytes i
  | .ack j junk =>
    match t.dec.out[j]? with
    | none => .ok t
    | some a => t.arriveAck c (writeAck a).flatten junk
  | .timer => .ok t.timer

/-- Whether all that was sent since `t` fits in a datagram; if not, the handler of `async_send_to` throws (sender.cc:67-70,
receiver.cc:69-72, 108-111). -/
def OneWay.fits (t t' : OneWay) : Bool :=
  (t'.enc.out.drop t.enc.out.length).all (fun p => p.bytes.length ≤ maxDatagram) &&
  (t'.dec.out.drop t.dec.out.length).all (fun a => (writeAck a).flatten.length ≤ maxDatagram) &&
  (t'.dec.data.drop t.dec.data.length).all (fun d => d.length ≤ maxDatagram)

/-- One step. sender.cc:244, receiver.cc:266 (`io.run`). -/
def OneWay.step (c : Cfg 8) (t : OneWay) (a : OneAct) : Except TStop OneWay := do
  let t' ← t.act c a
  if t.fits t' then return t' else .error .send

/-- A run. Models no code: a fold. -/
def OneWay.run (c : Cfg 8) (t : OneWay) (acts : List OneAct) : Except TStop OneWay := acts.foldlM (OneWay.step c) t

end Netcode
