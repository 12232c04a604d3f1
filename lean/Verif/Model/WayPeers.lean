import Verif.Model.OneWay
import Verif.Model.Peers

/-!
# To whom the one-way accelerator sends

`examples/accelerator-oneway/sender.cc` and `receiver.cc`: the sender has the address of the receiver from its command line, and the receiver that of its
application.  The receiver does not know the sender.  Both overwrite the address of the other one with that of the sender of each datagram
that arrives at the socket between them (sender.cc:157, receiver.cc:152), empty or not.
-/

namespace Netcode

/-- The addresses of the socket of the sender, of that of the receiver, and of the application of the receiver. sender.cc:232-234, receiver.cc:247-254. -/
structure WayWorld where
  sender : Addr
  receiver : Addr
  app : Addr

/-- What is sent: packets by the sender, acks and data by the receiver. sender.cc:61, receiver.cc:63, 102. -/
inductive WayKind where
  | packet | ack | datum
  deriving DecidableEq, Repr

/-- A datagram that was sent. sender.cc:61, receiver.cc:63, 102. -/
structure Mail where
  kind : WayKind
  to : Addr
  bytes : List Byte
  deriving DecidableEq, Repr

/-- The two programs, the address that each has of the other one (`m_endpoint`, sender.cc:201, receiver.cc:220), and all that was sent. -/
structure WayNet where
  way : OneWay
  toReceiver : Addr
  toSender : Addr
  log : List Mail

/-- Both programs after they were started (sender.cc:232-242, receiver.cc:245-265). -/
def WayNet.init (clk : Clock) (W : WayWorld) : WayNet where
  way := OneWay.init clk
  toReceiver := W.receiver
  toSender := Addr.unset
  log := []

/-- What the handlers sent between `t` and `t'` (sender.cc:57-73, receiver.cc:57-75, 98-113). -/
def mailBetween (toReceiver toSender app : Addr) (t t' : OneWay) : List Mail :=
  (t'.enc.out.drop t.enc.out.length).map (fun p => ⟨.packet, toReceiver, p.bytes⟩) ++
  (t'.dec.out.drop t.dec.out.length).map (fun a => ⟨.ack, toSender, (writeAck a).flatten⟩) ++
  (t'.dec.data.drop t.dec.data.length).map (fun d => ⟨.datum, app, d⟩)

/-- What happens: a step of the two programs, or a datagram from any other sender `who` at the socket of the sender or of the receiver.
sender.cc:157, receiver.cc:152. -/
inductive WayAct where
  | own (a : OneAct)
  | atSender (who : Addr) (d junk : List Byte)
  | atReceiver (who : Addr) (d : List Byte)

/-- The addresses after a datagram arrived (if there was one). sender.cc:157, receiver.cc:152. -/
def WayNet.hears (W : WayWorld) (t : WayNet) : WayAct → WayNet
  | .own (.packet i) => if (t.way.enc.out[i]?).isSome then { t with toSender := W.sender } else t
  | .own (.ack j _) => if (t.way.dec.out[j]?).isSome then { t with toReceiver := W.receiver } else t
  | .own _ => t
  | .atSender who _ _ => { t with toReceiver := who }
  | .atReceiver who _ => { t with toSender := who }

/-- What the program does to which the datagram came; an empty one is ignored. sender.cc:165-169, receiver.cc:160-166. -/
def WayNet.does (c : Cfg 8) (t : WayNet) : WayAct → Except TStop OneWay
  | .own a => t.way.act c a
  | .atSender _ d junk => if d.length > 0 then t.way.arriveAck c d junk else .ok t.way
  | .atReceiver _ d => if d.length > 0 then (fun u => { u with hist := t.way.hist }) <$> t.way.arrive c d 0 else .ok t.way

/-- One step.  The handler of `async_send_to` throws if the datagram is too long or has nowhere to go, which ends the program (sender.cc:64-72,
receiver.cc:66-74, 105-113). -/
def WayNet.step (c : Cfg 8) (W : WayWorld) (t : WayNet) (a : WayAct) : Except TStop WayNet := do
  let t := t.hears W a
  let u ← t.does c a
  let sent := mailBetween t.toReceiver t.toSender W.app t.way u
  if t.way.fits u && sent.all (fun m => m.to.port ≠ 0) then return { t with way := u, log := t.log ++ sent }
  else .error .send

end Netcode
