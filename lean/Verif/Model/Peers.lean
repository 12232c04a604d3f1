import Verif.Model.Tunnel
import Verif.Model.Main

/-!
# To whom the accelerator sends

`examples/accelerator/accelerator.cc` and `transcoder.hh`: each side keeps the address of the other side (`m_endpoint`) and of its
application (`m_app_endpoint`).  One of them comes from the command line; the other one is not set.  Both are overwritten with the address
of the sender of each datagram that arrives (transcoder.hh:128-130, 164-166), empty or not.
-/

namespace Netcode

/-- An address: host and port.  Port 0 cannot be sent to. `udp::endpoint`, accelerator.cc:35, 39. -/
structure Addr where
  host : Nat
  port : Nat
  deriving DecidableEq, Repr

/-- A default `udp::endpoint` (accelerator.cc:34, 38) -/
def Addr.unset : Addr := ⟨0, 0⟩

/-- A datagram that a side sent: on which socket (`tunnel`, or that of the application), to whom, and its bytes. transcoder.hh:76, 96. -/
structure Datagram where
  side : Bool
  tunnel : Bool
  to : Addr
  bytes : List Byte
  deriving DecidableEq, Repr

/-- Who there is: the addresses of the sockets of the tunnel of both sides, and of both applications.  `false` is the client, `true` the
server. accelerator.cc:34-76. -/
structure World where
  tunnel : Bool → Addr
  app : Bool → Addr

/-- The tunnel with the addresses that each side has, and all that was sent. transcoder.hh:117-126. -/
structure Net where
  tun : Tun
  peer : Bool → Addr
  app : Bool → Addr
  log : List Datagram

/-- Both programs after they were started (accelerator.cc:43-80): the server knows its application, the client the server. -/
def Net.init (clk : Clock) (W : World) : Net where
  tun := Tun.init clk
  peer := fun x => if x then Addr.unset else W.tunnel true
  app := fun x => if x then W.app true else Addr.unset
  log := []

/-- Change the address of one side. Models no code: assignment to `m_endpoint` or `m_app_endpoint` (transcoder.hh:147, 178). -/
def upd (f : Bool → Addr) (x : Bool) (a : Addr) : Bool → Addr := fun y => if y = x then a else f y

/-- What the handlers of the side `x` sent between `s` and `s'` (transcoder.hh:72-77, 92-96): packets and acks to the other side, data to
the application. -/
def sentBetween (x : Bool) (peer app : Addr) (s s' : Side) : List Datagram :=
  (s'.enc.out.drop s.enc.out.length).map (fun p => ⟨x, true, peer, p.bytes⟩) ++
  (s'.dec.out.drop s.dec.out.length).map (fun a => ⟨x, true, peer, (writeAck a).flatten⟩) ++
  (s'.dec.data.drop s.dec.data.length).map (fun d => ⟨x, false, app, d⟩)

/-- What happens: a step of the tunnel between the two sides and their applications, or a datagram from any other sender that arrives at one
of the sockets of the side `x`. transcoder.hh:146-147, 177-178, 208-209. -/
inductive NetAct where
  | own (a : TunAct)
  | stranger (x onTunnel : Bool) (sender : Addr) (d junk : List Byte)

/-- The addresses after a datagram arrived (if there was one). transcoder.hh:146-147, 177-178. -/
def Net.hears (W : World) (t : Net) : NetAct → Net
  | .own (.app x _) => { t with app := upd t.app x (W.app x) }
  | .own (.packet x i _) => if ((t.tun.side !x).enc.out[i]?).isSome then { t with peer := upd t.peer x (W.tunnel !x) } else t
  | .own (.ack x j _) => if ((t.tun.side !x).dec.out[j]?).isSome then { t with peer := upd t.peer x (W.tunnel !x) } else t
  | .own (.timer _) => t
  | .stranger x true sender _ _ => { t with peer := upd t.peer x sender }
  | .stranger x false sender _ _ => { t with app := upd t.app x sender }

/-- Which side, and what it does. transcoder.hh:155-166, 186-197, 215-218. -/
def Net.does (c : Cfg 8) (t : Net) : NetAct → Bool × Except TStop Side
  | .own a => (a.at, t.tun.act c a)
  | .stranger x true _ d junk => (x, (t.tun.side x).arrive c d none junk)
  | .stranger x false _ d _ => (x, (t.tun.side x).app c d)

/-- The state after the side `x` did something. transcoder.hh:76, 96. -/
def Net.close (t : Net) (x : Bool) (s : Side) : Net :=
  { t with tun := t.tun.set x s, log := t.log ++ sentBetween x (t.peer x) (t.app x) (t.tun.side x) s }

/-- One step.  `send_to` throws if the datagram is too long or has nowhere to go, which ends the program. accelerator.cc:87-92. -/
def Net.step (c : Cfg 8) (W : World) (t : Net) (a : NetAct) : Except TStop Net := do
  let t := t.hears W a
  let (x, r) := t.does c a
  let s ← r
  if (t.tun.side x).fits s && (sentBetween x (t.peer x) (t.app x) (t.tun.side x) s).all (fun m => m.to.port ≠ 0) then return t.close x s
  else .error .send

end Netcode
