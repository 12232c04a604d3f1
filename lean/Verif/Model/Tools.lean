import Verif.Model.Decoder
import Verif.Model.OneWay
import Verif.Model.System

/-!
# The proxy that loses packets and the forwarder of sources

`tools/lossy_proxy.cc`, `tools/loss/{burst,stream,uniform}.hh` and `tools/source_forwarder.cc`.
-/

namespace Netcode

/-! ## Which packets are lost -/

/-- `loss::uniform::operator()` (uniform.hh:23-28); `draw` is the number drawn, between 1 and 100. -/
def uniformLoss (threshold draw : Nat) : Bool := decide (draw > threshold)

/-- The constructor of `loss::uniform` (uniform.hh:14-20). -/
def uniformNew (dbg : Bool) (threshold : Nat) : Out Unit := cassert dbg (0 < threshold ∧ threshold < 100)

/-- `unsigned int` arithmetic of `100 - p` (lossy_proxy.cc:169). -/
def uniformThreshold (p : Nat) : Nat := (2 ^ 32 + 100 - p % 2 ^ 32) % 2 ^ 32

/-- `loss::burst::operator()` (burst.hh:22-55): from the state (`true` for good) and the number drawn to whether the packet is lost and
the next state. -/
def burstLoss (pGood pBad : Nat) (good : Bool) (draw : Nat) : Bool × Bool :=
  if good then
    if draw < pGood then (false, true) else (true, false)
  else
    if draw < pBad then (true, false) else (false, true)

/-- `loss::stream::operator()` (stream.hh:20-33): from the lines left in the file to whether the packet is lost and the lines left.  The
first character of an empty line is NUL. -/
def streamLoss : List (List Char) → Bool × List (List Char)
  | [] => (false, [])
  | line :: rest => (line.headD '\x00' != '0', rest)

/-! ## The proxy -/

/-- One direction (lossy_proxy.cc:34-67): the state of the loss, the counters and the datagrams sent on. -/
structure Proxy (σ : Type) where
  loss : σ
  losses : Nat
  total : Nat
  out : List (List Byte)

/-- A new direction (lossy_proxy.cc:18-22). -/
def Proxy.init {σ : Type} (l : σ) : Proxy σ := ⟨l, 0, 0, []⟩

/-- The lambda of `listen` (lossy_proxy.cc:39-66) for a datagram, which the socket cuts at the size of the buffer
(lossy_proxy.cc:114-115).  `L` is `loss()`.  The counters are 64 bits long; that they wrap around is left out. -/
def Proxy.arrive {σ : Type} (L : σ → Bool × σ) (p : Proxy σ) (d : List Byte) : Proxy σ :=
  let d := d.take smallBuffer
  if d.length ≠ 0 then
    let (lost, l) := L p.loss
    if lost then { p with loss := l, total := p.total + 1, losses := p.losses + 1 }
    else { p with loss := l, total := p.total + 1, out := p.out ++ [d] }
  else p

/-- A run of one direction. Models no code: a fold over the datagrams of lossy_proxy.cc:38-66. -/
def Proxy.run {σ : Type} (L : σ → Bool × σ) (p : Proxy σ) (ds : List (List Byte)) : Proxy σ := ds.foldl (Proxy.arrive L) p

/-- `loss::burst` with the numbers drawn: the state is whether it is good, and the numbers to be drawn next. tools/loss/burst.hh:22-56. -/
def burstStep (pGood pBad : Nat) (s : Bool × (Nat → Nat)) : Bool × (Bool × (Nat → Nat)) :=
  let (l, g) := burstLoss pGood pBad s.1 (s.2 0)
  (l, (g, fun k => s.2 (k + 1)))

/-- `loss::uniform` with the numbers drawn. tools/loss/uniform.hh:23-28. -/
def uniformStep (threshold : Nat) (s : Nat → Nat) : Bool × (Nat → Nat) := (uniformLoss threshold (s 0), fun k => s (k + 1))

/-! ## An encoder and a decoder on both sides of the proxy -/

/-- A system and the two directions of the proxy (lossy_proxy.cc:114-122); `σ` is the state of the loss of one direction. -/
structure Proxied (σ : Type) where
  sys : Sys
  there : Proxy σ
  back : Proxy σ

/-- Calls of the application, a packet of the encoder that comes to the proxy, an ack that comes to the proxy. lossy_proxy.cc:118-122. -/
inductive PAct where
  | call (a : Act)
  | packet (i : Nat)
  | ack (j : Nat)

/-- One step.  What the proxy sends on arrives at once. lossy_proxy.cc:38-66, 118-122. -/
def Proxied.step {w : Nat} {σ : Type} (c : Cfg w) (L L' : σ → Bool × σ) (t : Proxied σ) : PAct → Out (Proxied σ)
  | .call a => do
    let s ← t.sys.step c a
    return { t with sys := s }
  | .packet i =>
    match t.sys.enc.out[i]? with
    | none => return t
    | some p =>
      let q := t.there.arrive L p.bytes
      match q.out[t.there.out.length]? with
      | none => return { t with there := q }
      | some b => do
        let (d, r) ← t.sys.dec.notify c.gf c.dbg c.clk b
        return { t with there := q, sys := { t.sys with dec := d, hist := t.sys.hist ++ [i], errs := t.sys.errs + errCount r } }
  | .ack j =>
    match t.sys.dec.out[j]? with
    | none => return t
    | some a =>
      let q := t.back.arrive L' (writeAck a).flatten
      match q.out[t.back.out.length]? with
      | none => return { t with back := q }
      | some b => do
        let (e, r) ← t.sys.enc.notify c.F c.dbg b
        return { t with back := q, sys := { t.sys with enc := e, errs := t.sys.errs + errCount r } }

/-! ## The forwarder -/

/-- The loop of `main` (source_forwarder.cc:72-85) for one datagram: what is sent on, or why the loop ends
(source_forwarder.cc:87-90).  The buffer of 4096 bytes is not resized to the length of the datagram, and is not initialized (packet.hh:69-72):
`junk` is what was there. -/
def forwardOne (d junk : List Byte) : Except TStop (List (List Byte)) :=
  let buffer := receivedAck d junk
  if 0 < d.length then
    if buffer.head? = some 2#8 then
      match readSource buffer with
      | .ok (s, _) => .ok [s.sym]
      | .error (.cpp x) => .error (.exn x)
      | .error (.fault f) => .error (.fault f)
    else .ok []
  else .ok []

/-- A run: what was sent on, and why the program ended, if it did. source_forwarder.cc:72-90. -/
def forwardAll : List (List Byte × List Byte) → List (List Byte) × Option TStop
  | [] => ([], none)
  | (d, junk) :: t =>
    match forwardOne d junk with
    | .error x => ([], some x)
    | .ok l => let r := forwardAll t; (l ++ r.1, r.2)

end Netcode
