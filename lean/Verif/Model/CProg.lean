import Verif.Model.CApi
import Verif.Model.System

/-!
# A program that uses the C interface

All the functions of `netcode/c/data.cc`, `netcode/c/packet.cc`, `netcode/c/encoder.cc` and `netcode/c/decoder.cc` but those that delete
objects, for a program that has one encoder, one decoder, one `ntc_data_t`, one `ntc_packet_t` and one `ntc_error`, and uses them again and
again, as `examples/basic/c_basic.c` does.

Not modelled: memory exhaustion (it is in `Model/CApi.lean`); callbacks that call the library (`Model/Reenter.lean`, `Model/DataCalls.lean`).
The callbacks of the program are called by `noexcept` functions (c/detail/handlers.hh:11-43) with the bytes that the handlers of the C++
interface get: the logs `out` and `data` of the encoder and the decoder.
-/

namespace Netcode

variable {w : Nat}

/-- The objects of the program. `data` is the `std::vector<char>` of the `ntc_data_t` (data.hh:14). -/
structure CProg where
  enc : Enc
  dec : NDec
  data : List Cell
  pkt : Packet
  heap : Heap
  err : CError
  deriving DecidableEq, Repr

/-- A call of the C interface, or a `memcpy` to the beginning of `ntc_data_buffer` (c/data.cc:35-40), `ntc_packet_buffer`
(c/packet.cc:35-40).  Sizes are `uint16_t` or `size_t`. -/
inductive CCall where
  | dataResize (n : BitVec 16)
  | dataWrite (l : List Byte)
  | dataSize
  | addData
  | pktResize (n : BitVec 16)
  | pktWrite (l : List Byte)
  | pktSize
  | addToDec
  | addToEnc
  | repair
  | window
  | codeType (systematic : Bool)
  | rate (n : BitVec 64)
  | windowSize (n : BitVec 64)
  | adaptive (b : Bool)
  | genAck
  | ackPeriod (ms : BitVec 64)
  | ackNb (n : BitVec 16)
  deriving DecidableEq, Repr

/-- The bytes of cells that the library reads.  That an indeterminate one is read is undefined behaviour.
`symbol().data()` at packetizer.hh:179 and `p.data()` at packetizer.hh:70, 131, 192. -/
def cellBytes : List Cell → Out (List Byte)
  | [] => .ok []
  | none :: _ => .error (.ub .oobRead)
  | some b :: t => do
    let l ← cellBytes t
    return b :: l

/-- The bytes of a packet that is given to the library: those of [`data()`, `data() + size()`).  The size of a packet that was moved from is
larger than its storage. packetizer.hh:70-72. -/
def Packet.bytes (p : Packet) : Out (List Byte) :=
  if p.dataRange.length = p.size then cellBytes p.dataRange else .error (.ub .oobRead)

/-- `memcpy` to the cells from number `i` on. examples/basic/c_basic.c:114. -/
def memcpyTo (v : List Cell) (i : Nat) (l : List Byte) : Out (List Cell) :=
  match vecCopy v i l with
  | .ok v => .ok v
  | .error _ => .error (.ub .oobWrite)

/-- `ntc_data_resize` (c/data.cc:53-58) -/
def cDataResize (lax alloc : Bool) (v : List Cell) (n : BitVec 16) (h : Heap) (e : CError) :
    Out (List Cell × Heap × CError × Unit) :=
  match vecResize v n.toNat none with
  | .ok v => do
    let x ← checkError lax alloc () (.ok ()) h e
    return (v, x)
  | .error f => do
    let x ← checkError lax alloc () (.error (← f.thrown)) h e
    return (v, x)

/-- `ntc_data_get_size` (c/data.cc:44-49) -/
def cDataGetSize (v : List Cell) : BitVec 16 := BitVec.ofNat 16 v.length

/-- The packet after it was given to `ntc_decoder_add_packet` (c/decoder.cc:32-37): it is moved into the source or the repair
(packetizer.hh:161, 216) unless an exception was thrown before. -/
def Packet.given (p : Packet) (e : CError) : Packet := if e.ty = .noError then Packet.movedFrom else p

/-- One call: the objects afterwards and the result (0 if there is none).  `lax` and `alloc` are as in `checkError`.
c/data.cc:8-57, c/packet.cc:8-57, c/encoder.cc:8-50, c/decoder.cc. -/
def CProg.call (c : Cfg w) (lax alloc : Bool) (t : CProg) : CCall → Out (CProg × Nat)
  | .dataResize n => do
    let (v, h, e, _) ← cDataResize lax alloc t.data n t.heap t.err
    return ({ t with data := v, heap := h, err := e }, 0)
  | .dataWrite l => do
    let v ← memcpyTo t.data 0 l
    return ({ t with data := v }, 0)
  | .dataSize => return (t, (cDataGetSize t.data).toNat)
  -- c/encoder.cc:27-32; encoder.hh:264 moves the vector into the source
  | .addData => do
    let d ← cellBytes t.data
    let (k, h, e, _) ← cEncoderAddData c.gf c.dbg lax alloc t.enc d t.heap t.err
    return ({ t with enc := k, data := [], heap := h, err := e }, 0)
  | .pktResize n => do
    let (p, h, e, _) ← cPacketResize lax alloc t.pkt n t.heap t.err
    return ({ t with pkt := p, heap := h, err := e }, 0)
  | .pktWrite l => do
    let v ← memcpyTo t.pkt.buf Packet.beginOff l
    return ({ t with pkt := ⟨v⟩ }, 0)
  | .pktSize => return (t, (cPacketGetSize t.pkt).toNat)
  -- c/decoder.cc:32-37
  | .addToDec => do
    let p ← t.pkt.bytes
    let (d, h, e, n) ← cDecoderAddPacket c.gf c.dbg c.clk lax alloc t.dec p t.heap t.err
    return ({ t with dec := d, pkt := t.pkt.given e, heap := h, err := e }, n)
  -- c/encoder.cc:36-41; `read_ack` (packetizer.hh:64-87) leaves the packet as it is
  | .addToEnc => do
    let p ← t.pkt.bytes
    let (k, h, e, n) ← cEncoderAddPacket c.F c.dbg lax alloc t.enc p t.heap t.err
    return ({ t with enc := k, heap := h, err := e }, n)
  | .repair => do
    let (k, h, e, _) ← cEncoderGenerateRepair c.gf c.dbg lax alloc t.enc t.heap t.err
    return ({ t with enc := k, heap := h, err := e }, 0)
  -- c/encoder.cc:54-59
  | .window => return (t, t.enc.window)
  -- c/encoder.cc:63-68
  | .codeType b => return ({ t with enc := t.enc.setCodeType b }, 0)
  -- c/encoder.cc:72-77
  | .rate n => do
    let k ← t.enc.setRate c.dbg n.toNat
    return ({ t with enc := k }, 0)
  -- c/encoder.cc:81-86
  | .windowSize n => do
    let k ← t.enc.setWindowSize c.dbg n.toNat
    return ({ t with enc := k }, 0)
  -- c/encoder.cc:90-95
  | .adaptive b => return ({ t with enc := t.enc.setAdaptive b }, 0)
  | .genAck => do
    let (d, h, e, _) ← cDecoderGenerateAck lax alloc t.dec t.heap t.err
    return ({ t with dec := d, heap := h, err := e }, 0)
  -- c/decoder.cc:50-55; `std::chrono::milliseconds` is signed
  | .ackPeriod ms => return ({ t with dec := t.dec.setAckPeriod ms.toInt }, 0)
  -- c/decoder.cc:59-64
  | .ackNb n => do
    let d ← t.dec.setAckNb c.dbg n.toNat
    return ({ t with dec := d }, 0)

/-- A sequence of calls, without the results. Models no code: a fold. -/
def CProg.run (c : Cfg w) (lax alloc : Bool) (t : CProg) (l : List CCall) : Out CProg :=
  l.foldlM (fun t a => (t.call c lax alloc a).map (·.1)) t

/-- The beginning: `ntc_new_encoder` (c/encoder.cc:8-14), `ntc_new_decoder` (c/decoder.cc:9-19), `ntc_new_data(n)` (c/data.cc:8-13),
`ntc_new_packet(m)` (c/packet.cc:8-13); the error is what the program makes it. -/
def CProg.new (c : Cfg w) (inOrder : Bool) (n m : BitVec 16) (e : CError) : Except VecErr CProg := do
  let v ← vecNew n.toNat none
  let p ← cNewPacket m
  return { enc := Enc.init, dec := NDec.init c.clk inOrder, data := v, pkt := p, heap := [], err := e }

end Netcode
