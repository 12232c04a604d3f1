import Verif.Model.NDecoder
import Verif.Model.Encoder
import Verif.Model.Packet

/-!
# The C interface

Model of `netcode/c/*.cc`, `netcode/c/*.h` and `netcode/c/detail/check_error.hh`.  The C callbacks are wrapped in
`noexcept` functions (c/detail/handlers.hh); they are the handlers of the C++ objects and are modelled with them.
-/

namespace Netcode

variable {w : Nat}

/-- `ntc_error_type` (c/error.h:11-20) -/
inductive ErrTy where
  | noError
  | unknown
  | noMemory
  | packetType
  | overflow
  deriving DecidableEq, Repr

/-- What a C++ call can throw, as `check_error` tells exceptions apart (c/detail/check_error.hh:31-62). `what` is
the text of the exception without its terminating NUL. -/
inductive Thrown where
  | packetType
  | overflow
  | badAlloc
  | std (what : List Byte)
  | other
  deriving DecidableEq, Repr

/-- The exceptions of errors.hh. errors.hh:14-30. -/
def CppErr.thrown : CppErr → Thrown
  | .packetType => .packetType
  | .overflow => .overflow

/-- A block of dynamic memory. `arr`: allocated by `new[]`.
The pointers of c/data.cc:8-31, c/packet.cc, c/encoder.cc:8-23, and `message` of c/error.h:31. -/
structure Block where
  arr : Bool
  live : Bool
  bytes : List Cell
  deriving DecidableEq, Repr

/-- The dynamic memory; an address is an index, a null pointer is `none`. See `Block`. c/data.cc:8-31. -/
abbrev Heap := List Block

/-- `ntc_error` (c/error.h:24-33) -/
structure CError where
  ty : ErrTy
  msg : Option Nat
  deriving DecidableEq, Repr

/-- `delete p` (not `delete[] p`).  On a block allocated by `new[]` the behaviour is undefined; `lax` describes an
allocator for which both forms of `delete` do the same. c/data.cc:30, c/encoder.cc:22. -/
def heapDelete (lax : Bool) (h : Heap) : Option Nat → Out Heap
  | none => .ok h
  | some a =>
    match h[a]? with
    | none => .error (.ub .useAfterFree)
    | some b =>
      if !b.live then .error (.ub .useAfterFree)
      else if b.arr && !lax then .error (.ub .mismatchedDelete)
      else .ok (h.set a { b with live := false })

/-- `check_error` (c/detail/check_error.hh:17-66) around a call whose result is `r`.  `zero` is the default value
of the result type (line 65), `alloc` tells whether the allocation of line 51 succeeds. -/
def checkError {α : Type} (lax alloc : Bool) (zero : α) (r : Except Thrown α) (h : Heap) (e : CError) :
    Out (Heap × CError × α) :=
  -- line 24
  let e := { e with ty := .noError }
  match r with
  | .ok x => .ok (h, e, x)
  -- lines 31-44
  | .error .packetType => .ok (h, { e with ty := .packetType }, zero)
  | .error .overflow => .ok (h, { e with ty := .overflow }, zero)
  | .error .badAlloc => .ok (h, { e with ty := .noMemory }, zero)
  -- lines 46-56: `sz` does not count the terminating NUL
  | .error (.std what) => do
    let h ← heapDelete lax h e.msg
    if alloc then
      return (h ++ [{ arr := true, live := true, bytes := what.map some }], { ty := .unknown, msg := some h.length },
        zero)
    else return (h, { ty := .unknown, msg := none }, zero)
  -- lines 58-62
  | .error .other => do
    let h ← heapDelete lax h e.msg
    return (h, { e with ty := .unknown }, zero)

/-- How a C string is read: the bytes before the first NUL of the block `p` points to. c/error.h:31, as in examples/basic/c_basic.c:202. -/
def cstring (h : Heap) (p : Nat) : Out (List Byte) :=
  match h[p]? with
  | none => .error (.ub .useAfterFree)
  | some b => if b.live then go b.bytes else .error (.ub .useAfterFree)
where
  /-- reads until a NUL -/
  go : List Cell → Out (List Byte)
    | [] => .error (.ub .oobRead)
    | none :: _ => .error (.ub .oobRead)
    | some c :: t => if c = 0#8 then .ok [] else (go t).map (c :: ·)

/-! ## Functions -/

/-- `ntc_decoder_add_packet` (c/decoder.cc:32-37) -/
def cDecoderAddPacket (gf : GF w) (dbg : Bool) (clk : Clock) (lax alloc : Bool) (d : NDec) (p : List Byte)
    (h : Heap) (e : CError) : Out (NDec × Heap × CError × Nat) := do
  let (d, r) ← d.notify gf dbg clk p
  let x ← checkError lax alloc 0 (r.mapError CppErr.thrown) h e
  return (d, x)

/-- `ntc_encoder_add_packet` (c/encoder.cc:36-41) -/
def cEncoderAddPacket (F : F64) (dbg lax alloc : Bool) (c : Enc) (p : List Byte) (h : Heap) (e : CError) :
    Out (Enc × Heap × CError × Nat) := do
  let (c, r) ← c.notify F dbg p
  let x ← checkError lax alloc 0 (r.mapError CppErr.thrown) h e
  return (c, x)

/-- `ntc_encoder_add_data` (c/encoder.cc:27-32) -/
def cEncoderAddData (gf : GF w) (dbg lax alloc : Bool) (c : Enc) (d : List Byte) (h : Heap) (e : CError) :
    Out (Enc × Heap × CError × Unit) := do
  let c ← c.commit gf dbg d
  let x ← checkError lax alloc () (.ok ()) h e
  return (c, x)

/-- `ntc_encoder_generate_repair` (c/encoder.cc:45-50) -/
def cEncoderGenerateRepair (gf : GF w) (dbg lax alloc : Bool) (c : Enc) (h : Heap) (e : CError) :
    Out (Enc × Heap × CError × Unit) := do
  let c ← c.generateRepair gf dbg
  let x ← checkError lax alloc () (.ok ()) h e
  return (c, x)

/-- `ntc_decoder_generate_ack` (c/decoder.cc:41-46) -/
def cDecoderGenerateAck (lax alloc : Bool) (d : NDec) (h : Heap) (e : CError) :
    Out (NDec × Heap × CError × Unit) := do
  let x ← checkError lax alloc () (.ok ()) h e
  return (d.generateAck, x)

/-- How a vector operation ends, as an exception. What `check_error` (c/detail/check_error.hh) may catch from c/data.cc:57. -/
def VecErr.thrown : VecErr → Out Thrown
  | .length => .ok (.std [])
  | .ub k => .error (.ub k)

/-- `ntc_packet_resize` (c/packet.cc:53-58); `new_size` is a `uint16_t`. -/
def cPacketResize (lax alloc : Bool) (p : Packet) (n : BitVec 16) (h : Heap) (e : CError) :
    Out (Packet × Heap × CError × Unit) :=
  match p.resize n.toNat with
  | .ok p => do
    let x ← checkError lax alloc () (.ok ()) h e
    return (p, x)
  | .error f => do
    let x ← checkError lax alloc () (.error (← f.thrown)) h e
    return (p, x)

/-- `ntc_new_packet_from` (c/packet.cc:17-22) when the memory is available. -/
def cNewPacketFrom (src : List Byte) (n : BitVec 16) : Except VecErr Packet := Packet.ofRange (src.take n.toNat)

/-- `ntc_new_packet` (c/packet.cc:8-13) when the memory is available. -/
def cNewPacket (n : BitVec 16) : Except VecErr Packet := Packet.sized n.toNat

/-- `ntc_packet_get_size` (c/packet.cc:44-49) -/
def cPacketGetSize (p : Packet) : BitVec 16 := BitVec.ofNat 16 p.size

/-- Result of a function that creates an object. c/data.cc:12, 21; c/encoder.cc:12-13. -/
inductive NewRes (α : Type) where
  | obj (x : α)
  | null
  /-- `std::terminate` -/
  | terminate
  deriving DecidableEq, Repr

/-- `new (std::nothrow) T{...}` in a `noexcept` function (c/encoder.cc:8-14, c/decoder.cc:9-19, c/packet.cc:8-22,
c/data.cc:8-22): a null pointer when the memory of the object itself cannot be allocated, `std::terminate` when its
constructor throws. -/
def cNew {α : Type} (alloc : Bool) (ctor : Except Thrown α) : NewRes α :=
  if alloc then
    match ctor with
    | .ok x => .obj x
    | .error _ => .terminate
  else .null

/-- The constructor of `galois_field` (detail/galois_field.hh:34-44), called by those of `ntc::encoder` and
`ntc::decoder`; `init` is the answer of `gf_init_easy`. -/
def gfCtor (dbg : Bool) (init : Nat → Bool) (size : BitVec 8) : Out (Except Thrown Unit) := do
  cassert dbg (size = 4#8 ∨ size = 8#8 ∨ size = 16#8 ∨ size = 32#8)
  return if init size.toNat then .ok () else .error (.std [])

end Netcode
