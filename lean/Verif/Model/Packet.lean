import Verif.Model.Basic

/-!
# ntc::packet and packet dumps

Model of `netcode/packet.hh`, `netcode/detail/symbol_alignment.hh`, `netcode/detail/buffer.hh`,
`netcode/detail/serialize_packet.hh` and of the loop of `tools/replay.cc`.

The storage is a `std::vector<char>` whose allocator leaves new bytes uninitialised (detail/buffer.hh:15-52):
a cell of the model is a byte or `none`, an indeterminate value.  Reallocation, capacities and the
invalidation of iterators are not modelled, nor is memory exhaustion; the only limit on sizes is
`std::vector::max_size`.
-/

namespace Netcode

/-- A `char` in memory; `none` when it was never written (detail/buffer.hh:39-44). -/
abbrev Cell := Option Byte

/-- Why an operation on a vector did not complete. Models no code: `std::vector` (detail/buffer.hh). -/
inductive VecErr where
  /-- `std::length_error` -/
  | length
  /-- undefined behaviour -/
  | ub (k : UB)
  deriving DecidableEq, Repr

/-- `std::vector<char>::max_size()` on a 64-bit platform. The limit of `resize` (packet.hh:305). -/
def vecMax : Nat := 2 ^ 63 - 1

/-- `std::vector::resize`, the new cells being `c` (`none` for the form without a value). packet.hh:285, 305, 314. -/
def vecResize (v : List Cell) (n : Nat) (c : Cell) : Except VecErr (List Cell) :=
  if vecMax < n then .error .length
  else if n ≤ v.length then .ok (v.take n)
  else .ok (v ++ List.replicate (n - v.length) c)

/-- `std::vector(n, c)`. packet.hh:66, 71, 76. -/
def vecNew (n : Nat) (c : Cell) : Except VecErr (List Cell) :=
  if vecMax < n then .error .length else .ok (List.replicate n c)

/-- Assignment to an element, without bounds checking. packet.hh:140. -/
def vecSet (v : List Cell) (i : Nat) (c : Cell) : Except VecErr (List Cell) :=
  if i < v.length then .ok (v.set i c) else .error (.ub .oobWrite)

/-- Read of an element, without bounds checking. packet.hh:149. -/
def vecGet (v : List Cell) (i : Nat) : Except VecErr Cell :=
  match v[i]? with
  | some c => .ok c
  | none => .error (.ub .oobRead)

/-- `std::copy` of the bytes `l` to the position `i` of the storage. packet.hh:84, 91, 124. -/
def vecCopy (v : List Cell) (i : Nat) (l : List Byte) : Except VecErr (List Cell) :=
  if i + l.length ≤ v.length then .ok (v.take i ++ l.map some ++ v.drop (i + l.length))
  else .error (.ub .oobWrite)

namespace Pkt

/-- `symbol_alignment` (detail/symbol_alignment.hh, packet.hh `alignment`). symbol_alignment.hh:9, packet.hh:32. -/
def alignment : Nat := 16
/-- The number of bytes of a header that precede a symbol (detail/symbol_alignment.hh). symbol_alignment.hh:13. -/
def headers : Nat := 7
/-- `shift`: number of bytes before the first byte of the packet. packet.hh:36. -/
def shift : Nat := alignment - headers

/-- `size_type` arithmetic. packet.hh:41. -/
def wrap64 (n : Nat) : Nat := n % 2 ^ 64

end Pkt

/-- A `ntc::packet`: its `m_buffer`. packet.hh:341. -/
structure Packet where
  buf : List Cell
  deriving DecidableEq, Repr

namespace Packet
open Pkt

/-- Default constructor (packet.hh:65-67) -/
def empty : Except VecErr Packet := return ⟨← vecNew shift none⟩
/-- `packet(size)` (packet.hh:70-72) -/
def sized (n : Nat) : Except VecErr Packet := return ⟨← vecNew (wrap64 (n + shift)) none⟩
/-- `packet(count, value)` (packet.hh:75-77) -/
def filled (n : Nat) (v : Byte) : Except VecErr Packet := return ⟨← vecNew (wrap64 (n + shift)) (some v)⟩
/-- `packet(first, last)` and `packet(initializer_list)` (packet.hh:80-92) -/
def ofRange (l : List Byte) : Except VecErr Packet := do
  let b ← vecNew (wrap64 (l.length + shift)) none
  return ⟨← vecCopy b shift l⟩
/-- `packet(byte_buffer)` and `packet(zero_byte_buffer)` (packet.hh:96-108): from a symbol -/
def ofSymbol (l : List Byte) : Except VecErr Packet := do
  let b ← vecNew (wrap64 (l.length + alignment)) none
  return ⟨← vecCopy b alignment l⟩

/-- `size()` (packet.hh:242-247) -/
def size (p : Packet) : Nat := wrap64 (p.buf.length + (2 ^ 64 - shift))
/-- `empty()` (packet.hh:231-236) -/
def isEmpty (p : Packet) : Bool := p.size == 0
/-- `operator[]` (packet.hh:136-150), read -/
def get (p : Packet) (i : Nat) : Except VecErr Cell := vecGet p.buf (wrap64 (i + shift))
/-- `operator[]` (packet.hh:136-141), write -/
def set (p : Packet) (i : Nat) (v : Byte) : Except VecErr Packet :=
  return ⟨← vecSet p.buf (wrap64 (i + shift)) (some v)⟩
/-- Offset of `data()` and `begin()` in the storage (packet.hh:155-197) -/
def beginOff : Nat := shift
/-- Offset of `end()` in the storage (packet.hh:202-227) -/
def endOff (p : Packet) : Nat := p.buf.length
/-- Offset of `symbol()` in the storage (packet.hh:320-335) -/
def symbolOff : Nat := alignment
/-- The cells of the range [`begin()`, `end()`). packet.hh:175-207. -/
def range (p : Packet) : List Cell := (p.buf.take p.endOff).drop beginOff
/-- The cells of the range [`data()`, `data() + size()`). packet.hh:156-170, 243-247. -/
def dataRange (p : Packet) : List Cell := (p.buf.drop beginOff).take p.size

/-- `resize(count)` (packet.hh:302-306) -/
def resize (p : Packet) (n : Nat) : Except VecErr Packet := return ⟨← vecResize p.buf (wrap64 (n + shift)) none⟩
/-- `resize(count, value)` (packet.hh:311-315) -/
def resizeFill (p : Packet) (n : Nat) (v : Byte) : Except VecErr Packet :=
  return ⟨← vecResize p.buf (wrap64 (n + shift)) (some v)⟩
/-- `assign(count, value)` (packet.hh:111-116): `resize` then `std::fill(begin(), end(), value)` -/
def assignFill (p : Packet) (n : Nat) (v : Byte) : Except VecErr Packet := do
  let p ← p.resize n
  return ⟨← vecCopy p.buf beginOff (List.replicate (p.endOff - beginOff) v)⟩
/-- `assign(first, last)` and `assign(initializer_list)` (packet.hh:119-132); a range inside the packet
itself is not modelled. -/
def assignRange (p : Packet) (l : List Byte) : Except VecErr Packet := do
  let p ← p.resize l.length
  return ⟨← vecCopy p.buf beginOff l⟩
/-- `clear()` (packet.hh:282-286) -/
def clear (p : Packet) : Except VecErr Packet := return ⟨← vecResize p.buf shift none⟩
/-- `push_back` (packet.hh:292-296) -/
def pushBack (p : Packet) (v : Byte) : Except VecErr Packet :=
  if vecMax < p.buf.length + 1 then .error .length else .ok ⟨p.buf ++ [some v]⟩
/-- `reserve` (packet.hh:254-258): the contents do not change; capacities are not modelled. -/
def reserve (p : Packet) (n : Nat) : Except VecErr Packet :=
  if vecMax < wrap64 (n + shift) then .error .length else .ok p
/-- `shrink_to_fit` (packet.hh:272-276) -/
def shrinkToFit (p : Packet) : Except VecErr Packet := .ok p
/-- The state of a packet that was moved from (packet.hh:59, 62): a moved-from vector is empty. -/
def movedFrom : Packet := ⟨[]⟩

end Packet

/-! ## Dumps -/

/-- `serialize_packet::write` (detail/serialize_packet.hh:17-24): the 16-bit big-endian length of the
storage, then the storage itself.  A byte of the stream is a cell, so that the copy of the indeterminate
bytes in front of the packet can be told apart. -/
def dumpPacket (p : Packet) : List Cell :=
  let sz : BitVec 16 := BitVec.ofNat 16 p.buf.length
  [some (sz.extractLsb' 8 8), some (sz.extractLsb' 0 8)] ++ p.buf

/-- `std::copy_n(isb, n, ...)` for `n > 0` reads `n` characters and advances the stream by `n - 1`
(the behaviour of libstdc++ and libc++ the code relies on: it adds one `++isb`).  Nothing happens
when `n = 0`. serialize_packet.hh:34, 40. -/
def streamCopyN (s : List Cell) (n : Nat) : Except VecErr (List Cell × List Cell) :=
  if n ≤ s.length then .ok (s.take n, s.drop (n - 1)) else .error (.ub .oobRead)

/-- `++isb`. serialize_packet.hh:35, 42. -/
def streamIncr (s : List Cell) : Except VecErr (List Cell) :=
  match s with
  | [] => .error (.ub .oobRead)
  | _ :: t => .ok t

/-- `serialize_packet::read` (detail/serialize_packet.hh:26-44).  A length made of indeterminate bytes is an
undefined read. -/
def undumpPacket (s : List Cell) : Except VecErr (Packet × List Cell) := do
  let (h, s) ← streamCopyN s 2
  let s ← streamIncr s
  match h with
  | [some hi, some lo] =>
    let n := (hi ++ lo).toNat
    let p ← Packet.empty
    let b ← vecResize p.buf n none
    let (body, s) ← streamCopyN s n
    let s ← streamIncr s
    -- `copy_n` overwrites the `n` cells of the storage
    return (⟨body ++ b.drop n⟩, s)
  | _ => .error (.ub .oobRead)

/-- The dump of a decoder (decoder.hh:93-95): each packet is appended when it is received. -/
def dumpAll (ps : List Packet) : List Cell := (ps.map dumpPacket).flatten

/-- Reading `n` packets in sequence. tools/replay.cc:62-64. -/
def undumpN : Nat → List Cell → Except VecErr (List Packet × List Cell)
  | 0, s => .ok ([], s)
  | n + 1, s => do
    let (p, s) ← undumpPacket s
    let (ps, s) ← undumpN n s
    return (p :: ps, s)

/-- The loop of tools/replay.cc:62-92: the packets given to the decoder.  `fuel` bounds the iterations: each
one consumes at least two bytes. Calls of `packetizer` and exceptions are left out. -/
def replayLoop : Nat → List Cell → Except VecErr (List Packet)
  | 0, _ => .error (.ub .oobRead)
  | fuel + 1, s => do
    let (p, s) ← undumpPacket s
    -- lines 66-69
    if s = [] then return []
    else
      let ps ← replayLoop fuel s
      return p :: ps

/-- The packets that `replay` gives to its decoder when run on the dump `s`. tools/replay.cc:62-92. -/
def replay (s : List Cell) : Except VecErr (List Packet) := replayLoop (s.length + 1) s

end Netcode
