import Verif.Model.Basic

/-!
# Wire format

Model of `netcode/detail/packetizer.hh` and `netcode/detail/packet_type.hh`.

A packet handler receives the packet as a sequence of chunks followed by an end mark; the model
returns the list of chunks, the packet on the wire being their concatenation.
A received `ntc::packet` is the list of its `size()` bytes.  Readers keep the code's two variables:
the `data` pointer (here an offset `pos`) and `max_len`; a read outside of the packet is a fault.
-/

namespace Netcode

/-- A packet as handed to the user's packet handler: one entry per `handler(data, len)` call
(packetizer.hh:243-258); `mark_end` (packetizer.hh:355-360) follows the last one. -/
abbrev Chunks := List (List Byte)

/-- Big-endian bytes of a number truncated to `k` bytes
(`boost::endian::native_to_big(static_cast<T>(data))`, packetizer.hh:251-258). -/
def beBytes : Nat → Nat → List Byte
  | 0, _ => []
  | k + 1, x => BitVec.ofNat 8 (x / 256 ^ k) :: beBytes k x

/-- Number read from big-endian bytes (`boost::endian::big_to_native`). packetizer.hh:236. -/
def beNat : List Byte → Nat := List.foldl (fun acc b => acc * 256 + b.toNat) 0

/-! ## Writing -/

/-- `std::adjacent_difference` on `uint32_t` (packetizer.hh:277); the first element is kept. -/
def adjDiff : Nat → List Nat → List Nat
  | _, [] => []
  | prev, x :: t => ((x + 2 ^ 32 - prev % 2 ^ 32) % 2 ^ 32) :: adjDiff x t

/-- The run-length loop (packetizer.hh:284-296).  `cur` is `*cit`, `run` the current `run_length`.
The value stored in the pair is a `uint16_t`: truncation (packetizer.hh:373). -/
def rleGo (cur run : Nat) : List Nat → List (Nat × Nat)
  | [] => [(run, cur % 2 ^ 16)]
  | x :: t =>
    if cur = x ∧ run < 255 then rleGo x (run + 1) t
    else (run, cur % 2 ^ 16) :: rleGo x 1 t

/-- The run-length buffer for the differences following the first identifier. packetizer.hh:284-296. -/
def rle : List Nat → List (Nat × Nat)
  | [] => []
  | x :: t => rleGo x 1 t

/-- `write(const source_id_list&)` (packetizer.hh:263-309). -/
def writeIds (ids : List Nat) : Chunks :=
  match ids with
  | [] => [beBytes 2 0]
  | first :: rest =>
    let pairs := rle (adjDiff first rest)
    [beBytes 2 (pairs.length + 1), beBytes 4 first] ++
      pairs.flatMap (fun p => [beBytes 1 p.1, beBytes 2 p.2])

/-- An ack (detail/ack.hh). detail/ack.hh:82-88. -/
structure Ack where
  ids : List Nat
  nbPackets : Nat
  deriving DecidableEq, Repr

/-- An `encoder_repair` (detail/repair.hh:13-135). -/
structure ERepair where
  id : Nat
  ids : List Nat
  encSize : BitVec 16
  sym : List Byte
  deriving DecidableEq, Repr

/-- An `encoder_source` (detail/source.hh:12-72). -/
structure ESource where
  id : Nat
  sym : List Byte
  deriving DecidableEq, Repr

/-- `encoder_source::size()` (detail/source.hh:57-63): a truncation to `uint16_t`. -/
def ESource.size (s : ESource) : Nat := s.sym.length % 2 ^ 16

/-- `write_ack` (packetizer.hh:46-61). -/
def writeAck (a : Ack) : Chunks :=
  [beBytes 1 0, beBytes 2 a.nbPackets] ++ writeIds a.ids

/-- `write_repair` (packetizer.hh:90-122).  The symbol size and the symbol are written twice (lines
102-106 and 114-118). -/
def writeRepair (r : ERepair) : Chunks :=
  [beBytes 1 1, beBytes 4 r.id, beBytes 2 r.sym.length, r.sym] ++ writeIds r.ids ++
    [beBytes 2 r.encSize.toNat, beBytes 2 r.sym.length, r.sym]

/-- `write_source` (packetizer.hh:165-183). -/
def writeSource (s : ESource) : Chunks :=
  [beBytes 1 2, beBytes 4 s.id, beBytes 2 s.sym.length, s.sym]

/-! ## Reading -/

/-- How a reader may fail: by a C++ exception or by a fault. packetizer.hh:229-232. -/
inductive PErr where
  | cpp (e : CppErr)
  | fault (f : Fault)
  deriving DecidableEq, Repr

/-- Readers. Models no code. -/
abbrev PM (α : Type) := Except PErr α

/-- The reader's variables: `data` (as an offset from `p.data()`) and `max_len`. packetizer.hh:70-72, 131-133, 192-194. -/
structure Cur where
  pos : Nat
  maxLen : Nat
  deriving DecidableEq, Repr

/-- `read<T>` with `sizeof(T) = k` (packetizer.hh:222-240). -/
def readInt (p : List Byte) (k : Nat) (c : Cur) : PM (Nat × Cur) :=
  if c.maxLen < k then .error (.cpp .overflow)
  else if p.length < c.pos + k then .error (.fault (.ub .oobRead))
  else .ok (beNat ((p.drop c.pos).take k), { pos := c.pos + k, maxLen := c.maxLen - k })

/-- Skip `k` bytes (packetizer.hh:147-153, 208-214).  Only the pointer moves. -/
def skip (k : Nat) (c : Cur) : PM Cur :=
  if c.maxLen < k then .error (.cpp .overflow)
  else .ok { pos := c.pos + k, maxLen := c.maxLen - k }

/-- The loop reading the run-length pairs (packetizer.hh:336-345). -/
def readPairs (p : List Byte) : Nat → Cur → PM (List (Nat × Nat) × Cur)
  | 0, c => .ok ([], c)
  | n + 1, c => do
    let (run, c) ← readInt p 1 c
    let (v, c) ← readInt p 2 c
    let (t, c) ← readPairs p n c
    return ((run, v) :: t, c)

/-- The differences described by run-length pairs (packetizer.hh:341-344). -/
def unrle (ps : List (Nat × Nat)) : List Nat := ps.flatMap (fun q => List.replicate q.1 q.2)

/-- `std::partial_sum` on `uint32_t` (packetizer.hh:348-349). -/
def partialSums : Nat → List Nat → List Nat
  | _, [] => []
  | acc, d :: t => ((acc + d) % 2 ^ 32) :: partialSums ((acc + d) % 2 ^ 32) t

/-- `read_ids` (packetizer.hh:312-352).  The sums are inserted in a `flat_set`. -/
def readIds (p : List Byte) (c : Cur) : PM (List Nat × Cur) := do
  let (nb, c) ← readInt p 2 c
  if nb = 0 then return ([], c)
  let (first, c) ← readInt p 4 c
  let (pairs, c) ← readPairs p (nb - 1) c
  return ((partialSums 0 (first :: unrle pairs)).foldl setInsert [], c)

/-- `read_ack` (packetizer.hh:64-88); the second component is the number of bytes read. -/
def readAck (p : List Byte) : PM (Ack × Nat) := do
  let c : Cur := { pos := 0, maxLen := p.length }
  let (_, c) ← readInt p 1 c
  let (nb, c) ← readInt p 2 c
  let (ids, c) ← readIds p c
  return ({ ids := ids, nbPackets := nb }, c.pos)

/-- A `decoder_repair` (detail/repair.hh:144-258).  `buf` is the memory from `symbol()` (7 bytes
after `data()`, packet.hh: `symbol()` = buffer + 16, `data()` = buffer + 9) to the end of the packet. -/
structure DRepair where
  id : Nat
  ids : List Nat
  encSize : BitVec 16
  buf : List Byte
  symSize : Nat
  deriving DecidableEq, Repr

/-- A `decoder_source` (detail/source.hh:82-150): identifier and symbol bytes
(`symbol_size() = sym.length`). -/
structure DSource where
  id : Nat
  sym : List Byte
  deriving DecidableEq, Repr

/-- The offset of the symbol in a packet: `source_and_repair_headers` (detail/symbol_alignment.hh),
i.e. packet_type (1) + id (4) + symbol size (2). -/
def headerSize : Nat := 7

/-- `read_repair` (packetizer.hh:125-163). -/
def readRepair (p : List Byte) : PM (DRepair × Nat) := do
  let c : Cur := { pos := 0, maxLen := p.length }
  let (_, c) ← readInt p 1 c
  let (id, c) ← readInt p 4 c
  let (symSize, c) ← readInt p 2 c
  let c ← skip symSize c
  let (ids, c) ← readIds p c
  let (enc, c) ← readInt p 2 c
  return ({ id := id, ids := ids, encSize := BitVec.ofNat 16 enc, buf := p.drop headerSize,
            symSize := symSize }, c.pos)

/-- `read_source` (packetizer.hh:186-218). -/
def readSource (p : List Byte) : PM (DSource × Nat) := do
  let c : Cur := { pos := 0, maxLen := p.length }
  let (_, c) ← readInt p 1 c
  let (id, c) ← readInt p 4 c
  let (symSize, c) ← readInt p 2 c
  let c ← skip symSize c
  return ({ id := id, sym := (p.drop headerSize).take symSize }, c.pos)

/-- Packet types (packet_type.hh:11). -/
inductive PType where
  | ack | repair | source
  deriving DecidableEq, Repr

/-- `get_packet_type` (packet_type.hh:17-36): reads the first byte without looking at the size. -/
def getPacketType (p : List Byte) : PM PType :=
  match p with
  | [] => .error (.fault (.ub .oobRead))
  | ty :: _ =>
    if ty = 0#8 then .ok .ack
    else if ty = 1#8 then .ok .repair
    else if ty = 2#8 then .ok .source
    else .error (.cpp .packetType)

end Netcode
