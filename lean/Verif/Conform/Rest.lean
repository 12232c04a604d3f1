import Verif.Conform.Detail
import Verif.Model.CApi

/-!
# The unit tests of the project, run on the model: the other files

As `Conform/Detail.lean`, for tests/netcode/detail/test_{packetizer,source_list,invert_matrix,galois_field,encoder,
square_matrix,serialize_packet}.cc, tests/netcode/test_{reconstruction,packet}.cc and tests/netcode/c/test_data.cc.
-/

namespace Netcode.Conform

variable {w : Nat}

/-! ## test_packetizer.cc -/

/-- "An ack is (de)serialized by packetizer" (37-50) -/
example : (readAck (writeAck { ids := [0, 1, 2, 3], nbPackets := 33 }).flatten).toOption = some ({ ids := [0, 1, 2, 3], nbPackets := 33 }, 12) := by
  decide +kernel

/-- A repair comes back as it was. -/
def repairBack (r : ERepair) : Bool :=
  match readRepair (writeRepair r).flatten with
  | .ok (d, _) => d.id = r.id && d.ids = r.ids && d.encSize = r.encSize && d.buf.take r.sym.length = r.sym
  | .error _ => false

/-- "A repair is (de)serialized by packetizer" (54-127) -/
example : repairBack { id := 42, ids := [1, 2, 3, 4], encSize := 54, sym := str "abc" } = true := by decide +kernel
-- 300 identifiers instead of 1024: more than one run
example : repairBack { id := 42, ids := List.range 300, encSize := 3, sym := str "abc" } = true := by decide +kernel
example : repairBack { id := 42, ids := [0, 1, 4, 5, 6, 100, 101], encSize := 54, sym := str "abc" } = true := by decide +kernel
example : repairBack { id := 2 ^ 20, ids := [2 ^ 21, 2 ^ 21 + 1, 2 ^ 21 + 2, 2 ^ 21 + 100, 2 ^ 21 + 101], encSize := 54, sym := str "abc" } = true := by
  decide +kernel
example : repairBack { id := 0, ids := [4242], encSize := 33, sym := str "x" } = true := by decide +kernel

/-- "A source is (de)serialized by packetizer" (131-150) -/
example : (writeSource { id := 394839, sym := str "abcd" }).flatten.length = 1 + 4 + 2 + 4 ∧
    (readSource (writeSource { id := 394839, sym := str "abcd" }).flatten).toOption = some ({ id := 394839, sym := str "abcd" }, 11) := by decide +kernel

/-- The crafted packets of "Prevent buffer overflow" (154-228): 512 bytes, all zero but the type and the size of the symbol. -/
def crafted (type : Byte) (size : Nat) : List Byte := [type, 0, 0, 0, 0] ++ beBytes 2 size ++ List.replicate 505 0

/-- The call throws `overflow_error`. -/
def overflows {α : Type} (r : PM α) : Bool :=
  match r with
  | .error (.cpp .overflow) => true
  | _ => false

example : overflows (readRepair (crafted 1 1024)) = true := by decide +kernel
example : overflows (readSource (crafted 2 1024)) = true := by decide +kernel
example : (readSource (crafted 2 (512 - 7))).toBool = true := by decide +kernel
example : overflows (readSource (crafted 2 (512 - 7 + 1))) = true := by decide +kernel

/-! ## test_source_list.cc -/

/-- The identifiers left after several calls of `erase`. -/
def left (n : List Nat) (calls : List (List Nat)) : List Nat :=
  (calls.foldl eraseIds (n.map (fun i => { id := i, sym := [] }))).map (·.id)

/-- "add and remove sources in source_list" (28-111) and "Error scenario" (115-122) -/
example : left [0, 1, 2, 3] [[0, 1, 2, 3]] = [] ∧ left [0, 1, 2, 3] [[0, 3]] = [1, 2] ∧ left [0, 1, 2, 3] [[0, 3], [1]] = [2] ∧
    left [0, 1, 2, 3] [[0, 2, 9]] = [1, 3] ∧ left [0, 1, 2, 3] [[0, 2], [0]] = [1, 3] ∧ left [0, 1, 2, 3] [[0, 2, 9], [0]] = [1, 3] ∧
    left [0, 1, 2, 3] [[0, 2, 9], [0], [1]] = [3] ∧ left [1] [[0, 1]] = [] := by decide +kernel

/-! ## test_invert_matrix.cc, test_square_matrix.cc, test_galois_field.cc -/

/-- The matrix `m(i, j) = 3 * i + j` of "Compare with jerasure matrix inversion" and "Matrix is correctly inverted" (126-226): storage is
column by column ("A square_matrix stores column by column"). -/
def nine : Mat w := fun q r => BitVec.ofNat w (3 * r + q)

/-- "Matrix is correctly inverted" (186-229), which is also what the comparison with jerasure establishes. -/
def inverted (gf : GF w) (_ : Bool) : Out Bool :=
  match invert gf 3 nine with
  | .error _ => return false
  | .ok inv => return (List.range 3).all fun i => (List.range 3).all fun j =>
      ((List.range 3).foldl (fun t k => t ^^^ mulScalar gf (nine k i) (inv j k)) 0#w) = (if i = j then 1#w else 0#w)

example : launch inverted = true := by decide +kernel

/-- "Non-invertible matrix" (158-182) -/
example : (invert gf8 3 (fun q r => BitVec.ofNat 8 ((3 * q + r + q) * 2))).toBool = false := by decide +kernel

/-- "Verify operations on single elements" (16-28) -/
example : mulScalar gf4 5 (gfInvert gf4 5) = 1 ∧ mulScalar gf8 5 (gfInvert gf8 5) = 1 ∧ mulScalar gf16 5 (gfInvert gf16 5) = 1 ∧
    mulScalar gf32 5 (gfInvert gf32 5) = 1 := by decide +kernel

/-! ## detail/test_encoder.cc -/

/-- "Encoder: create repairs" (18-44) -/
def creates (gf : GF w) (dbg : Bool) : Out Bool := do
  let r ← encodeRepair gf dbg 0 five
  return r.ids = [0, 1, 2, 3, 4]

/-- "Encoder: large source" (48-82), with 64 bytes instead of 8192 -/
def largeSource (gf : GF w) (dbg : Bool) : Out Bool := do
  let r ← encodeRepair gf dbg 0 [{ id := 0, sym := List.replicate 64 0 }, { id := 1, sym := List.replicate 16 0 }]
  let r' ← encodeRepair gf dbg 0 [{ id := 0, sym := List.replicate 16 0 }, { id := 1, sym := List.replicate 64 0 }]
  return r.sym.length ≥ 64 && r'.sym.length ≥ 64

example : launch creates = true := by decide +kernel
example : launch largeSource = true := by decide +kernel

/-! ## test_reconstruction.cc -/

/-- "Encode one source" (21-56) -/
def encodeOne (gf : GF w) (dbg : Bool) : Out Bool := do
  let r ← encodeRepair gf dbg 0 (mkList [(0, "abcd")])
  let inv := gfInvert gf (coefficient w 0 0)
  let size := mulSize gf r.encSize inv
  let s ← gfMultiply gf r.sym size.toNat inv
  return r.ids.head? = some 0 && size = 4 && s = str "abcd"

/-- "Encode two sizes" (60-97) -/
def twoSizes (gf : GF w) (_ : Bool) : Out Bool := do
  let c0 := coefficient w 0 0
  let c1 := coefficient w 0 1
  let r0 := mulScalar gf c0 4
  let r1 := r0 ^^^ mulScalar gf c1 5
  return mulScalar gf (gfInvert gf c0) r0 = 4 && mulScalar gf (gfInvert gf c1) (r1 ^^^ mulScalar gf c0 4) = 5 &&
    mulScalar gf (gfInvert gf c0) (r1 ^^^ mulScalar gf c1 5) = 4

/-- "Encode two sources" (101-179) -/
def twoSources (gf : GF w) (dbg : Bool) : Out Bool := do
  let c0 := coefficient w 0 0
  let c1 := coefficient w 0 1
  let r ← encodeRepair gf dbg 0 (mkList [(0, "abcd"), (1, "efghijkl")])
  -- "s0 is lost"
  let e0 := mulSize gf 8 c1 ^^^ r.encSize
  let y0 ← gfMultiplyAdd gf (str "efghijkl") r.sym 8 c1
  let z0 := mulSize gf e0 (gfInvert gf c0)
  let s0 ← gfMultiply gf y0 z0.toNat (gfInvert gf c0)
  -- "s1 is lost"
  let e1 := mulSize gf 4 c0 ^^^ r.encSize
  let y1 ← gfMultiplyAdd gf (str "abcd") r.sym 4 c0
  let z1 := mulSize gf e1 (gfInvert gf c1)
  let s1 ← gfMultiply gf y1 z1.toNat (gfInvert gf c1)
  return r.ids = [0, 1] && z0 = 4 && s0 = str "abcd" && z1 = 8 && s1 = str "efghijkl"

/-- "Two sources lost" (183-276) -/
def bothLost (gf : GF w) (dbg : Bool) : Out Bool := do
  let l := mkList [(0, "abcd"), (1, "efghijkl")]
  let r0 ← encodeRepair gf dbg 0 l
  let r1 ← encodeRepair gf dbg 1 l
  -- mat(row, col) is the storage cell (col, row)
  let mat : Mat w := fun q r => coefficient w q r
  match invert gf 2 mat with
  | .error _ => return false
  | .ok m =>
    let inv (row col : Nat) : BitVec w := m col row
    let z0 := mulSize gf r0.encSize (inv 0 0) ^^^ mulSize gf r1.encSize (inv 1 0)
    let s0 ← gfMultiply gf r0.sym z0.toNat (inv 0 0)
    let s0 ← gfMultiplyAdd gf r1.sym s0 z0.toNat (inv 1 0)
    let z1 := mulSize gf r0.encSize (inv 0 1) ^^^ mulSize gf r1.encSize (inv 1 1)
    let s1 ← gfMultiply gf r0.sym z1.toNat (inv 0 1)
    let s1 ← gfMultiplyAdd gf r1.sym s1 z1.toNat (inv 1 1)
    return r0.ids = [0, 1] && r1.ids = [0, 1] && z0 = 4 && s0 = str "abcd" && z1 = 8 && s1 = str "efghijkl"

example : launch encodeOne = true := by decide +kernel
example : launch twoSizes = true := by decide +kernel
example : launch twoSources = true := by decide +kernel
example : launch bothLost = true := by decide +kernel

/-! ## test_packet.cc, test_serialize_packet.cc, c/test_data.cc -/

/-- The bytes of a packet. -/
def bytesOf (p : Except VecErr Packet) : Option (Nat × List Cell × List Cell) := p.toOption.map (fun p => (p.size, p.range, p.dataRange))

/-- "Empty packet" (13-30) -/
example : bytesOf Packet.empty = some (0, [], []) ∧ bytesOf (Packet.empty >>= (·.pushBack 120)) = some (1, [some 120], [some 120]) := by decide +kernel

/-- "Packet from other source" (34-66) -/
example : bytesOf (Packet.ofRange (str "abcdefghijklmnopqrstu")) =
    some (21, (str "abcdefghijklmnopqrstu").map some, (str "abcdefghijklmnopqrstu").map some) := by decide +kernel

/-- "Clearing packet" (70-76) -/
example : bytesOf (Packet.ofRange [0, 1, 2, 3] >>= (·.clear)) = some (0, [], []) := by decide +kernel

/-- "Construction with size" (80-95) -/
example : (Packet.sized 10).toOption.map (·.size) = some 10 ∧
    bytesOf (Packet.filled 10 120) = some (10, List.replicate 10 (some 120), List.replicate 10 (some 120)) := by decide +kernel

/-- "Packet resizing" (99-143) -/
example : (bytesOf (Packet.ofRange [0, 1, 2, 3] >>= (·.resize 2))).map (·.2.1) = some [some 0, some 1] ∧
    (bytesOf (Packet.ofRange [0, 1, 2, 3] >>= (·.resize 10))).map (fun x => (x.1, x.2.1.take 4)) = some (10, [some 0, some 1, some 2, some 3]) ∧
    (bytesOf (Packet.ofRange [0, 1, 2, 3] >>= (·.resizeFill 2 120))).map (·.2.1) = some [some 0, some 1] ∧
    (bytesOf (Packet.ofRange [0, 1, 2, 3] >>= (·.resizeFill 10 120))).map (·.2.1) =
      some ([some 0, some 1, some 2, some 3] ++ List.replicate 6 (some 120)) := by decide +kernel

/-- "Packet serialization" (test_serialize_packet.cc:13-26) -/
example : ((Packet.ofRange (str "abcdefgh")).bind fun p => (undumpPacket (dumpPacket p)).map fun q => (q.1.size, q.1.range)).toOption =
    some (8, (str "abcdefgh").map some) := by decide +kernel

end Netcode.Conform
