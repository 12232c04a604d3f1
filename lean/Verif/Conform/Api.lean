import Verif.Conform.Detail
import Verif.Model.System
import Verif.Model.Float

/-!
# The unit tests of the project, run on the model: tests/netcode

As `Conform/Detail.lean`, for test_encoder.cc, test_decoder.cc and test_reconstruction.cc.  Data of 32, 64, 96 or
8192 bytes are replaced by shorter ones where repairs of them are computed.
-/

namespace Netcode.Conform

variable {w : Nat}

/-- Several data committed. -/
def commitAll (gf : GF w) (dbg : Bool) (e : Enc) (l : List String) : Out Enc :=
  l.foldlM (fun e s => e.commit gf dbg (str s)) e

/-- The types of the packets emitted: `true` for sources. -/
def types (e : Enc) : List Bool := e.out.map (fun p => match p with | .source _ => true | .repair _ => false)

/-- The same according to `get_packet_type`. -/
def wireTypes (e : Enc) : List (PM PType) := e.out.map (fun p => getPacketType p.bytes)

/-- All packets have the types given, on the wire too. -/
def haveTypes (e : Enc) (l : List Bool) : Bool :=
  types e = l && (wireTypes e).length = l.length && ((wireTypes e).zip l).all (fun p =>
    match p.1 with
    | .ok .source => p.2
    | .ok .repair => !p.2
    | _ => false)

/-- Packets given to a decoder by number. -/
def feedAll (gf : GF w) (dbg : Bool) (clk : Clock) (e : Enc) (d : NDec) (l : List Nat) : Out NDec :=
  l.foldlM (fun d i =>
    match e.out[i]? with
    | none => .ok d
    | some p => do
      let (d, _) ← d.notify gf dbg clk p.bytes
      return d) d

/-- A clock that stands still. -/
def still : Clock := fun _ => 0

/-- The calls throw `packet_type_error`. -/
def throwsType {α : Type} (r : Out (α × Except CppErr Nat)) : Bool :=
  match r with
  | .ok (_, .error .packetType) => true
  | _ => false

/-! ## test_encoder.cc -/

/-- "Encoder's window size" (15-39) -/
def windowSize (gf : GF w) (dbg : Bool) : Out Bool := do
  let e ← Enc.init.setRate dbg 1
  let e1 ← commitAll gf dbg e ["xxxxxxxxxxxx"]
  let e2 ← commitAll gf dbg e1 ["xxxxxxxxxxxxxxxx"]
  let e3 ← commitAll gf dbg e2 ["xxxxxxxxxxxxxxxxxxxxxxxx"]
  return e1.window = 1 && e2.window = 2 && e3.window = 3

/-- "Encoder can limit the window size" (43-75) -/
def windowLimit (gf : GF w) (dbg : Bool) : Out Bool := do
  let e ← Enc.init.setWindowSize dbg 4
  let e ← commitAll gf dbg e ["xxxxxxxx", "xxxxxxxxxxxxxxxx", "xxxxxxxxxxxxxxxxxxxxxxxx", "xxxxxxxx", "xxxxxxxxxxxxxxxxxxxx"]
  let e1 ← commitAll gf dbg e ["xxxxxxxxxxxxxxxxxxxxxxxxxxxxxxxxxxxx"]
  return e.window = 4 && e1.window = 4

/-- "Encoder generates repairs" (79-95) -/
def generates (gf : GF w) (dbg : Bool) : Out Bool := do
  let e ← Enc.init.setRate dbg 5
  let e ← commitAll gf dbg e (List.replicate 100 "xxxx")
  return e.nbSentRepairs = 100 / 5

/-- "Encoder correctly handles new incoming packets" (99-225) -/
def incoming (gf : GF w) (dbg : Bool) : Out Bool := do
  let e ← Enc.init.setRate dbg 5
  let e ← (List.range 4).foldlM (fun e _ => e.commit gf dbg (List.replicate 512 0)) e
  -- "incoming ack" and "incoming ack 2"
  let (e1, r1) ← e.notify ieee dbg (writeAck { ids := [0, 2, 9], nbPackets := 0 }).flatten
  let (e2, r2) ← e1.notify ieee dbg (writeAck { ids := [0], nbPackets := 0 }).flatten
  let (e3, r3) ← e2.notify ieee dbg (writeAck { ids := [1], nbPackets := 0 }).flatten
  -- "incoming repair"
  let r4 := e.notify ieee dbg (writeRepair { id := 0, ids := [0, 1], encSize := 42, sym := str "x" }).flatten
  -- "incoming source"
  let r5 := e.notify ieee dbg (writeSource { id := 0, sym := [] }).flatten
  return e.window = 4 && e1.window = 2 && r1.toOption.any (· ≠ 0) && e2.window = 2 && r2.toOption.any (· ≠ 0) && e3.window = 1 &&
    r3.toOption.any (· ≠ 0) && throwsType r4 && r4.toOption.any (fun x => x.1.window = 4) && throwsType r5 && r5.toOption.any (fun x => x.1.window = 4)

/-- "Encoder sends correct sources" (229-250) -/
def sendsSources (gf : GF w) (dbg : Bool) : Out Bool := do
  let e ← commitAll gf dbg Enc.init ["ABCD"]
  let p := (e.out[0]?.map EPkt.bytes).getD []
  return p.length = 1 + 4 + 2 + 4 && p.drop 7 = str "ABCD"

/-- "Encoder sends repairs" (254-271) -/
def sendsRepairs (gf : GF w) (dbg : Bool) : Out Bool := do
  let e ← Enc.init.setRate dbg 1
  let e ← commitAll gf dbg e ["abcd"]
  return haveTypes e [true, false]

/-- "Decoder: invalid memory access scenario" (275-327) -/
def invalidAccess (gf : GF w) (dbg : Bool) : Out Bool := do
  let e ← Enc.init.setRate dbg 5
  let e ← commitAll gf dbg e ["xxxx", "yyyy", "yyyy", "yyyy", "yyyy"]
  return e.out.length = 6 && e.nbSentRepairs = 1 && e.nbSentSources = 5 && e.nbAcks = 0

/-- "Non systematic encoder" (331-375) -/
def nonSystematic (gf : GF w) (dbg : Bool) : Out Bool := do
  let e ← Enc.init.setRate dbg 3
  let e := e.setCodeType false
  let e1 ← commitAll gf dbg e ["xxxxxxxx"]
  let e2 ← commitAll gf dbg e1 ["xxxxxxxxxxxxxxxxxxxxxxxx"]
  let e3 ← commitAll gf dbg e2 ["xxxxxxxxxxxxxxxxxxxxxxxxxxxx"]
  let e4 ← commitAll gf dbg e3 ["xxxxxxxxxxxxxxxx"]
  return [e1, e2, e3, e4].map (fun e => (e.nbSentSources, e.window, e.nbSentRepairs)) = [(0, 1, 1), (0, 2, 2), (0, 3, 4), (0, 4, 5)] &&
    haveTypes e4 [false, false, false, false, false]

/-- "Encoder rejects sources and repairs" (379-405) -/
def encRejects (_ : GF w) (dbg : Bool) : Out Bool :=
  return throwsType (Enc.init.notify ieee dbg (writeRepair { id := 42, ids := [0, 1], encSize := 54, sym := List.replicate 1024 120 }).flatten) &&
    throwsType (Enc.init.notify ieee dbg (writeSource { id := 394839, sym := str "abcd" }).flatten) &&
    throwsType (Enc.init.notify ieee dbg [33, 35, 1, 0])

/-- "Encoder adapts rate automatically" (409-447) -/
def adapts (gf : GF w) (dbg : Bool) : Out Bool := do
  let e ← Enc.init.setRate dbg 1
  let e := e.setAdaptive true
  let e ← commitAll gf dbg e (List.replicate 100 "xxxx")
  let (e1, r1) ← e.notify ieee dbg (writeAck { ids := List.range 100, nbPackets := 200 }).flatten
  let e2 ← commitAll gf dbg e1 (List.replicate 100 "xxxx")
  let (e3, r3) ← e2.notify ieee dbg (writeAck { ids := (List.range 50).map (fun i => 100 + 2 * i), nbPackets := 50 }).flatten
  return e.window = 100 && e.rate = 1 && r1.toBool && e1.window = 0 && e1.rate = 50 && e2.window = 100 && r3.toBool && e3.rate = 1

example : launch windowSize = true := by decide +kernel
example : launch windowLimit = true := by decide +kernel
example : launch incoming = true := by decide +kernel
example : launch sendsSources = true := by decide +kernel
example : launch sendsRepairs = true := by decide +kernel
example : launch invalidAccess = true := by decide +kernel
example : launch nonSystematic = true := by decide +kernel
example : launch encRejects = true := by decide +kernel
example : passes (generates gf4 true) = true := by decide +kernel
example : passes (generates gf8 true) = true := by decide +kernel
example : passes (generates gf16 true) = true := by decide +kernel
example : passes (generates gf32 true) = true := by decide +kernel
example : passes (adapts gf8 true) = true := by decide +kernel

/-! ## test_decoder.cc -/

/-- "Decoder gives a correct source to user" (20-43) -/
def givesSource (gf : GF w) (dbg : Bool) : Out Bool := do
  let e ← commitAll gf dbg Enc.init ["abcd"]
  let d ← feedAll gf dbg still e (NDec.init still true) [0]
  return d.data = [str "abcd"]

/-- "Decoder repairs a lost source" (47-74) -/
def repairsLost (gf : GF w) (dbg : Bool) : Out Bool := do
  let e ← Enc.init.setRate dbg 1
  let e ← commitAll gf dbg e ["abcd"]
  let d ← feedAll gf dbg still e (NDec.init still true) [1]
  return d.nbRepairs = 1 && d.nbSources = 0 && d.det.nbDecoded = 1 && d.data = [str "abcd"]

/-- "Decoder generate correct ack" (78-125); the clock of "Wait for trigger" jumps by 200 ms before the call. -/
def correctAck (gf : GF w) (dbg : Bool) : Out Bool := do
  let e ← Enc.init.setRate dbg 100
  let clk : Clock := fun n => if n ≤ 1 then 0 else 200000000
  let d := (NDec.init clk true).setAckPeriod 100
  let e ← commitAll gf dbg e ["abcd"]
  let d ← feedAll gf dbg clk e d [0]
  -- "Force ack"
  let d1 := d.generateAck
  let (e1, _) ← e.notify ieee dbg ((d1.out[0]?.map (fun a => (writeAck a).flatten)).getD [])
  -- "Wait for trigger"
  let d2 := d.maybeAck clk
  let (e2, _) ← e.notify ieee dbg ((d2.out[0]?.map (fun a => (writeAck a).flatten)).getD [])
  return e.window = 1 && d.nbAcks = 0 && d1.nbAcks = 1 && e1.window = 0 && d2.nbAcks = 1 && e2.window = 0

/-- "Decoder generate acks when N packets are received" (129-167) -/
def ackEvery (gf : GF w) (dbg : Bool) : Out Bool := do
  let e ← Enc.init.setRate dbg 100
  let d := (NDec.init still true).setAckPeriod 0
  let d ← d.setAckNb dbg 4
  let e ← commitAll gf dbg e ["abcdefgi", "abcdefgi", "abcdefgi", "abcdefgi"]
  let d ← feedAll gf dbg still e d [0, 1, 2, 3]
  return e.window = 4 && haveTypes e [true, true, true, true] && d.out.length = 1

/-- "In order decoder" and "Out of order decoder: lost packet with an encoder's limited window" (171-234) -/
def limited (io : Bool) (gf : GF w) (dbg : Bool) : Out Bool := do
  let e ← Enc.init.setRate dbg 4
  let e ← e.setWindowSize dbg 3
  let d := (NDec.init still io).setAckPeriod 0
  let e ← commitAll gf dbg e ["aaaa", "bbbb", "cccccccc", "dddd"]
  let d ← feedAll gf dbg still e d [1, 2, 3, 4]
  return e.window = 3 && haveTypes e [true, true, true, true, false] && d.nbSources = 3 && d.nbRepairs = 1 && d.det.missing.length = 0 &&
    d.det.nbDecoded = 0 && d.data = [str "bbbb", str "cccccccc", str "dddd"]

/-- "In order decoder" and "Out of order decoder: non systematic code" (238-345), for the sizes 8 and 16 (the suite leaves out 4; 32 takes too long here) -/
def nonSys (io : Bool) (gf : GF w) (dbg : Bool) : Out Bool := do
  let e ← Enc.init.setRate dbg 4
  let e := e.setCodeType false
  let d := (NDec.init still io).setAckPeriod 0
  let e ← commitAll gf dbg e ["aaaa", "bbbbbbbb", "cccccccccccc", "dddd"]
  let ds ← [[1, 2, 3, 4], [0, 1, 3, 4], [0, 1, 2, 3]].mapM (feedAll gf dbg still e d)
  return haveTypes e [false, false, false, false, false] && ds.all (fun d => d.nbSources = 0 && d.nbRepairs = 4 && d.det.missing.length = 0 &&
    d.det.nbDecoded = 4 && d.data = [str "aaaa", str "bbbbbbbb", str "cccccccccccc", str "dddd"])

/-- "Decoder invalid read scenario" (349-398) -/
def invalidRead (gf : GF w) (dbg : Bool) : Out Bool := do
  let e ← Enc.init.setRate dbg 3
  let e := e.setCodeType false
  let d := (NDec.init still true).setAckPeriod 0
  let e ← commitAll gf dbg e ["aaaa", "bbbb", "cccc"]
  let d ← feedAll gf dbg still e d [1, 2, 3]
  return haveTypes e [false, false, false, false] && d.nbSources = 0 && d.nbRepairs = 3 && d.det.nbDecoded = 3 &&
    d.data = [str "aaaa", str "bbbb", str "cccc"]

/-- "In order decoder" (402-497) -/
def inOrder (gf : GF w) (dbg : Bool) : Out Bool := do
  let e ← Enc.init.setRate dbg 4
  let d := (NDec.init still true).setAckPeriod 0
  let e ← commitAll gf dbg e ["aaaa", "bbbb", "cccc", "dddd"]
  -- "Wrong order of sources"
  let d1 ← feedAll gf dbg still e d [0, 3, 1, 2, 4]
  -- "Reverse order of sources"
  let d2 ← feedAll gf dbg still e d [3, 2, 1, 0, 4]
  -- "Repair in middle"
  let d3 ← feedAll gf dbg still e d [0, 4, 3, 1, 2]
  return haveTypes e [true, true, true, true, false] && [d1, d2, d3].map (fun d => d.det.nbDecoded) = [0, 0, 1] &&
    [d1, d2, d3].all (fun d => d.nbSources = 4 && d.nbRepairs = 1 && d.det.missing.length = 0 &&
      d.data = [str "aaaa", str "bbbb", str "cccc", str "dddd"])

/-- "In order decoder, missing sources" (501-673) -/
def inOrderMissing (gf : GF w) (dbg : Bool) : Out Bool := do
  let e ← Enc.init.setWindowSize dbg 3
  let e ← e.setRate dbg 3
  let d := (NDec.init still true).setAckPeriod 0
  let e ← commitAll gf dbg e ["aaaa", "bbbbbbbbbbbbbbbb", "cccccccc", "dddd", "eeeeeeeeeeee", "ffff"]
  -- "Right order"
  let d0 ← feedAll gf dbg still e d [0, 3]
  let d1 ← feedAll gf dbg still e d0 [4, 5, 6, 7]
  -- "Wrong order 1"
  let d2 ← feedAll gf dbg still e d [0, 4, 5, 6, 7, 3]
  -- "Wrong order 2"
  let d3 ← feedAll gf dbg still e d [4, 5, 6, 7, 3, 0]
  -- "Wrong order 3"
  let d4 ← feedAll gf dbg still e d [5, 6, 7, 3, 0, 4]
  -- "Outdated sources"
  let d5 ← feedAll gf dbg still e d [1, 2, 4, 5, 6, 7]
  let tail := [str "dddd", str "eeeeeeeeeeee", str "ffff"]
  return haveTypes e [true, true, true, false, true, true, true, false] && d0.det.missing.length = 2 &&
    [d1, d2, d3, d4, d5].map (fun d => (d.nbSources, d.nbRepairs, d.det.missing.length, d.det.nbDecoded)) =
      [(4, 2, 0, 0), (4, 2, 0, 0), (4, 2, 0, 0), (4, 2, 0, 1), (5, 1, 0, 0)] &&
    [d1, d2, d3, d4, d5].map (fun d => d.data) =
      [str "aaaa" :: tail, str "aaaa" :: tail, tail, tail, str "bbbbbbbbbbbbbbbb" :: str "cccccccc" :: tail]

/-- "Decoder rejects ack" (677-698) -/
def decRejects (gf : GF w) (dbg : Bool) : Out Bool :=
  return throwsType ((NDec.init still true).notify gf dbg still (writeAck { ids := [0, 1, 2, 3], nbPackets := 33 }).flatten) &&
    throwsType ((NDec.init still true).notify gf dbg still [33, 35, 1, 0])

example : launch givesSource = true := by decide +kernel
example : launch repairsLost = true := by decide +kernel
example : launch correctAck = true := by decide +kernel
example : launch ackEvery = true := by decide +kernel
example : launch (limited true) = true := by decide +kernel
example : launch (limited false) = true := by decide +kernel
example : ([true, false].all fun io => [true, false].all fun dbg => passes (nonSys io gf8 dbg)) = true := by decide +kernel
example : ([true, false].all fun io => passes (nonSys io gf16 true)) = true := by decide +kernel
example : launch invalidRead = true := by decide +kernel
example : launch inOrder = true := by decide +kernel
example : launch inOrderMissing = true := by decide +kernel
example : launch decRejects = true := by decide +kernel

end Netcode.Conform
