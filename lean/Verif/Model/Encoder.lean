import Verif.Model.Wire
import Verif.Model.GF

/-!
# Encoder

Model of `netcode/detail/encoder.cc`, `netcode/detail/source_list.hh` and `netcode/encoder.hh`.
`dbg` tells whether assertions are compiled in.
-/

namespace Netcode

variable {w : Nat}

/-! ## detail::encoder -/

/-- One iteration of the loop of detail/encoder.cc:40-63. -/
def encodeStep (gf : GF w) (r : ERepair) (s : ESource) : Out ERepair := do
  -- lines 42-46 (`zero_byte_buffer::resize` zero-fills)
  let sym := if s.size > r.sym.length then r.sym ++ List.replicate (s.size - r.sym.length) 0#8 else r.sym
  -- line 49
  let c := coefficient w r.id s.id
  -- line 55
  let sym ← gfMultiplyAdd gf s.sym sym s.size c
  -- lines 52 and 57-60
  return { r with ids := setInsert r.ids s.id, sym := sym,
                  encSize := mulSize gf (BitVec.ofNat 16 s.size) c ^^^ r.encSize }

/-- `detail::encoder::operator()` (detail/encoder.cc:15-64) on a freshly reset repair
(detail/repair.hh:95-104).  The symbol is resized to the size of the first source and overwritten by the
product (lines 25, 34). -/
def encodeRepair (gf : GF w) (dbg : Bool) (id : Nat) (sources : List ESource) : Out ERepair :=
  match sources with
  | [] => if dbg then .error .assertion else .error (.ub .derefEnd)
  | s :: t => do
    let c := coefficient w id s.id
    let sym ← gfMultiply gf s.sym s.size c
    t.foldlM (encodeStep gf)
      { id := id, ids := [s.id], sym := sym, encSize := mulSize gf (BitVec.ofNat 16 s.size) c }

/-! ## detail::source_list -/

/-- `source_list::erase` (detail/source_list.hh:33-60): simultaneous traversal of the sources and of the
identifiers to erase (both supposed sorted by the code). -/
def eraseIds : List ESource → List Nat → List ESource
  | [], _ => []
  | s :: t, [] => s :: t
  | s :: t, i :: u =>
    if s.id = i then eraseIds t u
    else if s.id > i then eraseIds (s :: t) u
    else s :: eraseIds t (i :: u)
termination_by s i => s.length + i.length

/-! ## Adaptive rate -/

/-- Double precision arithmetic, represented by its rounding function. encoder.hh:300-307, 338-344. -/
structure F64 where
  rnd : Rat → Rat

/-- The loss rate (encoder.hh:304-305): `(m_nb_sent_packets - nb) / double(m_nb_sent_packets)`,
the subtraction being done on `int`. -/
def lossRate (F : F64) (sent nb : Nat) : Rat := F.rnd (((sent : Rat) - (nb : Rat)) / (sent : Rat))

/-- `rate_for_loss` (encoder.hh:336-344); the literal `0.01` is the double nearest to 1/100. -/
def rateForLoss (F : F64) (loss : Rat) : Nat :=
  if loss < F.rnd (1 / 100) then 50 else (F.rnd (F.rnd (1 / loss) / 2)).ceil.toNat

/-! ## ntc::encoder -/

/-- A packet given to the packet handler of an encoder: what `write_source` or `write_repair` was called
with. packetizer.hh:91-122, 166-183. -/
inductive EPkt where
  | source (s : ESource)
  | repair (r : ERepair)
  deriving DecidableEq, Repr

/-- The chunks the packet handler receives (encoder.hh:270, 331). -/
def EPkt.chunks : EPkt → Chunks
  | .source s => writeSource s
  | .repair r => writeRepair r

/-- The bytes on the wire. packetizer.hh:244-258. -/
def EPkt.bytes (p : EPkt) : List Byte := p.chunks.flatten

/-- State of `ntc::encoder` (encoder.hh:346-400).  `out` is the log of the packets given to the packet
handler. -/
structure Enc where
  systematic : Bool
  rate : Nat
  windowSize : Nat
  adaptive : Bool
  curSrc : Nat
  curRep : Nat
  sources : List ESource
  nbSentRepairs : Nat
  nbAcks : Nat
  nbSentSources : Nat
  nbSentPackets : Nat
  out : List EPkt
  deriving DecidableEq, Repr

/-- Constructor (encoder.hh:51-77). -/
def Enc.init : Enc where
  systematic := true
  rate := 5
  windowSize := 2 ^ 64 - 1
  adaptive := false
  curSrc := 0
  curRep := 0
  sources := []
  nbSentRepairs := 0
  nbAcks := 0
  nbSentSources := 0
  nbSentPackets := 0
  out := []

/-- `generate_repair` and `mk_repair` (encoder.hh:162-169, 321-333); `write_repair` asserts that the
symbol is not empty (packetizer.hh:93). -/
def Enc.generateRepair (gf : GF w) (dbg : Bool) (e : Enc) : Out Enc := do
  let r ← encodeRepair gf dbg e.curRep e.sources
  cassert dbg (0 < r.sym.length)
  return { e with
    curRep := (e.curRep + 1) % 2 ^ 32
    nbSentRepairs := e.nbSentRepairs + 1
    nbSentPackets := (e.nbSentPackets + 1) % 2 ^ 16
    out := e.out ++ [.repair r] }

/-- What a commit emits at once (encoder.hh:265-275): the source packet, or a repair when the code is not
systematic. -/
def Enc.emitNew (gf : GF w) (dbg : Bool) (src : ESource) (e : Enc) : Out Enc :=
  if e.systematic then
    .ok { e with
      nbSentSources := e.nbSentSources + 1
      nbSentPackets := (e.nbSentPackets + 1) % 2 ^ 16
      out := e.out ++ [.source src] }
  else e.generateRepair gf dbg

/-- The automatic repair (encoder.hh:278-281). -/
def Enc.autoRepair (gf : GF w) (dbg : Bool) (e : Enc) : Out Enc := do
  ensure (e.rate != 0) .divZero
  if (e.curSrc + 1) % 2 ^ 32 % e.rate = 0 then e.generateRepair gf dbg else .ok e

/-- `operator()(data&&)` (encoder.hh:87-96) and `commit_impl` (encoder.hh:252-285). -/
def Enc.commit (gf : GF w) (dbg : Bool) (e : Enc) (d : List Byte) : Out Enc := do
  cassert dbg (d.length ≠ 0)
  cassert dbg (w ≠ 16 ∨ d.length % 2 = 0)
  cassert dbg (w ≠ 32 ∨ d.length % 4 = 0)
  -- lines 257-260; `pop_front` on an empty list is undefined
  ensure (!(e.sources.length == e.windowSize && e.sources.isEmpty)) .derefEnd
  let window := if e.sources.length = e.windowSize then e.sources.tail else e.sources
  -- line 263
  let src : ESource := { id := e.curSrc, sym := d }
  let e ← Enc.emitNew gf dbg src { e with sources := window ++ [src] }
  let e ← e.autoRepair gf dbg
  -- line 284
  return { e with curSrc := (e.curSrc + 1) % 2 ^ 32 }

/-- `operator()(packet&&)` and `notify_impl` (encoder.hh:106-111, 287-318).  The result is the number of
bytes read or the exception thrown, next to the state of the encoder at that time. -/
def Enc.notify (F : F64) (dbg : Bool) (e : Enc) (p : List Byte) : Out (Enc × Except CppErr Nat) := do
  cassert dbg (p.length ≠ 0)
  match getPacketType p with
  | .error (.fault f) => .error f
  | .error (.cpp x) => return (e, .error x)
  | .ok .ack =>
    let e := { e with nbAcks := e.nbAcks + 1 }
    match readAck p with
    | .error (.fault f) => .error f
    | .error (.cpp x) => return (e, .error x)
    | .ok (a, n) =>
      let rate :=
        if e.adaptive then
          if e.nbSentPackets > 0 then rateForLoss F (lossRate F e.nbSentPackets a.nbPackets)
          else rateForLoss F 0
        else e.rate
      return ({ e with rate := rate, nbSentPackets := 0, sources := eraseIds e.sources a.ids }, .ok n)
  | .ok _ => return (e, .error .packetType)

/-- `set_code_type` (encoder.hh:180-187) -/
def Enc.setCodeType (e : Enc) (s : Bool) : Enc := { e with systematic := s }
/-- `set_rate` (encoder.hh:198-206) -/
def Enc.setRate (dbg : Bool) (e : Enc) (r : Nat) : Out Enc := do
  cassert dbg (0 < r)
  return { e with rate := r }
/-- `set_window_size` (encoder.hh:218-226) -/
def Enc.setWindowSize (dbg : Bool) (e : Enc) (n : Nat) : Out Enc := do
  cassert dbg (0 < n)
  return { e with windowSize := n }
/-- `set_adaptive` (encoder.hh:236-242) -/
def Enc.setAdaptive (e : Enc) (b : Bool) : Enc := { e with adaptive := b }
/-- `window()` (encoder.hh:114-119) -/
def Enc.window (e : Enc) : Nat := e.sources.length

end Netcode
