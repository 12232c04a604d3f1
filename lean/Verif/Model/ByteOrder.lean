import Verif.Model.System

/-!
# Machines whose numbers begin with the most significant byte

`detail/packetizer.hh` converts all numbers from and to big-endian order, so that machines of both byte orders can talk to each other.  But
gf-complete multiplies regions word by word, as the machine reads words from memory, and so does `multiply_size` for fields of 4 and 8 bits
with the two bytes of a size.  These are the functions of `Model/GF.lean` and `Model/Encoder.lean` on such a machine; those of
`Model/Decoder.lean` are in `Model/ByteOrderDec.lean`.
-/

namespace Netcode

variable {w : Nat}

/-- Reverse each group of `k` bytes. How a machine of the other byte order reads a region (galois_field.hh:66-92). -/
def swapWords (k : Nat) : Nat → List Byte → List Byte
  | 0, l => l
  | n + 1, l => if l = [] then [] else (l.take k).reverse ++ swapWords k n (l.drop k)

/-- The order of the bytes of all words of a region reversed; words of 4 and 8 bits have none. galois_field.hh:66-92. -/
def swapped (w : Nat) (l : List Byte) : List Byte := swapWords (max 1 (w / 8)) l.length l

/-- `multiply_region.w32` on such a machine (compare `mulRegion`) -/
def mulRegionBE (gf : GF w) (c : BitVec w) (src : List Byte) : List Byte := swapped w (mulRegion gf c (swapped w src))

/-- `galois_field::multiply` (galois_field.hh:66-77) on such a machine -/
def gfMultiplyBE (gf : GF w) (src : List Byte) (len : Nat) (c : BitVec w) : Out (List Byte) := do
  ensure (len ≤ src.length) .oobRead
  ensure (8 * len % w == 0) .misaligned
  return mulRegionBE gf c (src.take len)

/-- `galois_field::multiply_add` (galois_field.hh:81-92) on such a machine -/
def gfMultiplyAddBE (gf : GF w) (src dst : List Byte) (len : Nat) (c : BitVec w) : Out (List Byte) := do
  ensure (len ≤ src.length) .oobRead
  ensure (len ≤ dst.length) .oobWrite
  ensure (8 * len % w == 0) .misaligned
  return xorPrefix dst (mulRegionBE gf c (src.take len))

/-- `galois_field::multiply_size` (galois_field.hh:96-120) on such a machine: the first byte of the size in memory is the most significant
one. -/
def mulSizeBE (gf : GF w) (size : BitVec 16) (c : BitVec w) : BitVec 16 :=
  if size = 0 ∨ c = 0 then 0
  else if w ≤ 8 then
    BitVec.ofNat 16 (leNat (mulRegionBE gf c (leBytes 2 size.toNat).reverse).reverse)
  else (gf.mul (size.setWidth w) c).setWidth 16

/-- One iteration of the loop of detail/encoder.cc:40-63 on such a machine -/
def encodeStepBE (gf : GF w) (r : ERepair) (s : ESource) : Out ERepair := do
  let sym := if s.size > r.sym.length then r.sym ++ List.replicate (s.size - r.sym.length) 0#8 else r.sym
  let c := coefficient w r.id s.id
  let sym ← gfMultiplyAddBE gf s.sym sym s.size c
  return { r with ids := setInsert r.ids s.id, sym := sym,
                  encSize := mulSizeBE gf (BitVec.ofNat 16 s.size) c ^^^ r.encSize }

/-- `detail::encoder::operator()` (detail/encoder.cc:15-64) on such a machine -/
def encodeRepairBE (gf : GF w) (dbg : Bool) (id : Nat) (sources : List ESource) : Out ERepair :=
  match sources with
  | [] => if dbg then .error .assertion else .error (.ub .derefEnd)
  | s :: t => do
    let c := coefficient w id s.id
    let sym ← gfMultiplyBE gf s.sym s.size c
    t.foldlM (encodeStepBE gf)
      { id := id, ids := [s.id], sym := sym, encSize := mulSizeBE gf (BitVec.ofNat 16 s.size) c }

/-- `generate_repair` and `mk_repair` (encoder.hh:162-169, 321-333) on such a machine (compare `Enc.generateRepair`) -/
def Enc.generateRepairBE (gf : GF w) (dbg : Bool) (e : Enc) : Out Enc := do
  let r ← encodeRepairBE gf dbg e.curRep e.sources
  cassert dbg (0 < r.sym.length)
  return { e with
    curRep := (e.curRep + 1) % 2 ^ 32
    nbSentRepairs := e.nbSentRepairs + 1
    nbSentPackets := (e.nbSentPackets + 1) % 2 ^ 16
    out := e.out ++ [.repair r] }

/-- encoder.hh:265-275 on such a machine (compare `Enc.emitNew`) -/
def Enc.emitNewBE (gf : GF w) (dbg : Bool) (src : ESource) (e : Enc) : Out Enc :=
  if e.systematic then
    .ok { e with
      nbSentSources := e.nbSentSources + 1
      nbSentPackets := (e.nbSentPackets + 1) % 2 ^ 16
      out := e.out ++ [.source src] }
  else e.generateRepairBE gf dbg

/-- encoder.hh:278-281 on such a machine (compare `Enc.autoRepair`) -/
def Enc.autoRepairBE (gf : GF w) (dbg : Bool) (e : Enc) : Out Enc := do
  ensure (e.rate != 0) .divZero
  if (e.curSrc + 1) % 2 ^ 32 % e.rate = 0 then e.generateRepairBE gf dbg else .ok e

/-- encoder.hh:87-96 and 252-285 on such a machine (compare `Enc.commit`) -/
def Enc.commitBE (gf : GF w) (dbg : Bool) (e : Enc) (d : List Byte) : Out Enc := do
  cassert dbg (d.length ≠ 0)
  cassert dbg (w ≠ 16 ∨ d.length % 2 = 0)
  cassert dbg (w ≠ 32 ∨ d.length % 4 = 0)
  ensure (!(e.sources.length == e.windowSize && e.sources.isEmpty)) .derefEnd
  let window := if e.sources.length = e.windowSize then e.sources.tail else e.sources
  let src : ESource := { id := e.curSrc, sym := d }
  let e ← Enc.emitNewBE gf dbg src { e with sources := window ++ [src] }
  let e ← e.autoRepairBE gf dbg
  return { e with curSrc := (e.curSrc + 1) % 2 ^ 32 }

/-- One step of an encoder on such a machine and a decoder on a little-endian one: packets (detail/packetizer.hh:229-262) and everything else
do not depend on the order of bytes. -/
def Sys.stepBE (c : Cfg w) (s : Sys) : Act → Out Sys
  | .commit d => do
    let e ← s.enc.commitBE c.gf c.dbg d
    return { s with enc := e, committed := s.committed ++ [d] }
  | .repair => do
    let e ← s.enc.generateRepairBE c.gf c.dbg
    return { s with enc := e }
  | a => s.step c a

end Netcode
