import Verif.Model.ByteOrder

/-!
# A decoder on a machine whose numbers begin with the most significant byte

The functions of `Model/Decoder.lean` and `Model/NDecoder.lean` that multiply regions or sizes, directly or not, with the operations of
`Model/ByteOrder.lean`.  The coefficients and the matrix (detail/decoder.cc:430-443, detail/invert_matrix.cc) are numbers of the machine, not bytes.
-/

namespace Netcode

variable {w : Nat}

/-- On a machine of the other byte order: `create_source_from_repair` (detail/decoder.cc:156-178): the decoded source. The new packet is
`src_sz + 16` bytes long, so that only the read side of the region product can be out of bounds. -/
def createSourceBE (gf : GF w) (dbg : Bool) (r : DRepair) : Out DSource := do
  cassert dbg (r.ids.length = 1)
  match r.ids with
  | [] => .error (.ub .derefEnd)
  | srcId :: _ =>
    let inv := gfInvert gf (coefficient w r.id srcId)
    let srcSz := (mulSizeBE gf r.encSize inv).toNat
    let sym ← gfMultiplyBE gf r.buf srcSz inv
    return { id := srcId, sym := sym }

/-- On a machine of the other byte order: `remove_source_data_from_repair` (detail/decoder.cc:393-408). -/
def removeDataBE (gf : GF w) (dbg : Bool) (src : DSource) (r : DRepair) : Out DRepair := do
  cassert dbg (r.ids.length > 1)
  cassert dbg (src.sym.length ≤ r.symSize)
  let c := coefficient w r.id src.id
  let buf ← gfMultiplyAddBE gf src.sym r.buf src.sym.length c
  return { r with encSize := mulSizeBE gf (BitVec.ofNat 16 src.sym.length) c ^^^ r.encSize, buf := buf }

/-- On a machine of the other byte order: `remove_source_from_repair` (detail/decoder.cc:182-191). Erasing `end()` is undefined. -/
def removeFromRepairBE (gf : GF w) (dbg : Bool) (src : DSource) (r : DRepair) : Out DRepair := do
  let r ← removeDataBE gf dbg src r
  cassert dbg (src.id ∈ r.ids)
  ensure (src.id ∈ r.ids) .derefEnd
  return { r with ids := r.ids.erase src.id }

/-- On a machine of the other byte order: Lines 269-273 of detail/decoder.cc: remove a source from the repairs that reference it. -/
def removeFromAllBE (gf : GF w) (dbg : Bool) (src : DSource) : List Nat → Dec → Out Dec
  | [], s => .ok s
  | rid :: t, s =>
    match s.repairs.get? rid with
    | none => .error (.ub .dangling)
    | some r => do
      let r' ← removeFromRepairBE gf dbg src r
      removeFromAllBE gf dbg src t { s with repairs := s.repairs.modify rid (fun _ => r') }

/-- On a machine of the other byte order: Lines 252-277 of detail/decoder.cc: callback and removal of the new source from the repairs. -/
def addSourceHeadBE (gf : GF w) (dbg : Bool) (src : DSource) (s : Dec) : Out Dec := do
  let s ← s.giveNew dbg src
  match s.missing.get? src.id with
  | none => return s
  | some links =>
    let s ← removeFromAllBE gf dbg src links s
    return { s with missing := s.missing.erase src.id }

mutual
/-- On a machine of the other byte order: `add_source_recursive` (detail/decoder.cc:249-337).  The first argument bounds the depth of the
recursion. -/
def addSourceBE (gf : GF w) (dbg : Bool) : Nat → DSource → Dec → Out Dec
  | 0, _, _ => .error .fuel
  | fuel + 1, src, s => do
    let s ← addSourceHeadBE gf dbg src s
    let s ← scanMissingBE gf dbg fuel (s.missing.keys.head?) s
    addSourceTail dbg src s

/-- On a machine of the other byte order: The loop of detail/decoder.cc:281-325; the second argument is the iterator `miss_cit` (`none` is
`end()`). -/
def scanMissingBE (gf : GF w) (dbg : Bool) : Nat → Option Nat → Dec → Out Dec
  | _, none, s => .ok s
  | 0, some _, _ => .error .fuel
  | fuel + 1, some k, s =>
    match s.missing.get? k with
    | none => .error (.ub .dangling)
    | some [rid] =>
      match s.repairs.get? rid with
      | none => .error (.ub .dangling)
      | some r =>
        if r.ids.length = 1 then do
          -- lines 295-298
          cassert dbg (match s.lastId with | some l => decide (l ≤ r.ids.headD 0) | none => true)
          cassert dbg (!s.sources.has (r.ids.headD 0))
          -- lines 302-311
          let src ← createSourceBE gf dbg r
          let s := { s with nbDecoded := s.nbDecoded + 1, repairs := s.repairs.erase rid,
                            missing := s.missing.erase k }
          let nxt := s.missing.next? k
          let s ← addSourceBE gf dbg fuel src s
          scanMissingBE gf dbg fuel nxt s
        else scanMissingBE gf dbg fuel (s.missing.next? k) s
    | some _ => scanMissingBE gf dbg fuel (s.missing.next? k) s
end

/-- On a machine of the other byte order: Lines 484-497 of detail/decoder.cc: the size of the source `col`. -/
def decodeSizeBE (gf : GF w) (inv : Mat w) (col : Nat) (reps : List DRepair) : BitVec 16 :=
  (reps.zipIdx).foldl
    (fun res (r, row) => if inv col row ≠ 0#w then mulSizeBE gf r.encSize (inv col row) ^^^ res else res) 0

/-- On a machine of the other byte order: Lines 520-534 of detail/decoder.cc: the symbol of the source `col`; `sym` is the (zero-filled) symbol
buffer, `first` tells that no product has been written yet. -/
def decodeSymBE (gf : GF w) (inv : Mat w) (col srcSz : Nat) :
    List (DRepair × Nat) → Bool → List Byte → Out (List Byte)
  | [], _, sym => .ok sym
  | (r, row) :: t, first, sym =>
    if inv col row = 0#w then decodeSymBE gf inv col srcSz t first sym
    else do
      let sz := min srcSz r.symSize
      if first then
        let p ← gfMultiplyBE gf r.buf sz (inv col row)
        decodeSymBE gf inv col srcSz t false (p ++ sym.drop sz)
      else
        let sym ← gfMultiplyAddBE gf r.buf sym sz (inv col row)
        decodeSymBE gf inv col srcSz t false sym

/-- On a machine of the other byte order: Lines 484-535 of detail/decoder.cc: the size and the symbol of the source `col`. -/
def decodeOneBE (gf : GF w) (dbg : Bool) (inv : Mat w) (reps : List DRepair) (col : Nat) : Out (List Byte) := do
  let srcSz := (decodeSizeBE gf inv col reps).toNat
  -- lines 506-518: some coefficient has to be non-zero, else `m_index[repair_row]` is out of bounds
  let found := (List.range reps.length).any (fun row => inv col row != 0#w)
  cassert dbg found
  ensure found .oobRead
  decodeSymBE gf inv col srcSz reps.zipIdx true (List.replicate srcSz 0#8)

/-- On a machine of the other byte order: Lines 481-559 of detail/decoder.cc: the loop over the missing sources. -/
def decodeLoopBE (gf : GF w) (dbg : Bool) (inv : Mat w) (reps : List DRepair) :
    Nat → List Nat → Dec → Out Dec
  | _, [], s => .ok s
  | col, x :: t, s => do
    let sym ← decodeOneBE gf dbg inv reps col
    let s ← s.insertDecoded dbg { id := x, sym := sym }
    decodeLoopBE gf dbg inv reps (col + 1) t s

/-- On a machine of the other byte order: `attempt_full_decoding` (detail/decoder.cc:412-566). -/
def Dec.fullDecodeBE (gf : GF w) (dbg : Bool) (s : Dec) : Out Dec := do
  if s.repairs.isEmpty || s.missing.isEmpty then return s
  if s.missing.length > s.repairs.length then return s
  cassert dbg (s.missing.length = s.repairs.length)
  cassert dbg (s.missing.length > 1)
  -- rows beyond the number of missing sources would keep values of an earlier use (lines 430-443)
  ensure (s.missing.length == s.repairs.length) .staleRead
  match invert gf s.repairs.length (coeffMatrix w s.repairs s.missing) with
  | .error c =>
    -- lines 448-468
    match s.repairs[c]? with
    | none => .error (.ub .derefEnd)
    | some (rid, r) =>
      ensure (linksAlive s.repairs s.missing r.ids) .dangling
      return { s with nbFailed := s.nbFailed + 1, missing := unlinkOrCreate rid r.ids s.missing,
                      repairs := s.repairs.erase rid }
  | .ok inv =>
    let n := s.missing.length
    let s ← decodeLoopBE gf dbg inv (s.repairs.map (·.2)) 0 s.missing.keys s
    return { s with nbDecoded := s.nbDecoded + n, repairs := [], missing := [] }

/-- On a machine of the other byte order: `operator()(decoder_source&&)` (detail/decoder.cc:33-50). -/
def Dec.onSourceBE (gf : GF w) (dbg : Bool) (s : Dec) (src : DSource) : Out Dec :=
  if s.lastId.any (fun l => decide (src.id < l)) then .ok s
  else if s.sources.has src.id then .ok s
  else do
    let s ← addSourceBE gf dbg s.fuel src s
    s.fullDecodeBE gf dbg

/-- On a machine of the other byte order: One iteration of the loop of detail/decoder.cc:102-130 on source identifier `x`: the repair and the
links. -/
def linkStepBE (gf : GF w) (dbg : Bool) (sources : OMap DSource) (st : DRepair × OMap (List Nat)) (x : Nat) :
    Out (DRepair × OMap (List Nat)) := do
  let (r, missing) := st
  match sources.get? x with
  | some src =>
    let r ← removeDataBE gf dbg src r
    return ({ r with ids := r.ids.erase x }, missing)
  | none =>
    if missing.has x then return (r, missing.modify x (fun l => setInsert l r.id))
    else return (r, missing.emplace x [r.id])

/-- On a machine of the other byte order: `operator()(decoder_repair&&)` (detail/decoder.cc:54-152). -/
def Dec.onRepairBE (gf : GF w) (dbg : Bool) (s : Dec) (r : DRepair) : Out Dec := do
  cassert dbg (!r.ids.isEmpty)
  match r.ids.getLast?, r.ids.head? with
  | some lastIn, some firstIn =>
    if s.lastId.any (fun l => decide (lastIn < l)) then return s
    if s.repairs.has r.id then return s
    let s ← s.dropOutdated dbg firstIn
    if r.ids.all (fun x => s.sources.has x) then return { s with nbUseless := s.nbUseless + 1 }
    ensure (linksAlive s.repairs s.missing (r.ids.filter (fun x => !s.sources.has x))) .dangling
    let (r, missing) ← r.ids.reverse.foldlM (linkStepBE gf dbg s.sources) (r, s.missing)
    cassert dbg (!r.ids.isEmpty)
    let s := { s with repairs := s.repairs.emplace r.id r, missing := missing }
    if r.ids.length = 1 then
      let src ← createSourceBE gf dbg r
      let s := { s with nbDecoded := s.nbDecoded + 1, missing := s.missing.erase src.id,
                        repairs := s.repairs.erase r.id }
      addSourceBE gf dbg s.fuel src s
    else s.fullDecodeBE gf dbg
  | _, _ => .error (.ub .derefEnd)

/-- On a machine of the other byte order: `operator()(packet&&)` (decoder.hh:87-122): the number of bytes read or the exception thrown. -/
def NDec.notifyBE (gf : GF w) (dbg : Bool) (clk : Clock) (d : NDec) (p : List Byte) :
    Out (NDec × Except CppErr Nat) := do
  cassert dbg (p.length ≠ 0)
  match getPacketType p with
  | .error (.fault f) => .error f
  | .error (.cpp x) => return (d, .error x)
  | .ok .repair =>
    let d := { d with nbRepairs := d.nbRepairs + 1, ackPackets := (d.ackPackets + 1) % 2 ^ 16 }
    match readRepair p with
    | .error (.fault f) => .error f
    | .error (.cpp x) => return (d, .error x)
    | .ok (r, n) =>
      let det' ← d.det.onRepairBE gf dbg r
      return (d.afterDet clk det', .ok n)
  | .ok .source =>
    let d := { d with nbSources := d.nbSources + 1, ackPackets := (d.ackPackets + 1) % 2 ^ 16 }
    match readSource p with
    | .error (.fault f) => .error f
    | .error (.cpp x) => return (d, .error x)
    | .ok (s, n) =>
      let det' ← d.det.onSourceBE gf dbg s
      return (d.afterDet clk det', .ok n)
  | .ok .ack => return (d, .error .packetType)

/-- One step of an encoder (`eb`) and a decoder (`db`), each of which may be on a machine of the other byte order: packets
(detail/packetizer.hh:229-262) and everything else do not depend on it. -/
def Sys.stepOrd (eb db : Bool) (c : Cfg w) (s : Sys) : Act → Out Sys
  | .deliver i =>
    if db then
      match s.enc.out[i]? with
      | none => return s
      | some p => do
        let (d, r) ← s.dec.notifyBE c.gf c.dbg c.clk p.bytes
        return { s with dec := d, hist := s.hist ++ [i], errs := s.errs + errCount r }
    else s.step c (.deliver i)
  | a => if eb then s.stepBE c a else s.step c a

/-- A run. Models no code: a fold of `Sys.stepOrd`. -/
def Sys.runOrd (eb db : Bool) (c : Cfg w) (s : Sys) (acts : List Act) : Out Sys := acts.foldlM (Sys.stepOrd eb db c) s

end Netcode
