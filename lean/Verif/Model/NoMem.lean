import Verif.Model.System

/-!
# Programs that run out of memory

The calls of `ntc::encoder` allocate memory: a node of the list of sources (source_list.hh, `emplace_back`), the symbol and the list of identifiers
of a repair (detail/encoder.cc:25-27, 45-53), the list of identifiers of an ack (packetizer.hh, `read_source_ids`).  Each of these may
throw `std::bad_alloc`, which nothing in the library catches.  This is the code of `Model/Encoder.lean` for calls in which one
allocation fails.

Simplifications: the copy made by `operator()(const data&)` and `operator()(const packet&)` (encoder.hh:80-84, 99-103) is not here: it comes first, and if it fails nothing was
done.  `m_repair`, which is reused from call to call, is not part of the state: `reset()`, the assignment of `id()` and the first assignment of
`encoded_size()` overwrite whatever an exception left in it.  Of the allocations of a decoder only some are here: the list of sources of a repair that is read, the
links from missing sources to a repair that arrived, the node for a source that arrived, and the list of sources of an ack.
-/

namespace Netcode

variable {w : Nat}

/-- Which allocation of a call fails: none, that of the node of the list of sources, one of those for the first repair of the call, one of those for
the automatic repair of a commit, that of identifier number `k` of an ack of the decoder. source_list.hh, `emplace` (encoder.hh:263); detail/encoder.cc:25-53
(encoder.hh:273, 280); decoder.hh:219. -/
inductive Mem where
  | none | node | first | second
  | ids (k : Nat)
  deriving DecidableEq, Repr

/-- `generate_repair` and `mk_repair` (encoder.hh:162-169, 321-333) when an allocation fails (`t`): `m_encoder(m_repair, m_sources)` throws, before
anything but `m_repair` was changed.  The first source is looked at before any allocation (detail/encoder.cc:17-25).  The result tells whether
`bad_alloc` leaves the call. -/
def Enc.generateRepairM (gf : GF w) (dbg t : Bool) (e : Enc) : Out (Enc × Bool) :=
  if t then do
    cassert dbg (e.sources ≠ [])
    ensure (!e.sources.isEmpty) .derefEnd
    return (e, true)
  else do
    let e ← e.generateRepair gf dbg
    return (e, false)

/-- Lines 265-275 of encoder.hh.  A source packet needs no memory (packetizer.hh, `write_source`). -/
def Enc.emitNewM (gf : GF w) (dbg t : Bool) (src : ESource) (e : Enc) : Out (Enc × Bool) :=
  if e.systematic then do
    let e ← e.emitNew gf dbg src
    return (e, false)
  else e.generateRepairM gf dbg t

/-- Lines 278-281 of encoder.hh. -/
def Enc.autoRepairM (gf : GF w) (dbg t : Bool) (e : Enc) : Out (Enc × Bool) := do
  ensure (e.rate != 0) .divZero
  if (e.curSrc + 1) % 2 ^ 32 % e.rate = 0 then e.generateRepairM gf dbg t else return (e, false)

/-- `operator()(data&&)` (encoder.hh:87-96) and `commit_impl` (encoder.hh:252-285) when the allocation `m` fails.  The oldest source leaves a full window
(lines 257-260) before the node of the new one is allocated (line 263). -/
def Enc.commitM (gf : GF w) (dbg : Bool) (m : Mem) (e : Enc) (d : List Byte) : Out (Enc × Bool) := do
  cassert dbg (d.length ≠ 0)
  cassert dbg (w ≠ 16 ∨ d.length % 2 = 0)
  cassert dbg (w ≠ 32 ∨ d.length % 4 = 0)
  ensure (!(e.sources.length == e.windowSize && e.sources.isEmpty)) .derefEnd
  let window := if e.sources.length = e.windowSize then e.sources.tail else e.sources
  if m = .node then return ({ e with sources := window }, true)
  let src : ESource := { id := e.curSrc, sym := d }
  let (e, x) ← Enc.emitNewM gf dbg (decide (m = .first)) src { e with sources := window ++ [src] }
  if x then return (e, true)
  let (e, x) ← e.autoRepairM gf dbg (decide (m = .second))
  if x then return (e, true)
  return ({ e with curSrc := (e.curSrc + 1) % 2 ^ 32 }, false)

/-- `operator()(packet&&)` and `notify_impl` (encoder.hh:106-111, 287-318) when the list of identifiers of the ack cannot be allocated: `read_ack` throws,
after line 296.  A packet that is no ack is rejected before that.  `none` stands for `bad_alloc`. -/
def Enc.notifyM (F : F64) (dbg t : Bool) (e : Enc) (p : List Byte) : Out (Enc × Option (Except CppErr Nat)) :=
  if t && (match getPacketType p with | .ok .ack => true | _ => false) then do
    cassert dbg (p.length ≠ 0)
    return ({ e with nbAcks := e.nbAcks + 1 }, none)
  else do
    let (e, r) ← e.notify F dbg p
    return (e, some r)

/-- `operator()(packet&&)` (decoder.hh:87-122) for a repair whose list of sources cannot be allocated: `read_repair` throws, after the counters were
incremented. -/
def NDec.repairM (dbg : Bool) (d : NDec) (p : List Byte) : Out NDec := do
  cassert dbg (p.length ≠ 0)
  return { d with nbRepairs := d.nbRepairs + 1, ackPackets := (d.ackPackets + 1) % 2 ^ 16 }

/-- `generate_ack` (decoder.hh:212-228) when there is no memory for the identifier number `k` of the sources (line 219): the ones before it are in
`m_ack`. -/
def NDec.generateAckM (k : Nat) (d : NDec) : NDec := { d with ackIds := (d.det.sources.keys.take k).foldl setInsert d.ackIds }

/-- `maybe_ack` called by the user (decoder.hh:230-248) when `generate_ack`, if it is called, runs out of memory: the date of the last ack stays. -/
def NDec.maybeAckM (clk : Clock) (k : Nat) (d : NDec) : NDec :=
  if d.ackPackets ≥ d.ackNb then d.generateAckM k
  else if d.ackPeriod ≠ 0 then
    let now := clk d.ticks
    let d := { d with ticks := d.ticks + 1 }
    if now - d.lastAck ≥ d.ackPeriod * 1000000 then d.generateAckM k else d
  else d

/-- One step of the closed system (`Sys.step`), when the allocation `m` of the encoder fails, or, if a packet arrives, that of the
list of sources of a repair, or, if the user asks for an ack, that of its list (no other one of a decoder).  A datum counts as committed once it is in the window; a packet for which there was no memory does not count as arrived.
encoder.hh:80-111, 162-169; decoder.hh:212-248. -/
def Sys.stepM (c : Cfg w) (s : Sys) : Act × Mem → Out Sys
  | (.commit d, m) => do
    let (e, _) ← s.enc.commitM c.gf c.dbg m d
    return { s with enc := e, committed := if m = .node then s.committed else s.committed ++ [d] }
  | (.repair, m) => do
    let (e, _) ← s.enc.generateRepairM c.gf c.dbg (decide (m ≠ .none))
    return { s with enc := e }
  | (.ack i, m) =>
    match s.dec.out[i]? with
    | none => return s
    | some a => do
      let (e, r) ← s.enc.notifyM c.F c.dbg (decide (m ≠ .none)) (writeAck a).flatten
      return { s with enc := e, errs := s.errs + (match r with | none => 0 | some r => errCount r) }
  | (.deliver i, m) =>
    match s.enc.out[i]? with
    | some (.repair r) =>
      if m = .none then s.step c (.deliver i)
      else do
        let d ← s.dec.repairM c.dbg (EPkt.repair r).bytes
        return { s with dec := d }
    | _ => s.step c (.deliver i)
  | (.genAck, .ids k) => return { s with dec := s.dec.generateAckM k }
  | (.maybeAck, .ids k) => return { s with dec := s.dec.maybeAckM c.clk k }
  | (a, _) => s.step c a

/-- A run in which allocations may fail. Models no code: a fold. -/
def Sys.runM (c : Cfg w) (s : Sys) (acts : List (Act × Mem)) : Out Sys := acts.foldlM (Sys.stepM c) s

/-! ## The decoder -/

/-- `operator()(decoder_source&&)` (detail/decoder.cc:33-50) when there is no memory for the node of `m_sources` (line 329) in the outermost call of
`add_source_recursive` (detail/decoder.cc:249-337).  The result tells whether `bad_alloc` leaves the call. -/
def Dec.onSourceM (gf : GF w) (dbg : Bool) (s : Dec) (src : DSource) : Out (Dec × Bool) :=
  if s.lastId.any (fun l => decide (src.id < l)) then .ok (s, false)
  else if s.sources.has src.id then .ok (s, false)
  else
    match s.fuel with
    | 0 => .error .fuel
    | fuel + 1 => do
      let s ← addSourceHead gf dbg src s
      let s ← scanMissing gf dbg fuel (s.missing.keys.head?) s
      return (s, true)

/-- `operator()(decoder_repair&&)` (detail/decoder.cc:54-152) when there is no memory to link the repair with a missing source (lines 122, 127): the loop of
lines 102-130 ends after `k` identifiers.  The repair is in `m_repairs` by then (line 93).  The `k`-th identifier from the end is one of a source that
was not received, for otherwise there is no allocation. -/
def Dec.onRepairM (gf : GF w) (dbg : Bool) (k : Nat) (s : Dec) (r : DRepair) : Out (Dec × Bool) := do
  cassert dbg (!r.ids.isEmpty)
  match r.ids.getLast?, r.ids.head? with
  | some lastIn, some firstIn =>
    if s.lastId.any (fun l => decide (lastIn < l)) then return (s, false)
    if s.repairs.has r.id then return (s, false)
    let s ← s.dropOutdated dbg firstIn
    if r.ids.all (fun x => s.sources.has x) then return ({ s with nbUseless := s.nbUseless + 1 }, false)
    ensure (linksAlive s.repairs s.missing (r.ids.filter (fun x => !s.sources.has x))) .dangling
    let (r, missing) ← (r.ids.reverse.take k).foldlM (linkStep gf dbg s.sources) (r, s.missing)
    return ({ s with repairs := s.repairs.emplace r.id r, missing := missing }, true)
  | _, _ => .error (.ub .derefEnd)

/-- `operator()(packet&&)` (decoder.hh:87-122) for a repair that cannot be linked with all missing sources. -/
def NDec.linkM (gf : GF w) (dbg : Bool) (clk : Clock) (k : Nat) (d : NDec) (p : List Byte) : Out (NDec × Bool) := do
  cassert dbg (p.length ≠ 0)
  let d := { d with nbRepairs := d.nbRepairs + 1, ackPackets := (d.ackPackets + 1) % 2 ^ 16 }
  match readRepair p with
  | .error (.fault f) => .error f
  | .error (.cpp _) => return (d, false)
  | .ok (r, _) =>
    let (det', x) ← d.det.onRepairM gf dbg k r
    return (d.afterDet clk det', x)

end Netcode
