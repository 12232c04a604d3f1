import Verif.Model.NoMem

/-!
# Decoders that run out of memory while they decode

`attempt_full_decoding` (detail/decoder.cc:412-566) allocates the two matrices, the index of the repairs, and a buffer for each source that it decodes.
This is the code of `Model/Decoder.lean` for a repair that completes a set of repairs, when one of these allocations fails.

Simplification: the node of `m_sources` for a decoded source (line 538) always finds memory, and so do the nodes of the map of sources that wait for their turn (line 557).
-/

namespace Netcode

variable {w : Nat}

/-- `attempt_full_decoding` (detail/decoder.cc:412-566) when there is no memory: with `none` for a matrix (lines 430, 446), with `some k` for the
index of the repairs (`k = 0`, line 474), or for the symbol of the source number `k` of the missing ones (lines 503-505).  The repairs and the missing sources are removed
only after the loop (lines 561-565).  The result tells whether `bad_alloc` leaves the call. -/
def Dec.fullDecodeM (gf : GF w) (dbg : Bool) (k : Option Nat) (s : Dec) : Out (Dec × Bool) := do
  if s.repairs.isEmpty || s.missing.isEmpty then return (s, false)
  if s.missing.length > s.repairs.length then return (s, false)
  cassert dbg (s.missing.length = s.repairs.length)
  cassert dbg (s.missing.length > 1)
  match k with
  | none => return (s, true)
  | some k =>
    ensure (s.missing.length == s.repairs.length) .staleRead
    match invert gf s.repairs.length (coeffMatrix w s.repairs s.missing) with
    | .error _ =>
      let s ← s.fullDecode gf dbg
      return (s, false)
    | .ok inv =>
      let s ← decodeLoop gf dbg inv (s.repairs.map (·.2)) 0 (s.missing.keys.take k) s
      return (s, true)

/-- `operator()(decoder_repair&&)` (detail/decoder.cc:54-152) when the only allocation that fails is one in `attempt_full_decoding` (line 151). -/
def Dec.onRepairD (gf : GF w) (dbg : Bool) (k : Option Nat) (s : Dec) (r : DRepair) : Out (Dec × Bool) := do
  cassert dbg (!r.ids.isEmpty)
  match r.ids.getLast?, r.ids.head? with
  | some lastIn, some firstIn =>
    if s.lastId.any (fun l => decide (lastIn < l)) then return (s, false)
    if s.repairs.has r.id then return (s, false)
    let s ← s.dropOutdated dbg firstIn
    if r.ids.all (fun x => s.sources.has x) then return ({ s with nbUseless := s.nbUseless + 1 }, false)
    ensure (linksAlive s.repairs s.missing (r.ids.filter (fun x => !s.sources.has x))) .dangling
    let (r, missing) ← r.ids.reverse.foldlM (linkStep gf dbg s.sources) (r, s.missing)
    cassert dbg (!r.ids.isEmpty)
    let s := { s with repairs := s.repairs.emplace r.id r, missing := missing }
    if r.ids.length = 1 then
      let src ← createSource gf dbg r
      let s := { s with nbDecoded := s.nbDecoded + 1, missing := s.missing.erase src.id,
                        repairs := s.repairs.erase r.id }
      let s ← addSource gf dbg s.fuel src s
      return (s, false)
    else s.fullDecodeM gf dbg k
  | _, _ => .error (.ub .derefEnd)

/-- How a call ends in which there is no memory for the symbol of a source that is rebuilt from one repair: it does not need any, or `std::terminate` is called
because `create_source_from_repair` is `noexcept` (detail/decoder.cc:156-158, 170). -/
inductive Rebuild where
  | done (d : NDec)
  | terminate

/-- `operator()(decoder_repair&&)` (detail/decoder.cc:54-152) when there is no memory for a source that is rebuilt from this repair alone (line 137): the state in
which `create_source_from_repair` is called, or the end of a call that does not get there. -/
def Dec.onRepairS (gf : GF w) (dbg : Bool) (s : Dec) (r : DRepair) : Out (Option Dec) := do
  cassert dbg (!r.ids.isEmpty)
  match r.ids.getLast?, r.ids.head? with
  | some lastIn, some firstIn =>
    if s.lastId.any (fun l => decide (lastIn < l)) then return (some s)
    if s.repairs.has r.id then return (some s)
    let s ← s.dropOutdated dbg firstIn
    if r.ids.all (fun x => s.sources.has x) then return (some { s with nbUseless := s.nbUseless + 1 })
    ensure (linksAlive s.repairs s.missing (r.ids.filter (fun x => !s.sources.has x))) .dangling
    let (r, missing) ← r.ids.reverse.foldlM (linkStep gf dbg s.sources) (r, s.missing)
    cassert dbg (!r.ids.isEmpty)
    let s := { s with repairs := s.repairs.emplace r.id r, missing := missing }
    if r.ids.length = 1 then return none
    else
      let s ← s.fullDecode gf dbg
      return (some s)
  | _, _ => .error (.ub .derefEnd)

/-- `operator()(packet&&)` (decoder.hh:87-122) for a repair, when there is no memory for a source that is rebuilt from it. -/
def NDec.rebuildM (gf : GF w) (dbg : Bool) (clk : Clock) (d : NDec) (p : List Byte) : Out Rebuild := do
  cassert dbg (p.length ≠ 0)
  let d := { d with nbRepairs := d.nbRepairs + 1, ackPackets := (d.ackPackets + 1) % 2 ^ 16 }
  match readRepair p with
  | .error (.fault f) => .error f
  | .error (.cpp _) => return .done d
  | .ok (r, _) =>
    match ← d.det.onRepairS gf dbg r with
    | none => return .terminate
    | some det' => return .done (d.afterDet clk det')

/-- `operator()(packet&&)` (decoder.hh:87-122) for a repair, when an allocation in `attempt_full_decoding` fails. -/
def NDec.decodeM (gf : GF w) (dbg : Bool) (clk : Clock) (k : Option Nat) (d : NDec) (p : List Byte) : Out (NDec × Bool) := do
  cassert dbg (p.length ≠ 0)
  let d := { d with nbRepairs := d.nbRepairs + 1, ackPackets := (d.ackPackets + 1) % 2 ^ 16 }
  match readRepair p with
  | .error (.fault f) => .error f
  | .error (.cpp _) => return (d, false)
  | .ok (r, _) =>
    let (det', x) ← d.det.onRepairD gf dbg k r
    return (d.afterDet clk det', x)

end Netcode
