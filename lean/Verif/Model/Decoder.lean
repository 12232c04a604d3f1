import Verif.Model.Wire
import Verif.Model.Matrix

/-!
# detail::decoder

Model of `netcode/detail/decoder.hh` and `netcode/detail/decoder.cc`.

Iterators into `m_repairs` kept in `m_missing_sources`, and pointers to elements of `m_sources` kept in
`m_ordered_sources`, are represented by the key of the element; dereferencing one whose element is gone is
the fault `dangling`.  The sets of iterators in `m_missing_sources` are sorted by `cmp_repairs_iterator`
(detail/decoder.hh:34-43), which dereferences the iterators it compares: searching a set that has an iterator whose
element is gone is taken to be the fault `dangling` too (`linksAlive`), whichever elements the search looks at.
-/

namespace Netcode

variable {w : Nat}

/-- A call of the callback given to `detail::decoder` (decoder.hh:160): the identifier and symbol of the
source, and the identifiers in `m_sources` at that time (what an ack sent from the callback would list). -/
structure Event where
  id : Nat
  data : List Byte
  held : List Nat
  deriving DecidableEq, Repr

/-- State of `detail::decoder` (detail/decoder.hh:144-192). `log` records the callback calls. -/
structure Dec where
  inOrder : Bool
  firstMissing : Nat
  ordered : List Nat
  repairs : OMap DRepair
  sources : OMap DSource
  lastId : Option Nat
  missing : OMap (List Nat)
  nbUseless : Nat
  nbFailed : Nat
  nbDecoded : Nat
  log : List Event
  deriving DecidableEq, Repr

/-- Constructor (detail/decoder.cc:12-29). -/
def Dec.init (inOrder : Bool) : Dec where
  inOrder := inOrder
  firstMissing := 0
  ordered := []
  repairs := []
  sources := []
  lastId := none
  missing := []
  nbUseless := 0
  nbFailed := 0
  nbDecoded := 0
  log := []

/-- Call of `m_callback`. detail/decoder.cc:254, 258. -/
def Dec.callback (s : Dec) (src : DSource) : Dec :=
  { s with log := s.log ++ [{ id := src.id, data := src.sym, held := s.sources.keys }] }

/-- Dereference of the pointer stored in `m_ordered_sources` for `id`, then callback. `flush_ordered_sources`, detail/decoder.cc:570-591. -/
def Dec.callbackOrdered (s : Dec) (id : Nat) : Out Dec :=
  match s.sources.get? id with
  | none => .error (.ub .dangling)
  | some src => .ok (s.callback src)

/-- The loop of `flush_ordered_sources` (detail/decoder.cc:578-589) on the part of `m_ordered_sources` from
the iterator on: `rest` is what remains to be scanned, its head is `*cit`. -/
def flushLoop (dbg : Bool) : List Nat → Dec → Out Dec
  | [], s => .ok s
  | id :: rest, s => do
    cassert dbg (id = s.firstMissing)
    let s ← s.callbackOrdered id
    let s := { s with ordered := s.ordered.erase id, firstMissing := (s.firstMissing + 1) % 2 ^ 32 }
    match rest with
    | [] => return s
    | nxt :: _ => if nxt > s.firstMissing then return s else flushLoop dbg rest s

/-- `flush_ordered_sources` (detail/decoder.cc:570-591). -/
def Dec.flush (dbg : Bool) (s : Dec) : Out Dec :=
  if s.firstMissing ∈ s.ordered then
    flushLoop dbg (s.ordered.dropWhile (fun k => k < s.firstMissing)) s
  else .ok s

/-- `create_source_from_repair` (detail/decoder.cc:156-178): the decoded source. The new packet is
`src_sz + 16` bytes long, so that only the read side of the region product can be out of bounds. -/
def createSource (gf : GF w) (dbg : Bool) (r : DRepair) : Out DSource := do
  cassert dbg (r.ids.length = 1)
  match r.ids with
  | [] => .error (.ub .derefEnd)
  | srcId :: _ =>
    let inv := gfInvert gf (coefficient w r.id srcId)
    let srcSz := (mulSize gf r.encSize inv).toNat
    let sym ← gfMultiply gf r.buf srcSz inv
    return { id := srcId, sym := sym }

/-- `remove_source_data_from_repair` (detail/decoder.cc:393-408). -/
def removeData (gf : GF w) (dbg : Bool) (src : DSource) (r : DRepair) : Out DRepair := do
  cassert dbg (r.ids.length > 1)
  cassert dbg (src.sym.length ≤ r.symSize)
  let c := coefficient w r.id src.id
  let buf ← gfMultiplyAdd gf src.sym r.buf src.sym.length c
  return { r with encSize := mulSize gf (BitVec.ofNat 16 src.sym.length) c ^^^ r.encSize, buf := buf }

/-- `remove_source_from_repair` (detail/decoder.cc:182-191). Erasing `end()` is undefined. -/
def removeFromRepair (gf : GF w) (dbg : Bool) (src : DSource) (r : DRepair) : Out DRepair := do
  let r ← removeData gf dbg src r
  cassert dbg (src.id ∈ r.ids)
  ensure (src.id ∈ r.ids) .derefEnd
  return { r with ids := r.ids.erase src.id }

/-- Lines 269-273 of detail/decoder.cc: remove a source from the repairs that reference it. -/
def removeFromAll (gf : GF w) (dbg : Bool) (src : DSource) : List Nat → Dec → Out Dec
  | [], s => .ok s
  | rid :: t, s =>
    match s.repairs.get? rid with
    | none => .error (.ub .dangling)
    | some r => do
      let r' ← removeFromRepair gf dbg src r
      removeFromAll gf dbg src t { s with repairs := s.repairs.modify rid (fun _ => r') }

/-- Lines 252-263 of detail/decoder.cc: the callback for a new source. -/
def Dec.giveNew (dbg : Bool) (src : DSource) (s : Dec) : Out Dec :=
  if !s.inOrder then .ok (s.callback src)
  else if src.id = s.firstMissing then
    Dec.flush dbg { s.callback src with firstMissing := (s.firstMissing + 1) % 2 ^ 32 }
  else .ok s

/-- Lines 252-277 of detail/decoder.cc: callback and removal of the new source from the repairs. -/
def addSourceHead (gf : GF w) (dbg : Bool) (src : DSource) (s : Dec) : Out Dec := do
  let s ← s.giveNew dbg src
  match s.missing.get? src.id with
  | none => return s
  | some links =>
    let s ← removeFromAll gf dbg src links s
    return { s with missing := s.missing.erase src.id }

/-- Lines 327-336 of detail/decoder.cc: insertion in `m_sources`.  When the key is present `emplace` does
nothing and the existing element is used. -/
def addSourceTail (dbg : Bool) (src : DSource) (s : Dec) : Out Dec := do
  cassert dbg (!s.sources.has src.id)
  let s := { s with sources := s.sources.emplace src.id src }
  if s.inOrder && src.id > s.firstMissing then
    return { s with ordered := setInsert s.ordered src.id }
  else return s

mutual
/-- `add_source_recursive` (detail/decoder.cc:249-337).  The first argument bounds the depth of the
recursion. -/
def addSource (gf : GF w) (dbg : Bool) : Nat → DSource → Dec → Out Dec
  | 0, _, _ => .error .fuel
  | fuel + 1, src, s => do
    let s ← addSourceHead gf dbg src s
    let s ← scanMissing gf dbg fuel (s.missing.keys.head?) s
    addSourceTail dbg src s

/-- The loop of detail/decoder.cc:281-325; the second argument is the iterator `miss_cit` (`none` is
`end()`). -/
def scanMissing (gf : GF w) (dbg : Bool) : Nat → Option Nat → Dec → Out Dec
  | _, none, s => .ok s
  | 0, some _, _ => .error .fuel
  | fuel + 1, some k, s =>
    match s.missing.get? k with
    | none => .error (.ub .dangling)
    | some [rid] =>
      match s.repairs.get? rid with
      | none => .error (.ub .dangling)
      | some r =>
        if r.ids.length = 1 then do
          -- lines 295-298
          cassert dbg (match s.lastId with | some l => decide (l ≤ r.ids.headD 0) | none => true)
          cassert dbg (!s.sources.has (r.ids.headD 0))
          -- lines 302-311
          let src ← createSource gf dbg r
          let s := { s with nbDecoded := s.nbDecoded + 1, repairs := s.repairs.erase rid,
                            missing := s.missing.erase k }
          let nxt := s.missing.next? k
          let s ← addSource gf dbg fuel src s
          scanMissing gf dbg fuel nxt s
        else scanMissing gf dbg fuel (s.missing.next? k) s
    | some _ => scanMissing gf dbg fuel (s.missing.next? k) s
end

/-- A bound on the depth of the recursion of `addSource`: one level and one scan of `m_missing_sources` per
repair held. Models no code: detail/decoder.cc:249-337 has no such counter. -/
def Dec.fuel (s : Dec) : Nat := (s.repairs.length + 2) * (s.missing.length + 3)

/-- The iterators that are compared when the sets of repairs that the sources `ids` are linked to are searched, by
`cmp_repairs_iterator` (detail/decoder.hh:34-43), all belong to repairs that are held. -/
def linksAlive (repairs : OMap DRepair) (missing : OMap (List Nat)) (ids : List Nat) : Bool :=
  ids.all (fun x => ((missing.get? x).getD []).all repairs.has)

/-- Lines 358-361 of detail/decoder.cc: unlink a repair; `find(src_id)->second` on an absent key
dereferences `end()`. -/
def unlinkAll (rid : Nat) : List Nat → OMap (List Nat) → Out (OMap (List Nat))
  | [], m => .ok m
  | x :: t, m =>
    if m.has x then unlinkAll rid t (m.modify x (fun l => l.erase rid))
    else .error (.ub .derefEnd)

/-- The loop of detail/decoder.cc:349-368 over the repairs. -/
def dropRepairs (dbg : Bool) (id : Nat) : OMap DRepair → Dec → Out Dec
  | [], s => .ok s
  | (rid, r) :: t, s => do
    cassert dbg (!r.ids.isEmpty)
    match r.ids with
    | [] => .error (.ub .derefEnd)
    | x :: _ =>
      if id > x then
        ensure (linksAlive s.repairs s.missing r.ids) .dangling
        let missing ← unlinkAll rid r.ids s.missing
        dropRepairs dbg id t { s with missing := missing, repairs := s.repairs.erase rid }
      else dropRepairs dbg id t s

/-- Lines 374-378 of detail/decoder.cc: give the withheld sources older than `id`. -/
def giveOutdated : List Nat → Dec → Out Dec
  | [], s => .ok s
  | k :: t, s => do
    let s ← s.callbackOrdered k
    giveOutdated t { s with ordered := s.ordered.erase k }

/-- Lines 370-384 of detail/decoder.cc. -/
def Dec.giveAllOutdated (dbg : Bool) (id : Nat) (s : Dec) : Out Dec :=
  if s.inOrder then do
    let s ← giveOutdated (s.ordered.takeWhile (fun k => k < id)) s
    Dec.flush dbg { s with firstMissing := if s.firstMissing < id then id else s.firstMissing }
  else .ok s

/-- `drop_outdated` (detail/decoder.cc:341-389). -/
def Dec.dropOutdated (dbg : Bool) (id : Nat) (s : Dec) : Out Dec := do
  let s := { s with lastId := some id }
  let s ← dropRepairs dbg id s.repairs s
  let s ← s.giveAllOutdated dbg id
  return { s with sources := s.sources.eraseBelow id, missing := s.missing.eraseBelow id }

/-- `m_missing_sources[src].erase(r_cit)` (detail/decoder.cc:460-463): `operator[]` creates the entry when
it is absent. -/
def unlinkOrCreate (rid : Nat) : List Nat → OMap (List Nat) → OMap (List Nat)
  | [], m => m
  | x :: t, m => unlinkOrCreate rid t ((m.emplace x []).modify x (fun l => l.erase rid))

/-- The coefficient matrix of detail/decoder.cc:430-443: storage cell (q, r) is (repair q, missing
source r). -/
def coeffMatrix (w : Nat) (repairs : OMap DRepair) (missing : OMap (List Nat)) : Mat w :=
  fun q r =>
    match repairs[q]?, missing[r]? with
    | some (rid, rep), some (x, _) => if x ∈ rep.ids then coefficient w rid x else 0#w
    | _, _ => 0#w

/-- Lines 484-497 of detail/decoder.cc: the size of the source `col`. -/
def decodeSize (gf : GF w) (inv : Mat w) (col : Nat) (reps : List DRepair) : BitVec 16 :=
  (reps.zipIdx).foldl
    (fun res (r, row) => if inv col row ≠ 0#w then mulSize gf r.encSize (inv col row) ^^^ res else res) 0

/-- Lines 520-534 of detail/decoder.cc: the symbol of the source `col`; `sym` is the (zero-filled) symbol
buffer, `first` tells that no product has been written yet. -/
def decodeSym (gf : GF w) (inv : Mat w) (col srcSz : Nat) :
    List (DRepair × Nat) → Bool → List Byte → Out (List Byte)
  | [], _, sym => .ok sym
  | (r, row) :: t, first, sym =>
    if inv col row = 0#w then decodeSym gf inv col srcSz t first sym
    else do
      let sz := min srcSz r.symSize
      if first then
        let p ← gfMultiply gf r.buf sz (inv col row)
        decodeSym gf inv col srcSz t false (p ++ sym.drop sz)
      else
        let sym ← gfMultiplyAdd gf r.buf sym sz (inv col row)
        decodeSym gf inv col srcSz t false sym

/-- Lines 484-535 of detail/decoder.cc: the size and the symbol of the source `col`. -/
def decodeOne (gf : GF w) (dbg : Bool) (inv : Mat w) (reps : List DRepair) (col : Nat) : Out (List Byte) := do
  let srcSz := (decodeSize gf inv col reps).toNat
  -- lines 506-518: some coefficient has to be non-zero, else `m_index[repair_row]` is out of bounds
  let found := (List.range reps.length).any (fun row => inv col row != 0#w)
  cassert dbg found
  ensure found .oobRead
  decodeSym gf inv col srcSz reps.zipIdx true (List.replicate srcSz 0#8)

/-- Lines 542-558 of detail/decoder.cc: the callback for a decoded source. -/
def Dec.giveDecoded (dbg : Bool) (src : DSource) (s : Dec) : Out Dec :=
  if !s.inOrder then .ok (s.callback src)
  else if src.id = s.firstMissing then
    Dec.flush dbg { s.callback src with firstMissing := (s.firstMissing + 1) % 2 ^ 32 }
  else .ok { s with ordered := setInsert s.ordered src.id }

/-- Lines 538-558 of detail/decoder.cc: insertion of a decoded source, then callback. -/
def Dec.insertDecoded (dbg : Bool) (src : DSource) (s : Dec) : Out Dec := do
  cassert dbg (!s.sources.has src.id)
  let s := { s with sources := s.sources.emplace src.id src }
  match s.sources.get? src.id with
  | none => .error (.ub .derefEnd)
  | some src => s.giveDecoded dbg src

/-- Lines 481-559 of detail/decoder.cc: the loop over the missing sources. -/
def decodeLoop (gf : GF w) (dbg : Bool) (inv : Mat w) (reps : List DRepair) :
    Nat → List Nat → Dec → Out Dec
  | _, [], s => .ok s
  | col, x :: t, s => do
    let sym ← decodeOne gf dbg inv reps col
    let s ← s.insertDecoded dbg { id := x, sym := sym }
    decodeLoop gf dbg inv reps (col + 1) t s

/-- `attempt_full_decoding` (detail/decoder.cc:412-566). -/
def Dec.fullDecode (gf : GF w) (dbg : Bool) (s : Dec) : Out Dec := do
  if s.repairs.isEmpty || s.missing.isEmpty then return s
  if s.missing.length > s.repairs.length then return s
  cassert dbg (s.missing.length = s.repairs.length)
  cassert dbg (s.missing.length > 1)
  -- rows beyond the number of missing sources would keep values of an earlier use (lines 430-443)
  ensure (s.missing.length == s.repairs.length) .staleRead
  match invert gf s.repairs.length (coeffMatrix w s.repairs s.missing) with
  | .error c =>
    -- lines 448-468
    match s.repairs[c]? with
    | none => .error (.ub .derefEnd)
    | some (rid, r) =>
      ensure (linksAlive s.repairs s.missing r.ids) .dangling
      return { s with nbFailed := s.nbFailed + 1, missing := unlinkOrCreate rid r.ids s.missing,
                      repairs := s.repairs.erase rid }
  | .ok inv =>
    let n := s.missing.length
    let s ← decodeLoop gf dbg inv (s.repairs.map (·.2)) 0 s.missing.keys s
    return { s with nbDecoded := s.nbDecoded + n, repairs := [], missing := [] }

/-- `operator()(decoder_source&&)` (detail/decoder.cc:33-50). -/
def Dec.onSource (gf : GF w) (dbg : Bool) (s : Dec) (src : DSource) : Out Dec :=
  if s.lastId.any (fun l => decide (src.id < l)) then .ok s
  else if s.sources.has src.id then .ok s
  else do
    let s ← addSource gf dbg s.fuel src s
    s.fullDecode gf dbg

/-- One iteration of the loop of detail/decoder.cc:102-130 on source identifier `x`: the repair and the
links. -/
def linkStep (gf : GF w) (dbg : Bool) (sources : OMap DSource) (st : DRepair × OMap (List Nat)) (x : Nat) :
    Out (DRepair × OMap (List Nat)) := do
  let (r, missing) := st
  match sources.get? x with
  | some src =>
    let r ← removeData gf dbg src r
    return ({ r with ids := r.ids.erase x }, missing)
  | none =>
    if missing.has x then return (r, missing.modify x (fun l => setInsert l r.id))
    else return (r, missing.emplace x [r.id])

/-- `operator()(decoder_repair&&)` (detail/decoder.cc:54-152). -/
def Dec.onRepair (gf : GF w) (dbg : Bool) (s : Dec) (r : DRepair) : Out Dec := do
  cassert dbg (!r.ids.isEmpty)
  match r.ids.getLast?, r.ids.head? with
  | some lastIn, some firstIn =>
    if s.lastId.any (fun l => decide (lastIn < l)) then return s
    if s.repairs.has r.id then return s
    let s ← s.dropOutdated dbg firstIn
    if r.ids.all (fun x => s.sources.has x) then return { s with nbUseless := s.nbUseless + 1 }
    ensure (linksAlive s.repairs s.missing (r.ids.filter (fun x => !s.sources.has x))) .dangling
    let (r, missing) ← r.ids.reverse.foldlM (linkStep gf dbg s.sources) (r, s.missing)
    cassert dbg (!r.ids.isEmpty)
    let s := { s with repairs := s.repairs.emplace r.id r, missing := missing }
    if r.ids.length = 1 then
      let src ← createSource gf dbg r
      let s := { s with nbDecoded := s.nbDecoded + 1, missing := s.missing.erase src.id,
                        repairs := s.repairs.erase r.id }
      addSource gf dbg s.fuel src s
    else s.fullDecode gf dbg
  | _, _ => .error (.ub .derefEnd)

end Netcode
