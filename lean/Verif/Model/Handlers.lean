import Verif.Model.System

/-!
# Handlers that throw

`ntc::encoder` and `ntc::decoder` call the user's handlers in the middle of their work.  This is the same code as in
`Model/Encoder.lean`, `Model/Decoder.lean` and `Model/NDecoder.lean`, for handlers that may throw an exception; nothing in the library
catches it.  `Proofs/Handlers.lean` shows that with handlers that do not throw it is the same model.

Simplification: the exceptions considered are those of the packet handler of the encoder and those of the data handler of the decoder;
the packet handler of the decoder (acks) is supposed not to throw; that is the subject of `Model/AckThrow.lean`.
-/

namespace Netcode

variable {w : Nat}

/-! ## The encoder -/

/-- `generate_repair` and `mk_repair` (encoder.hh:162-169, 321-333) when the packet handler throws (`t`) or not while it is given the
packet.  The packet is then not sent, and everything before `write_repair` is done.  The result tells whether the exception
leaves the call. -/
def Enc.generateRepairH (gf : GF w) (dbg : Bool) (t : Bool) (e : Enc) : Out (Enc × Bool) := do
  let r ← encodeRepair gf dbg e.curRep e.sources
  cassert dbg (0 < r.sym.length)
  let e := { e with
    curRep := (e.curRep + 1) % 2 ^ 32
    nbSentRepairs := e.nbSentRepairs + 1
    nbSentPackets := (e.nbSentPackets + 1) % 2 ^ 16 }
  if t then return (e, true)
  return ({ e with out := e.out ++ [.repair r] }, false)

/-- Lines 265-275 of encoder.hh. -/
def Enc.emitNewH (gf : GF w) (dbg : Bool) (t : Bool) (src : ESource) (e : Enc) : Out (Enc × Bool) :=
  if e.systematic then
    let e := { e with
      nbSentSources := e.nbSentSources + 1
      nbSentPackets := (e.nbSentPackets + 1) % 2 ^ 16 }
    if t then .ok (e, true) else .ok ({ e with out := e.out ++ [.source src] }, false)
  else e.generateRepairH gf dbg t

/-- `operator()(data&&)` (encoder.hh:87-96) and `commit_impl` (encoder.hh:252-285); `t1` and `t2` tell whether the packet handler throws
while it is given the first and the second packet of the call. -/
def Enc.commitH (gf : GF w) (dbg : Bool) (t1 t2 : Bool) (e : Enc) (d : List Byte) : Out (Enc × Bool) := do
  cassert dbg (d.length ≠ 0)
  cassert dbg (w ≠ 16 ∨ d.length % 2 = 0)
  cassert dbg (w ≠ 32 ∨ d.length % 4 = 0)
  ensure (!(e.sources.length == e.windowSize && e.sources.isEmpty)) .derefEnd
  let window := if e.sources.length = e.windowSize then e.sources.tail else e.sources
  let src : ESource := { id := e.curSrc, sym := d }
  let (e, x) ← Enc.emitNewH gf dbg t1 src { e with sources := window ++ [src] }
  if x then return (e, true)
  ensure (e.rate != 0) .divZero
  let (e, x) ← if (e.curSrc + 1) % 2 ^ 32 % e.rate = 0 then e.generateRepairH gf dbg t2 else .ok (e, false)
  if x then return (e, true)
  return ({ e with curSrc := (e.curSrc + 1) % 2 ^ 32 }, false)

/-! ## detail::decoder -/

/-- Why a function of `detail::decoder` does not return: a fault, a call of `std::terminate`, or an exception of the user's handler,
which leaves the decoder as it is at that time. Models no code: how the functions of detail/decoder.cc:33-595 may end. -/
inductive Exit where
  | fault (f : Fault)
  | terminate
  | thrown (s : Dec)
  deriving DecidableEq, Repr

/-- Result of a function that may call the user's handler. Models no code. -/
abbrev XOut (α : Type) := Except Exit α

/-- A function that does not call the handler. Models no code. -/
def Out.x {α : Type} (a : Out α) : XOut α :=
  match a with
  | .ok a => .ok a
  | .error f => .error (.fault f)

/-- `H n` tells whether the `n`-th call of the data handler throws. `m_data_handler` of decoder.hh:296. -/
abbrev DHandler := Nat → Bool

/-- Call of `m_callback`. detail/decoder.cc:254, 258. -/
def Dec.callbackH (H : DHandler) (s : Dec) (src : DSource) : XOut Dec :=
  if H s.log.length then .error (.thrown (s.callback src)) else .ok (s.callback src)

/-- Dereference of the pointer stored in `m_ordered_sources` for `id`, then callback. detail/decoder.cc:570-591. -/
def Dec.callbackOrderedH (H : DHandler) (s : Dec) (id : Nat) : XOut Dec :=
  match s.sources.get? id with
  | none => .error (.fault (.ub .dangling))
  | some src => s.callbackH H src

/-- The loop of `flush_ordered_sources` (detail/decoder.cc:578-589). -/
def flushLoopH (H : DHandler) (dbg : Bool) : List Nat → Dec → XOut Dec
  | [], s => .ok s
  | id :: rest, s => do
    (cassert dbg (id = s.firstMissing)).x
    let s ← s.callbackOrderedH H id
    let s := { s with ordered := s.ordered.erase id, firstMissing := (s.firstMissing + 1) % 2 ^ 32 }
    match rest with
    | [] => return s
    | nxt :: _ => if nxt > s.firstMissing then return s else flushLoopH H dbg rest s

/-- `flush_ordered_sources` (detail/decoder.cc:570-591). -/
def Dec.flushH (H : DHandler) (dbg : Bool) (s : Dec) : XOut Dec :=
  if s.firstMissing ∈ s.ordered then
    flushLoopH H dbg (s.ordered.dropWhile (fun k => k < s.firstMissing)) s
  else .ok s

/-- Lines 252-263 of detail/decoder.cc. -/
def Dec.giveNewH (H : DHandler) (dbg : Bool) (src : DSource) (s : Dec) : XOut Dec :=
  if !s.inOrder then s.callbackH H src
  else if src.id = s.firstMissing then do
    let s ← s.callbackH H src
    Dec.flushH H dbg { s with firstMissing := (s.firstMissing + 1) % 2 ^ 32 }
  else .ok s

/-- Lines 252-277 of detail/decoder.cc. -/
def addSourceHeadH (gf : GF w) (H : DHandler) (dbg : Bool) (src : DSource) (s : Dec) : XOut Dec := do
  let s ← s.giveNewH H dbg src
  match s.missing.get? src.id with
  | none => return s
  | some links =>
    let s ← (removeFromAll gf dbg src links s).x
    return { s with missing := s.missing.erase src.id }

mutual
/-- `add_source_recursive` (detail/decoder.cc:249-337). -/
def addSourceH (gf : GF w) (H : DHandler) (dbg : Bool) : Nat → DSource → Dec → XOut Dec
  | 0, _, _ => .error (.fault .fuel)
  | fuel + 1, src, s => do
    let s ← addSourceHeadH gf H dbg src s
    let s ← scanMissingH gf H dbg fuel (s.missing.keys.head?) s
    (addSourceTail dbg src s).x

/-- The loop of detail/decoder.cc:281-325. -/
def scanMissingH (gf : GF w) (H : DHandler) (dbg : Bool) : Nat → Option Nat → Dec → XOut Dec
  | _, none, s => .ok s
  | 0, some _, _ => .error (.fault .fuel)
  | fuel + 1, some k, s =>
    match s.missing.get? k with
    | none => .error (.fault (.ub .dangling))
    | some [rid] =>
      match s.repairs.get? rid with
      | none => .error (.fault (.ub .dangling))
      | some r =>
        if r.ids.length = 1 then do
          (cassert dbg (match s.lastId with | some l => decide (l ≤ r.ids.headD 0) | none => true)).x
          (cassert dbg (!s.sources.has (r.ids.headD 0))).x
          let src ← (createSource gf dbg r).x
          let s := { s with nbDecoded := s.nbDecoded + 1, repairs := s.repairs.erase rid,
                            missing := s.missing.erase k }
          let nxt := s.missing.next? k
          let s ← addSourceH gf H dbg fuel src s
          scanMissingH gf H dbg fuel nxt s
        else scanMissingH gf H dbg fuel (s.missing.next? k) s
    | some _ => scanMissingH gf H dbg fuel (s.missing.next? k) s
end

/-- Lines 374-378 of detail/decoder.cc. -/
def giveOutdatedH (H : DHandler) : List Nat → Dec → XOut Dec
  | [], s => .ok s
  | k :: t, s => do
    let s ← s.callbackOrderedH H k
    giveOutdatedH H t { s with ordered := s.ordered.erase k }

/-- Lines 370-384 of detail/decoder.cc. -/
def Dec.giveAllOutdatedH (H : DHandler) (dbg : Bool) (id : Nat) (s : Dec) : XOut Dec :=
  if s.inOrder then do
    let s ← giveOutdatedH H (s.ordered.takeWhile (fun k => k < id)) s
    Dec.flushH H dbg { s with firstMissing := if s.firstMissing < id then id else s.firstMissing }
  else .ok s

/-- A `noexcept` function: an exception that would leave it ends the program. detail/decoder.cc:158, 184. -/
def noexcept {α : Type} (a : XOut α) : XOut α :=
  match a with
  | .error (.thrown _) => .error .terminate
  | a => a

/-- `drop_outdated` (detail/decoder.cc:341-389), which is `noexcept` (line 343). -/
def Dec.dropOutdatedH (H : DHandler) (dbg : Bool) (id : Nat) (s : Dec) : XOut Dec := noexcept do
  let s := { s with lastId := some id }
  let s ← (dropRepairs dbg id s.repairs s).x
  let s ← s.giveAllOutdatedH H dbg id
  return { s with sources := s.sources.eraseBelow id, missing := s.missing.eraseBelow id }

/-- Lines 542-558 of detail/decoder.cc. -/
def Dec.giveDecodedH (H : DHandler) (dbg : Bool) (src : DSource) (s : Dec) : XOut Dec :=
  if !s.inOrder then s.callbackH H src
  else if src.id = s.firstMissing then do
    let s ← s.callbackH H src
    Dec.flushH H dbg { s with firstMissing := (s.firstMissing + 1) % 2 ^ 32 }
  else .ok { s with ordered := setInsert s.ordered src.id }

/-- Lines 538-558 of detail/decoder.cc. -/
def Dec.insertDecodedH (H : DHandler) (dbg : Bool) (src : DSource) (s : Dec) : XOut Dec := do
  (cassert dbg (!s.sources.has src.id)).x
  let s := { s with sources := s.sources.emplace src.id src }
  match s.sources.get? src.id with
  | none => .error (.fault (.ub .derefEnd))
  | some src => s.giveDecodedH H dbg src

/-- Lines 481-559 of detail/decoder.cc. -/
def decodeLoopH (gf : GF w) (H : DHandler) (dbg : Bool) (inv : Mat w) (reps : List DRepair) :
    Nat → List Nat → Dec → XOut Dec
  | _, [], s => .ok s
  | col, x :: t, s => do
    let sym ← (decodeOne gf dbg inv reps col).x
    let s ← s.insertDecodedH H dbg { id := x, sym := sym }
    decodeLoopH gf H dbg inv reps (col + 1) t s

/-- `attempt_full_decoding` (detail/decoder.cc:412-566). -/
def Dec.fullDecodeH (gf : GF w) (H : DHandler) (dbg : Bool) (s : Dec) : XOut Dec := do
  if s.repairs.isEmpty || s.missing.isEmpty then return s
  if s.missing.length > s.repairs.length then return s
  (cassert dbg (s.missing.length = s.repairs.length)).x
  (cassert dbg (s.missing.length > 1)).x
  (ensure (s.missing.length == s.repairs.length) .staleRead).x
  match invert gf s.repairs.length (coeffMatrix w s.repairs s.missing) with
  | .error c =>
    match s.repairs[c]? with
    | none => .error (.fault (.ub .derefEnd))
    | some (rid, r) =>
      (ensure (linksAlive s.repairs s.missing r.ids) .dangling).x
      return { s with nbFailed := s.nbFailed + 1, missing := unlinkOrCreate rid r.ids s.missing,
                      repairs := s.repairs.erase rid }
  | .ok inv =>
    let n := s.missing.length
    let s ← decodeLoopH gf H dbg inv (s.repairs.map (·.2)) 0 s.missing.keys s
    return { s with nbDecoded := s.nbDecoded + n, repairs := [], missing := [] }

/-- `operator()(decoder_source&&)` (detail/decoder.cc:33-50). -/
def Dec.onSourceH (gf : GF w) (H : DHandler) (dbg : Bool) (s : Dec) (src : DSource) : XOut Dec :=
  if s.lastId.any (fun l => decide (src.id < l)) then .ok s
  else if s.sources.has src.id then .ok s
  else do
    let s ← addSourceH gf H dbg s.fuel src s
    s.fullDecodeH gf H dbg

/-- `operator()(decoder_repair&&)` (detail/decoder.cc:54-152). -/
def Dec.onRepairH (gf : GF w) (H : DHandler) (dbg : Bool) (s : Dec) (r : DRepair) : XOut Dec := do
  (cassert dbg (!r.ids.isEmpty)).x
  match r.ids.getLast?, r.ids.head? with
  | some lastIn, some firstIn =>
    if s.lastId.any (fun l => decide (lastIn < l)) then return s
    if s.repairs.has r.id then return s
    let s ← s.dropOutdatedH H dbg firstIn
    if r.ids.all (fun x => s.sources.has x) then return { s with nbUseless := s.nbUseless + 1 }
    (ensure (linksAlive s.repairs s.missing (r.ids.filter (fun x => !s.sources.has x))) .dangling).x
    let (r, missing) ← (r.ids.reverse.foldlM (linkStep gf dbg s.sources) (r, s.missing)).x
    (cassert dbg (!r.ids.isEmpty)).x
    let s := { s with repairs := s.repairs.emplace r.id r, missing := missing }
    if r.ids.length = 1 then
      let src ← (createSource gf dbg r).x
      let s := { s with nbDecoded := s.nbDecoded + 1, missing := s.missing.erase src.id,
                        repairs := s.repairs.erase r.id }
      addSourceH gf H dbg s.fuel src s
    else s.fullDecodeH gf H dbg
  | _, _ => .error (.fault (.ub .derefEnd))

/-! ## ntc::decoder -/

/-- What the caller of `decoder(packet)` gets back: the number of bytes read, an exception of the library or the exception of the data
handler. decoder.hh:88-122. -/
inductive HRes where
  | read (n : Nat)
  | cpp (x : CppErr)
  | user
  deriving DecidableEq, Repr

/-- Why the program does not go on. Models no code. -/
inductive Stop where
  | fault (f : Fault)
  | terminate
  deriving DecidableEq, Repr

/-- The end of `decoder(packet)` (decoder.hh:99-115) after `detail::decoder` returned or threw; the last callback is then the one that
threw, in which `maybe_ack` was not called (decoder.hh:290-300). -/
def NDec.afterDetH (clk : Clock) (d : NDec) (n : Nat) (x : XOut Dec) : Except Stop (NDec × HRes) :=
  match x with
  | .ok det' => .ok (d.afterDet clk det', .read n)
  | .error (.fault f) => .error (.fault f)
  | .error .terminate => .error .terminate
  | .error (.thrown det') =>
    let evs := det'.log.drop d.det.log.length
    let d := evs.dropLast.foldl (NDec.handleSource clk) { d with det := det' }
    .ok ({ d with data := d.data ++ (evs.getLast?.toList.map (·.data)) }, .user)

/-- `operator()(packet&&)` (decoder.hh:87-122). -/
def NDec.notifyH (gf : GF w) (H : DHandler) (dbg : Bool) (clk : Clock) (d : NDec) (p : List Byte) :
    Except Stop (NDec × HRes) := do
  match cassert dbg (p.length ≠ 0) with
  | .error f => .error (.fault f)
  | .ok () =>
  match getPacketType p with
  | .error (.fault f) => .error (.fault f)
  | .error (.cpp x) => return (d, .cpp x)
  | .ok .repair =>
    let d := { d with nbRepairs := d.nbRepairs + 1, ackPackets := (d.ackPackets + 1) % 2 ^ 16 }
    match readRepair p with
    | .error (.fault f) => .error (.fault f)
    | .error (.cpp x) => return (d, .cpp x)
    | .ok (r, n) => d.afterDetH clk n (d.det.onRepairH gf H dbg r)
  | .ok .source =>
    let d := { d with nbSources := d.nbSources + 1, ackPackets := (d.ackPackets + 1) % 2 ^ 16 }
    match readSource p with
    | .error (.fault f) => .error (.fault f)
    | .error (.cpp x) => return (d, .cpp x)
    | .ok (s, n) => d.afterDetH clk n (d.det.onSourceH gf H dbg s)
  | .ok .ack => return (d, .cpp .packetType)

end Netcode
