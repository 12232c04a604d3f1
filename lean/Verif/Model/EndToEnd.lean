import Verif.Model.System

/-!
# The end-to-end test programs

`tests/end_to_end.cc` and `tests/end_to_end_mt.cc`: an encoder and a decoder with ordering in one program, packets and acks lost at
random, and a data handler that throws unless it is given every datum in turn.

Not modelled: the output, the reading of the arguments, the random generator (which packets are lost is arbitrary), the reserved
capacities.  Words of 32 bits are in little-endian order.
-/

namespace Netcode

/-- What ends a program before its end: undefined behaviour or a failed assertion, or an exception that nothing catches.
tests/end_to_end.cc:55, 61, 69. -/
inductive EndStop where
  | fault (f : Fault)
  | thrown
  deriving DecidableEq, Repr

/-- The bytes of a `uint32_t` in memory. tests/end_to_end.cc:57-58, 82-83. -/
def memBytes (x : Nat) : List Byte := [BitVec.ofNat 8 x, BitVec.ofNat 8 (x / 2 ^ 8), BitVec.ofNat 8 (x / 2 ^ 16), BitVec.ofNat 8 (x / 2 ^ 24)]

/-- `data_as_int[i]` (end_to_end.cc:57-65; end_to_end_mt.cc:82-90) -/
def memWord (d : List Byte) (i : Nat) : Nat :=
  (d.getD (4 * i) 0).toNat + 2 ^ 8 * (d.getD (4 * i + 1) 0).toNat + 2 ^ 16 * (d.getD (4 * i + 2) 0).toNat +
    2 ^ 24 * (d.getD (4 * i + 3) 0).toNat

/-- `generate_data` (end_to_end.cc:78-86; end_to_end_mt.cc:103-111): `size` bytes, each 32-bit word is `id`; both programs check that
`size` is a multiple of 4. -/
def testDatum (size id : Nat) : List Byte := (List.replicate (size / 4) (memBytes id)).flatten

/-- `in_order_data_handler` (end_to_end.cc:40-48; end_to_end_mt.cc:65-73) -/
structure InOrderHandler where
  received : Nat
  expected : Nat
  deriving DecidableEq, Repr

/-- `in_order_data_handler::operator()` (end_to_end.cc:50-73; end_to_end_mt.cc:75-98): `none` if it throws. -/
def InOrderHandler.give (size : Nat) (h : InOrderHandler) (d : List Byte) : Option InOrderHandler :=
  if d.length ≠ size then none
  else if memWord d 0 ≠ h.expected then none
  else if (List.range (d.length / 4)).all (fun i => memWord d i == memWord d 0) then
    some { received := h.received + 1, expected := (h.expected + 1) % 2 ^ 32 }
  else none

/-- The encoder, the decoder and its data handler. tests/end_to_end.cc:40-74, 124-127. -/
structure Watched where
  sys : Sys
  handler : InOrderHandler
  deriving DecidableEq, Repr

/-- A call of the library, with the calls of the data handler it makes.  What the handler or the library throws ends the program.
tests/end_to_end.cc:146, 155, 166, 174. -/
def Watched.call (c : Cfg 8) (size : Nat) (t : Watched) (a : Act) : Except EndStop Watched :=
  match t.sys.step c a with
  | .error f => .error (.fault f)
  | .ok s =>
    if s.errs ≠ t.sys.errs then .error .thrown
    else
      match (s.dec.data.drop t.sys.dec.data.length).foldlM (InOrderHandler.give size) t.handler with
      | none => .error .thrown
      | some h => .ok { sys := s, handler := h }

/-- The constructors of encoder, decoder and data handler (end_to_end.cc:124-127; end_to_end_mt.cc:120, 153-155). -/
def Watched.init (c : Cfg 8) : Watched := { sys := Sys.init c.clk true, handler := { received := 0, expected := 0 } }

/-! ## end_to_end.cc -/

/-- The variables of `main` (end_to_end.cc:92-95): `id`, the number of calls of `loss`, the numbers of packets and acks lost. -/
structure EndTest where
  w : Watched
  id : Nat
  draws : Nat
  lostDec : Nat
  lostEnc : Nat
  deriving DecidableEq, Repr

/-- A call of the library. tests/end_to_end.cc:146, 155, 166, 174. -/
def EndTest.call (c : Cfg 8) (size : Nat) (t : EndTest) (a : Act) : Except EndStop EndTest := do
  let v ← t.w.call c size a
  return { t with w := v }

/-- One packet for the decoder (end_to_end.cc:152-160). -/
def EndTest.toDec (c : Cfg 8) (loss : Nat → Bool) (size : Nat) (t : EndTest) (i : Nat) : Except EndStop EndTest :=
  if loss t.draws then .ok { t with draws := t.draws + 1, lostDec := t.lostDec + 1 }
  else { t with draws := t.draws + 1 }.call c size (.deliver i)

/-- One ack for the encoder (end_to_end.cc:171-179). -/
def EndTest.toEnc (c : Cfg 8) (loss : Nat → Bool) (size : Nat) (t : EndTest) (j : Nat) : Except EndStop EndTest :=
  if loss t.draws then .ok { t with draws := t.draws + 1, lostEnc := t.lostEnc + 1 }
  else { t with draws := t.draws + 1 }.call c size (.ack j)

/-- One round of the loop (end_to_end.cc:133-185) until the acks.  The buffers of the packet handlers hold the packets and acks of this
round (lines 140-144, 183-184): those from number `n` on. -/
def EndTest.send (c : Cfg 8) (loss : Nat → Bool) (size : Nat) (t : EndTest) : Except EndStop EndTest := do
  let n := t.w.sys.enc.out.length
  -- line 146
  let t ← t.call c size (.commit (testDatum size t.id))
  let t := { t with id := (t.id + 1) % 2 ^ 32 }
  -- lines 148-161
  (List.range' n (t.w.sys.enc.out.length - n)).foldlM (EndTest.toDec c loss size) t

/-- The acks of a round (end_to_end.cc:163-181), `m` being the number of acks before the round. -/
def EndTest.acks (c : Cfg 8) (loss : Nat → Bool) (size freq m : Nat) (t : EndTest) : Except EndStop EndTest :=
  if (t.w.sys.dec.nbSources + t.w.sys.dec.nbRepairs) % freq = 0 then do
    let t ← t.call c size .genAck
    (List.range' m (t.w.sys.dec.out.length - m)).foldlM (EndTest.toEnc c loss size) t
  else .ok t

/-- One round of the loop (end_to_end.cc:133-185); `ack_frequency` is 50 (line 116). -/
def EndTest.round (c : Cfg 8) (loss : Nat → Bool) (size freq : Nat) (t : EndTest) : Except EndStop EndTest := do
  let t' ← t.send c loss size
  t'.acks c loss size freq t.w.sys.dec.out.length

/-- The program until the loop (end_to_end.cc:124-128). -/
def EndTest.start (c : Cfg 8) (size : Nat) : Except EndStop EndTest :=
  EndTest.call c size { w := Watched.init c, id := 0, draws := 0, lostDec := 0, lostEnc := 0 } (.setAckPeriod 0)

/-- `n` rounds. The loop of tests/end_to_end.cc:133-185. -/
def EndTest.rounds (c : Cfg 8) (loss : Nat → Bool) (size freq : Nat) : Nat → EndTest → Except EndStop EndTest
  | 0, t => .ok t
  | n + 1, t => do
    let t ← t.round c loss size freq
    t.rounds c loss size freq n

/-- The program, with `n` packets of `size` bytes (1024, line 117). -/
def endTest (c : Cfg 8) (loss : Nat → Bool) (size freq n : Nat) : Except EndStop EndTest := do
  let t ← EndTest.start c size
  t.rounds c loss size freq n

/-! ## end_to_end_mt.cc -/

/-- The threads of the encoder and of the decoder and the queues between them.  They share nothing else (but the flag `run` that ends
the loops, which they read without synchronisation: a data race that is not modelled), so that the calls of the library may be taken
as atomic.  No deadlock: the decoder takes the lock of the acks while it holds the one of the packets (lines 50, 161), the encoder never
holds both, since an ack makes it emit nothing (lines 50, 129). -/
structure MtTest where
  w : Watched
  id : Nat
  toDec : List Nat
  toEnc : List Nat
  deriving DecidableEq, Repr

/-- What a thread does: the encoder commits a datum, or reads an ack if there is one (end_to_end_mt.cc:123-137); the decoder reads a
packet if there is one (lines 157-169).  `lost` tells which packets, which acks the packet handler drops (lines 21-61). -/
inductive MtAct where
  | commit (lost : Nat → Bool)
  | readAck
  | read (lost : Nat → Bool)

/-- One step of a thread. tests/end_to_end_mt.cc:123-137, 157-169. -/
def MtTest.step (c : Cfg 8) (size : Nat) (t : MtTest) : MtAct → Except EndStop MtTest
  | .commit lost => do
    let n := t.w.sys.enc.out.length
    let v ← t.w.call c size (.commit (testDatum size t.id))
    return { t with w := v, id := (t.id + 1) % 2 ^ 32
                    toDec := t.toDec ++ (List.range' n (v.sys.enc.out.length - n)).filter (fun i => !lost i) }
  | .readAck =>
    match t.toEnc with
    | [] => .ok t
    | j :: q => do
      let v ← t.w.call c size (.ack j)
      return { t with w := v, toEnc := q }
  | .read lost =>
    match t.toDec with
    | [] => .ok t
    | i :: q => do
      let m := t.w.sys.dec.out.length
      let v ← t.w.call c size (.deliver i)
      return { t with w := v, toDec := q
                      toEnc := t.toEnc ++ (List.range' m (v.sys.dec.out.length - m)).filter (fun j => !lost j) }

/-- The start of both threads. tests/end_to_end_mt.cc:119-121, 152-155, 216-225. -/
def MtTest.init (c : Cfg 8) : MtTest := { w := Watched.init c, id := 0, toDec := [], toEnc := [] }

/-- A run: the threads take turns in any way. tests/end_to_end_mt.cc:222-232. -/
def MtTest.run (c : Cfg 8) (size : Nat) (t : MtTest) (acts : List MtAct) : Except EndStop MtTest := acts.foldlM (MtTest.step c size) t

end Netcode
