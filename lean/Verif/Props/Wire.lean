import Verif.Proofs.Notify
import Verif.Proofs.WireIff
import Verif.Proofs.Check
import Verif.Proofs.SysFacts

/-!
# Properties of the wire format

Everything here is for all packets, and, where an encoder or a decoder is involved, for all its states.
-/

namespace Netcode

variable {w : Nat}

/-! ## C08 -/

/-- **C08.** A source packet is type, identifier (big-endian), size (big-endian), data; parsing it gives the
identifier and the data back and consumes the whole packet. -/
theorem C08_source_round_trip (s : ESource) (hi : s.id < 2 ^ 32) (hl : s.sym.length < 2 ^ 16) :
    readSource (writeSource s).flatten = .ok (⟨s.id, s.sym⟩, (writeSource s).flatten.length) ∧
    (writeSource s).flatten =
      [2, BitVec.ofNat 8 (s.id / 2 ^ 24), BitVec.ofNat 8 (s.id / 2 ^ 16), BitVec.ofNat 8 (s.id / 2 ^ 8),
        BitVec.ofNat 8 s.id, BitVec.ofNat 8 (s.sym.length / 2 ^ 8), BitVec.ofNat 8 s.sym.length] ++ s.sym := by
  refine ⟨readSource_writeSource s hi hl, ?_⟩
  simp [writeSource, beBytes]

example : (writeSource ⟨0x01020304, [9, 8]⟩).flatten = [2, 1, 2, 3, 4, 0, 2, 9, 8] ∧
    readSource [2, 1, 2, 3, 4, 0, 2, 9, 8] = .ok (⟨0x01020304, [9, 8]⟩, 9) := by decide

/-! ## C09 -/

/-- **C09.** Parsing a repair packet gives the identifier, the identifier list, the encoded size and the symbol
back, if the identifiers can be carried (see C11). -/
theorem C09_repair_round_trip_partial (r : ERepair) (hi : r.id < 2 ^ 32) (hids : WireIds r.ids)
    (hl : r.sym.length < 2 ^ 16) :
    ∃ r' n, readRepair (writeRepair r).flatten = .ok (r', n) ∧ r'.id = r.id ∧ r'.ids = r.ids ∧
      r'.encSize = r.encSize ∧ r'.buf.take r'.symSize = r.sym := by
  refine ⟨_, _, readRepair_writeRepair r hi hids hl, rfl, rfl, rfl, ?_⟩
  simp

example : WireIds [3, 4, 5, 90] := by decide
example : readRepair (writeRepair ⟨7, [3, 4, 5, 90], 0x1234, [1, 2, 3]⟩).flatten =
    .ok (⟨7, [3, 4, 5, 90], 0x1234, [1, 2, 3, 0, 3, 0, 0, 0, 3, 2, 0, 1, 1, 0, 85, 0x12, 0x34, 0, 3, 1, 2, 3], 3⟩, 24) := by
  decide +kernel

/-- **C09 fails** when two consecutive identifiers are 65536 or more apart: sources that the repair does not
encode are read from it. -/
theorem C09_false : ∃ r : ERepair, r.id < 2 ^ 32 ∧ Sorted r.ids ∧ (∀ x ∈ r.ids, x < 2 ^ 32) ∧ r.sym.length < 2 ^ 16 ∧
    ∃ r' n, readRepair (writeRepair r).flatten = .ok (r', n) ∧ r.ids = [0, 65537] ∧ r'.ids = [0, 1] :=
  ⟨⟨0, [0, 65537], 5, [1]⟩, by decide, by decide, by decide +kernel, by decide,
    ⟨0, [0, 1], 5, [1, 0, 2, 0, 0, 0, 0, 1, 0, 1, 0, 5, 0, 1, 1], 1⟩, 19, by decide +kernel, rfl, rfl⟩

/-! ## C10 -/

/-- **C10.** Parsing an ack gives the ack back and consumes the whole packet, if the identifiers can be carried. -/
theorem C10_ack_round_trip_partial (a : Ack) (hn : a.nbPackets < 2 ^ 16) (hi : WireIds a.ids) :
    readAck (writeAck a).flatten = .ok (a, (writeAck a).flatten.length) := readAck_writeAck a hn hi

example : readAck (writeAck ⟨[3, 4, 5, 90], 17⟩).flatten = .ok (⟨[3, 4, 5, 90], 17⟩, 15) := by decide +kernel

/-- **C10 fails** otherwise: the ack of source 65537 is read as an ack of source 1. -/
theorem C10_false : ∃ a : Ack, a.nbPackets < 2 ^ 16 ∧ Sorted a.ids ∧ (∀ x ∈ a.ids, x < 2 ^ 32) ∧
    a.ids = [0, 65537] ∧ ∃ n, readAck (writeAck a).flatten = .ok (⟨[0, 1], a.nbPackets⟩, n) :=
  ⟨⟨[0, 65537], 3⟩, by decide, by decide, by decide +kernel, rfl, 12, by decide +kernel⟩

/-! ## C11 -/

/-- **C11.** A set of 32-bit identifiers is read back unchanged exactly if consecutive identifiers are less than
2^16 apart and their differences form fewer than 65535 runs. -/
theorem C11_lossless_iff_partial (ids : List Nat) (hs : Sorted ids) (hb : ∀ x ∈ ids, x < 2 ^ 32) :
    (∃ c, readIds (writeIds ids).flatten ⟨0, (writeIds ids).flatten.length⟩ = .ok (ids, c)) ↔
      SmallGaps ids ∧ nbRuns ids + 1 < 2 ^ 16 := by
  have := readIds_iff ids hs hb
  unfold whole at this
  rw [this]
  exact ⟨fun h => ⟨h.2.2.1, h.2.2.2⟩, fun h => ⟨hs, hb, h.1, h.2⟩⟩

/-- Any set of identifiers, all of them below 2^16 - 1, is lossless. -/
theorem C11_small_lossless (ids : List Nat) (hs : Sorted ids) (hb : ∀ x ∈ ids, x < 2 ^ 16 - 1) :
    ∃ c, readIds (writeIds ids).flatten ⟨0, (writeIds ids).flatten.length⟩ = .ok (ids, c) := by
  refine (C11_lossless_iff_partial ids hs (fun x hx => by have := hb x hx; omega)).2 ⟨?_, ?_⟩
  · clear hs
    induction ids using SmallGaps.induct with
    | case1 => trivial
    | case2 => trivial
    | case3 a b t ih =>
      refine ⟨?_, ih (fun x hx => hb x (by simp [hx]))⟩
      have := hb b (by simp); omega
  · have h1 : ids.Sublist (List.range (2 ^ 16 - 1)) := sublist_range hs hb
    have h2 := h1.length_le
    rw [List.length_range] at h2
    have := nbRuns_lt ids
    omega

example : readIds (writeIds [0, 1, 2, 3, 65000]).flatten ⟨0, 12⟩ = .ok ([0, 1, 2, 3, 65000], ⟨12, 0⟩) := by
  decide +kernel

/-- **C11 fails** at the first gap of 65536. -/
theorem C11_false : Sorted [0, 65536] ∧ (∀ x ∈ [0, 65536], x < 2 ^ 32) ∧
    ∃ c, readIds (writeIds [0, 65536]).flatten ⟨0, (writeIds [0, 65536]).flatten.length⟩ = .ok ([0], c) :=
  ⟨by decide, by decide +kernel, ⟨9, 0⟩, by decide +kernel⟩

/-! ## C12 -/

/-- **C12**, sources: a decoder that processes a source packet reports all of its bytes. -/
theorem C12_source_bytes (gf : GF w) (dbg : Bool) (clk : Clock) (d : NDec) (s : ESource) (hi : s.id < 2 ^ 32)
    (hl : s.sym.length < 2 ^ 16) {d' : NDec} {r : Except CppErr Nat}
    (h : d.notify gf dbg clk (writeSource s).flatten = .ok (d', r)) : r = .ok (writeSource s).flatten.length := by
  rw [NDec.notify_of_source _ _ _ _ (getPacketType_source s), readSource_writeSource s hi hl] at h
  simp only at h
  cases hx : d.det.onSource gf dbg ⟨s.id, s.sym⟩ with
  | error f => rw [hx] at h; cases h
  | ok x => rw [hx] at h; cases h; rfl

/-- **C12**, acks: an encoder that processes an ack reports all of its bytes. -/
theorem C12_ack_bytes (F : F64) (dbg : Bool) (e : Enc) (a : Ack) (hn : a.nbPackets < 2 ^ 16) (hi : WireIds a.ids) :
    ∃ e', e.notify F dbg (writeAck a).flatten = .ok (e', .ok (writeAck a).flatten.length) := by
  rw [Enc.notify_of_ack _ _ _ (getPacketType_ack a), readAck_writeAck a hn hi]
  exact ⟨_, rfl⟩

/-- **C12 fails** for repairs: the second copy of the symbol and of its size is not counted. -/
theorem C12_repair_bytes_false (gf : GF w) (dbg : Bool) (clk : Clock) (d : NDec) (r : ERepair) (hi : r.id < 2 ^ 32)
    (hids : WireIds r.ids) (hl : r.sym.length < 2 ^ 16) {d' : NDec} {x : Except CppErr Nat}
    (h : d.notify gf dbg clk (writeRepair r).flatten = .ok (d', x)) :
    ∃ n, x = .ok n ∧ n + 2 + r.sym.length = (writeRepair r).flatten.length := by
  rw [NDec.notify_of_repair _ _ _ _ (getPacketType_repair r), readRepair_writeRepair r hi hids hl] at h
  simp only at h
  have hlen : 2 + r.sym.length ≤ (writeRepair r).flatten.length := by
    rw [writeRepair_split]; simp only [List.length_append, beBytes_length]; omega
  cases hx : d.det.onRepair gf dbg ⟨r.id, r.ids, r.encSize,
    r.sym ++ ((writeIds r.ids).flatten ++ beBytes 2 r.encSize.toNat ++ beBytes 2 r.sym.length ++ r.sym),
    r.sym.length⟩ with
  | error f => rw [hx] at h; cases h
  | ok y => rw [hx] at h; cases h; exact ⟨_, rfl, by omega⟩

/-- A new decoder processes each kind of packet. -/
example : (((NDec.init (fun _ => 0) false).notify gf8 true (fun _ => 0) (writeSource ⟨4, [9, 8]⟩).flatten).map (·.2)).toOption =
    some (.ok 9) := by decide +kernel
example : (((NDec.init (fun _ => 0) false).notify gf8 true (fun _ => 0) (writeRepair ⟨0, [0], 6, [0x1b, 0x18]⟩).flatten).map (·.2)).toOption =
    some (.ok 17) ∧ (writeRepair ⟨0, [0], 6, [0x1b, 0x18]⟩).flatten.length = 21 := by decide +kernel
example : ((Enc.init.notify F0 true (writeAck ⟨[0, 3], 2⟩).flatten).map (·.2)).toOption = some (.ok 12) := by decide +kernel

/-! ## C06 -/

/-- **C06**, encoder: whatever the bytes, the call returns, or raises an exception; it never reports more bytes than
the packet has. -/
theorem C06_encoder_total (F : F64) (dbg : Bool) (e : Enc) (p : List Byte) (hp : p ≠ []) :
    ∃ e' r, e.notify F dbg p = .ok (e', r) ∧ (∀ n, r = .ok n → n ≤ p.length) ∧
      (∀ x, r = .error x → x = .packetType ∨ x = .overflow) := by
  have hx : ∀ x : CppErr, x = .packetType ∨ x = .overflow := by intro x; cases x <;> simp
  by_cases h : getPacketType p = .ok .ack
  · rw [Enc.notify_of_ack _ _ _ h]
    rcases readAck_total p with ⟨a, n, ha, hn⟩ | ha
    · rw [ha]; exact ⟨_, _, rfl, by rintro m hm; cases hm; exact hn, fun x _ => hx x⟩
    · rw [ha]; exact ⟨_, _, rfl, (by rintro m hm; cases hm), fun x _ => hx x⟩
  · rw [Enc.notify_of_other _ _ _ hp h]
    exact ⟨_, _, rfl, (by rintro m hm; cases hm), fun x _ => hx x⟩

/-- **C06**, decoder: whatever the bytes, the parsers return, or raise `overflow_error`; they never read outside of
the packet (`PErr.fault`) nor report more bytes than it has. -/
theorem C06_parsers_total (p : List Byte) :
    ((∃ s n, readSource p = .ok (s, n) ∧ n ≤ p.length) ∨ readSource p = .error (.cpp .overflow)) ∧
    ((∃ r n, readRepair p = .ok (r, n) ∧ n ≤ p.length) ∨ readRepair p = .error (.cpp .overflow)) ∧
    ((∃ a n, readAck p = .ok (a, n) ∧ n ≤ p.length) ∨ readAck p = .error (.cpp .overflow)) :=
  ⟨readSource_total p, readRepair_total p, readAck_total p⟩

/-- **C06**, decoder: the symbols given to the decoding lie inside of the packet: they start after the 7 bytes of
the header, have the size which the header announces, and end before the end of the packet. -/
theorem C06_symbols_inside (p : List Byte) :
    (∀ s n, readSource p = .ok (s, n) → s.sym.length = beNat ((p.drop 5).take 2) ∧ p.drop 7 = s.sym ++ p.drop n) ∧
    (∀ r n, readRepair p = .ok (r, n) → r.symSize = beNat ((p.drop 5).take 2) ∧ r.buf = p.drop 7 ∧
      r.symSize ≤ r.buf.length) := by
  constructor
  · intro s n h
    rw [readSource_eq] at h
    obtain ⟨⟨⟨id, sz⟩, c⟩, h1, h2⟩ := map_ok_inv h
    cases h2
    obtain ⟨e1, e2, e3⟩ := head_inv h1
    simp only [headerSize, List.length_take, List.length_drop]
    refine ⟨by rw [← e2]; omega, ?_⟩
    rw [e1, ← List.drop_drop, List.take_append_drop]
  · intro r n h
    rw [readRepair_eq] at h
    obtain ⟨⟨⟨⟨id, sz⟩, ids, enc⟩, c⟩, h1, h2⟩ := map_ok_inv h
    cases h2
    unfold repairReader at h1
    obtain ⟨hd, c1, h3, h4⟩ := rbind_inv h1
    obtain ⟨x, c2, h5, h6⟩ := rbind_inv h4
    obtain ⟨y, c3, h7, h8⟩ := rbind_inv h6
    cases h8
    obtain ⟨e1, e2, e3⟩ := head_inv h3
    simp only [headerSize, List.length_drop]
    exact ⟨e2, trivial, by omega⟩

/-- **C06**, decoder: a call on a non-empty packet that does not return has met a fault in the decoding, not in the
parsing; if it returns, it does not report more bytes than the packet has. -/
theorem C06_decoder_total (gf : GF w) (dbg : Bool) (clk : Clock) (d : NDec) (p : List Byte) (hp : p ≠ []) :
    (∃ d' r, d.notify gf dbg clk p = .ok (d', r) ∧ ∀ n, r = .ok n → n ≤ p.length) ∨
    (∃ s n f, readSource p = .ok (s, n) ∧ d.det.onSource gf dbg s = .error f) ∨
    (∃ s n f, readRepair p = .ok (s, n) ∧ d.det.onRepair gf dbg s = .error f) := by
  by_cases h1 : getPacketType p = .ok .source
  · rw [NDec.notify_of_source _ _ _ _ h1]
    rcases readSource_total p with ⟨a, n, ha, hn⟩ | ha
    · rw [ha]
      simp only
      cases hx : d.det.onSource gf dbg a with
      | error f => exact Or.inr (Or.inl ⟨a, n, f, rfl, hx⟩)
      | ok x => exact Or.inl ⟨_, _, rfl, by rintro m hm; cases hm; exact hn⟩
    · rw [ha]; exact Or.inl ⟨_, _, rfl, by rintro m hm; cases hm⟩
  · by_cases h2 : getPacketType p = .ok .repair
    · rw [NDec.notify_of_repair _ _ _ _ h2]
      rcases readRepair_total p with ⟨a, n, ha, hn⟩ | ha
      · rw [ha]
        simp only
        cases hx : d.det.onRepair gf dbg a with
        | error f => exact Or.inr (Or.inr ⟨a, n, f, rfl, hx⟩)
        | ok x => exact Or.inl ⟨_, _, rfl, by rintro m hm; cases hm; exact hn⟩
      · rw [ha]; exact Or.inl ⟨_, _, rfl, by rintro m hm; cases hm⟩
    · rw [NDec.notify_of_other _ _ _ _ hp h1 h2]
      exact Or.inl ⟨_, _, rfl, by rintro m hm; cases hm⟩

/-- An empty packet is read out of bounds (an assertion catches it in a debug build). -/
theorem C06_empty_packet (F : F64) (gf : GF w) (clk : Clock) (e : Enc) (d : NDec) :
    e.notify F false [] = .error (.ub .oobRead) ∧ d.notify gf false clk [] = .error (.ub .oobRead) ∧
    e.notify F true [] = .error .assertion ∧ d.notify gf true clk [] = .error .assertion := ⟨rfl, rfl, rfl, rfl⟩

example : readRepair [1, 0, 0, 0, 7, 0, 200, 1, 2] = .error (.cpp .overflow) := by decide +kernel

/-! ## C13 -/

/-- **C13**, sources: any non-empty strict prefix of a source packet raises `overflow_error` and leaves the decoding
state, the data handed out and the acks sent unchanged. -/
theorem C13_truncated_source (gf : GF w) (dbg : Bool) (clk : Clock) (d : NDec) (s : ESource) (hi : s.id < 2 ^ 32)
    (hl : s.sym.length < 2 ^ 16) (k : Nat) (hk : 0 < k) (hk2 : k < (writeSource s).flatten.length) :
    ∃ d', d.notify gf dbg clk ((writeSource s).flatten.take k) = .ok (d', .error .overflow) ∧
      d'.det = d.det ∧ d'.data = d.data ∧ d'.out = d.out := by
  rw [NDec.notify_of_source _ _ _ _ (by rw [getPacketType_take hk]; exact getPacketType_source s),
    readSource_trunc (readSource_writeSource s hi hl) hk2]
  exact ⟨_, rfl, rfl, rfl, rfl⟩

/-- **C13**, repairs: the same, up to the end of the encoded size (what follows is never read). -/
theorem C13_truncated_repair (gf : GF w) (dbg : Bool) (clk : Clock) (d : NDec) (r : ERepair) (hi : r.id < 2 ^ 32)
    (hids : WireIds r.ids) (hl : r.sym.length < 2 ^ 16) (k : Nat) (hk : 0 < k)
    (hk2 : k + 2 + r.sym.length < (writeRepair r).flatten.length) :
    ∃ d', d.notify gf dbg clk ((writeRepair r).flatten.take k) = .ok (d', .error .overflow) ∧
      d'.det = d.det ∧ d'.data = d.data ∧ d'.out = d.out := by
  rw [NDec.notify_of_repair _ _ _ _ (by rw [getPacketType_take hk]; exact getPacketType_repair r),
    readRepair_trunc (readRepair_writeRepair r hi hids hl) (by omega)]
  exact ⟨_, rfl, rfl, rfl, rfl⟩

/-- **C13**, acks: any non-empty strict prefix of an ack raises `overflow_error` and leaves the window, the rate and
the packets sent unchanged. -/
theorem C13_truncated_ack (F : F64) (dbg : Bool) (e : Enc) (a : Ack) (hn : a.nbPackets < 2 ^ 16) (hi : WireIds a.ids)
    (k : Nat) (hk : 0 < k) (hk2 : k < (writeAck a).flatten.length) :
    ∃ e', e.notify F dbg ((writeAck a).flatten.take k) = .ok (e', .error .overflow) ∧
      e'.sources = e.sources ∧ e'.rate = e.rate ∧ e'.out = e.out ∧ e'.nbSentPackets = e.nbSentPackets := by
  rw [Enc.notify_of_ack _ _ _ (by rw [getPacketType_take hk]; exact getPacketType_ack a),
    readAck_trunc (readAck_writeAck a hn hi) hk2]
  exact ⟨_, rfl, rfl, rfl, rfl, rfl⟩

/-- **C13**, any bytes: whenever a call raises an exception, the state of the decoding is unchanged. -/
theorem C13_exception_no_effect (gf : GF w) (dbg : Bool) (clk : Clock) (d d' : NDec) (p : List Byte) (x : CppErr)
    (h : d.notify gf dbg clk p = .ok (d', .error x)) : d'.det = d.det ∧ d'.data = d.data ∧ d'.out = d.out := by
  by_cases hp : p = []
  · subst hp; cases dbg <;> cases h
  by_cases h1 : getPacketType p = .ok .source
  · rw [NDec.notify_of_source _ _ _ _ h1] at h
    rcases readSource_total p with ⟨a, n, ha, hn⟩ | ha <;> rw [ha] at h
    · simp only at h
      cases hx : d.det.onSource gf dbg a with
      | error f => rw [hx] at h; cases h
      | ok y => rw [hx] at h; cases h
    · cases h; exact ⟨rfl, rfl, rfl⟩
  · by_cases h2 : getPacketType p = .ok .repair
    · rw [NDec.notify_of_repair _ _ _ _ h2] at h
      rcases readRepair_total p with ⟨a, n, ha, hn⟩ | ha <;> rw [ha] at h
      · simp only at h
        cases hx : d.det.onRepair gf dbg a with
        | error f => rw [hx] at h; cases h
        | ok y => rw [hx] at h; cases h
      · cases h; exact ⟨rfl, rfl, rfl⟩
    · rw [NDec.notify_of_other _ _ _ _ hp h1 h2] at h
      cases h; exact ⟨rfl, rfl, rfl⟩

/-- A 9-byte source packet has 8 such prefixes. -/
example : (writeSource ⟨4, [9, 8]⟩).flatten.length = 9 := by decide
example (d : NDec) : ∃ d', d.notify gf8 true (fun _ => 0) [2, 0, 0, 0, 4, 0, 2, 9] = .ok (d', .error .overflow) ∧
    d'.det = d.det ∧ d'.data = d.data ∧ d'.out = d.out :=
  C13_truncated_source gf8 true _ d ⟨4, [9, 8]⟩ (by decide) (by decide) 8 (by decide) (by decide)

/-! ## C14 -/

/-- **C14**, encoder: a packet that does not begin with the byte of an ack raises `packet_type_error` and changes
nothing at all; one that does is not refused for its type. -/
theorem C14_encoder_routing (F : F64) (dbg : Bool) (e : Enc) (b : Byte) (t : List Byte) :
    (b ≠ 0#8 → e.notify F dbg (b :: t) = .ok (e, .error .packetType)) ∧
    (b = 0#8 → ∀ e' r, e.notify F dbg (b :: t) = .ok (e', r) → r ≠ .error .packetType) := by
  constructor
  · intro hb
    refine Enc.notify_of_other _ _ _ (by simp) ?_
    simp only [getPacketType]
    rw [if_neg hb]
    split
    · simp
    · split <;> simp
  · rintro rfl e' r h
    rw [Enc.notify_of_ack _ _ _ rfl] at h
    rcases readAck_total (0#8 :: t) with ⟨a, n, ha, hn⟩ | ha <;> rw [ha] at h <;> cases h <;> simp

/-- **C14**, decoder: the same with the bytes of a repair and of a source. -/
theorem C14_decoder_routing (gf : GF w) (dbg : Bool) (clk : Clock) (d : NDec) (b : Byte) (t : List Byte) :
    (b ≠ 1#8 → b ≠ 2#8 → d.notify gf dbg clk (b :: t) = .ok (d, .error .packetType)) ∧
    (b = 1#8 ∨ b = 2#8 → ∀ d' r, d.notify gf dbg clk (b :: t) = .ok (d', r) → r ≠ .error .packetType) := by
  constructor
  · intro h1 h2
    refine NDec.notify_of_other _ _ _ _ (by simp) ?_ ?_ <;>
    · simp only [getPacketType]
      split
      · simp
      · simp
  · rintro (rfl | rfl) d' r h
    · rw [NDec.notify_of_repair _ _ _ _ rfl] at h
      rcases readRepair_total (1#8 :: t) with ⟨a, n, ha, hn⟩ | ha <;> rw [ha] at h
      · simp only at h
        cases hx : d.det.onRepair gf dbg a with
        | error f => rw [hx] at h; cases h
        | ok y => rw [hx] at h; cases h; simp
      · cases h; simp
    · rw [NDec.notify_of_source _ _ _ _ rfl] at h
      rcases readSource_total (2#8 :: t) with ⟨a, n, ha, hn⟩ | ha <;> rw [ha] at h
      · simp only at h
        cases hx : d.det.onSource gf dbg a with
        | error f => rw [hx] at h; cases h
        | ok y => rw [hx] at h; cases h; simp
      · cases h; simp

/-- **C14**, dispatch: acks go to the encoder only, sources and repairs to the decoder only, anything else to
neither. -/
theorem C14_dispatch (gf : GF w) (F : F64) (dbg : Bool) (clk : Clock) (e : Enc) (d : NDec) (b : Byte) (t : List Byte) :
    (b = 0#8 → dispatch gf F dbg clk e d (b :: t) = (e.notify F dbg (b :: t)).map (fun x => ((x.1, d), x.2))) ∧
    (b = 1#8 ∨ b = 2#8 →
      dispatch gf F dbg clk e d (b :: t) = (d.notify gf dbg clk (b :: t)).map (fun x => ((e, x.1), x.2))) ∧
    (b ≠ 0#8 → b ≠ 1#8 → b ≠ 2#8 → dispatch gf F dbg clk e d (b :: t) = .ok ((e, d), .error .packetType)) := by
  refine ⟨?_, ?_, ?_⟩
  · rintro rfl
    unfold dispatch
    rw [show getPacketType (0#8 :: t) = .ok .ack from rfl]
    simp only [bind, Except.bind]
    cases e.notify F dbg (0#8 :: t) <;> rfl
  · rintro (rfl | rfl)
    · unfold dispatch
      rw [show getPacketType (1#8 :: t) = .ok .repair from rfl]
      simp only [bind, Except.bind]
      cases d.notify gf dbg clk (1#8 :: t) <;> rfl
    · unfold dispatch
      rw [show getPacketType (2#8 :: t) = .ok .source from rfl]
      simp only [bind, Except.bind]
      cases d.notify gf dbg clk (2#8 :: t) <;> rfl
  · intro h0 h1 h2
    unfold dispatch
    rw [show getPacketType (b :: t) = .error (.cpp .packetType) by
      simp only [getPacketType]; rw [if_neg h0, if_neg h1, if_neg h2]]

example : (Enc.init.notify F0 true [2, 0, 0, 0, 0, 0, 1, 9]).toOption = some (Enc.init, .error .packetType) := by
  decide +kernel

end Netcode
