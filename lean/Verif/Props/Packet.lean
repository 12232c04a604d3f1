import Verif.Spec.Packet

/-!
# Properties of packets and dumps (C34, C35, C47)
-/

namespace Netcode

/-! ## Simulation -/

/-- The storage that goes with a plain vector: 9 cells nobody sees, then the vector. -/
def Packet.Sim (p : Packet) (v : List Cell) : Prop :=
  ∃ pre : List Cell, pre.length = 9 ∧ p.buf = pre ++ v ∧ v.length + 9 < 2 ^ 63

theorem Packet.Sim.sameAs {p : Packet} {v : List Cell} (h : p.Sim v) : SameAs p v := by
  obtain ⟨pre, hp, hb, hl⟩ := h
  have hs : p.size = v.length := by
    simp only [Packet.size, Pkt.wrap64, hb, List.length_append, hp, Pkt.shift, Pkt.alignment, Pkt.headers]
    omega
  refine ⟨hs, ?_, ?_, ?_, ?_, ?_⟩
  · simp only [Packet.isEmpty, hs]
    cases v <;> simp
  · simp only [Packet.range, Packet.endOff, List.take_length]
    rw [hb]; exact List.drop_left' hp
  · simp only [Packet.dataRange, hs]
    simp [hb, Packet.beginOff, Pkt.shift, Pkt.alignment, Pkt.headers, ← hp]
  · intro i hi
    have : Pkt.wrap64 (i + Pkt.shift) = pre.length + i := by
      simp only [Pkt.wrap64, Pkt.shift, Pkt.alignment, Pkt.headers, hp]; omega
    simp only [Packet.get, vecGet, this, hb]
    rw [List.getElem?_append_right (by omega)]
    simp only [Nat.add_sub_cancel_left, List.getElem?_eq_getElem hi]
    rfl
  · intro i hi h64
    have : Pkt.wrap64 (i + Pkt.shift) = pre.length + i := by
      simp only [Pkt.wrap64, Pkt.shift, Pkt.alignment, Pkt.headers, hp]; omega
    simp only [Packet.get, vecGet, this, hb]
    rw [List.getElem?_append_right (by omega), List.getElem?_eq_none (by omega)]

theorem wrapShift {n : Nat} (h : n + 9 < 2 ^ 63) : Pkt.wrap64 (n + Pkt.shift) = n + 9 := by
  simp only [Pkt.wrap64, Pkt.shift, Pkt.alignment, Pkt.headers]; omega

theorem rep_add (k n : Nat) (c : Cell) :
    List.replicate (n + k) c = List.replicate k c ++ List.replicate n c := by
  rw [Nat.add_comm, List.replicate_append_replicate]

theorem vecNew_ok {n : Nat} {c : Cell} (h : n < 2 ^ 63) : vecNew n c = .ok (List.replicate n c) := by
  rw [vecNew, if_neg (by simp only [vecMax]; omega)]

theorem vecCopy_ok {pre v : List Cell} {l : List Byte} (hp : pre.length = 9) (hv : v.length = l.length) :
    vecCopy (pre ++ v) 9 l = .ok (pre ++ l.map some) := by
  rw [vecCopy, if_pos (by simp [hp, hv])]
  have e : List.drop (9 + l.length) (pre ++ v) = [] := List.drop_eq_nil_of_le (by simp [hp, hv])
  rw [e, List.take_left' hp, List.append_nil]

theorem vecResize_ok {pre v : List Cell} {n : Nat} {c : Cell} (hp : pre.length = 9) (h : n + 9 < 2 ^ 63) :
    vecResize (pre ++ v) (n + 9) c = .ok (pre ++ (v.take n ++ List.replicate (n - v.length) c)) := by
  rw [vecResize, if_neg (by simp only [vecMax]; omega)]
  split
  · next hle =>
    have hle : n ≤ v.length := by simp only [List.length_append, hp] at hle; omega
    rw [Nat.sub_eq_zero_of_le hle, Nat.add_comm, ← hp, List.take_length_add_append]
    simp
  · next hle =>
    have hle : v.length < n := by simp only [List.length_append, hp] at hle; omega
    rw [List.take_of_length_le (by omega), List.length_append, hp, List.append_assoc,
      show n + 9 - (9 + v.length) = n - v.length by omega]

theorem length_resize (v : List Cell) (n : Nat) (c : Cell) :
    (v.take n ++ List.replicate (n - v.length) c).length = n := by
  simp only [List.length_append, List.length_take, List.length_replicate]; omega

theorem VNew.sim (o : VNew) (h : o.want + 9 < 2 ^ 63) : ∃ p, o.pkt = .ok p ∧ p.Sim o.vec := by
  cases o <;> simp only [VNew.want] at h
  case empty =>
    refine ⟨⟨List.replicate 9 none⟩, ?_, List.replicate 9 none, by simp, by simp [VNew.vec], by simp [VNew.vec]⟩
    simp only [VNew.pkt, Packet.empty, Pkt.shift, Pkt.alignment, Pkt.headers]
    rw [vecNew_ok (by omega)]; rfl
  case sized n =>
    refine ⟨⟨List.replicate (n + 9) none⟩, ?_, List.replicate 9 none, by simp, ?_, by simpa [VNew.vec] using h⟩
    · simp only [VNew.pkt, Packet.sized]
      rw [wrapShift h, vecNew_ok h]; rfl
    · exact rep_add 9 n _
  case filled n v =>
    refine ⟨⟨List.replicate (n + 9) (some v)⟩, ?_, List.replicate 9 (some v), by simp, ?_,
      by simpa [VNew.vec] using h⟩
    · simp only [VNew.pkt, Packet.filled]
      rw [wrapShift h, vecNew_ok h]; rfl
    · exact rep_add 9 n _
  case range l =>
    refine ⟨⟨List.replicate 9 none ++ l.map some⟩, ?_, List.replicate 9 none, by simp, rfl,
      by simpa [VNew.vec] using h⟩
    simp only [VNew.pkt, Packet.ofRange]
    rw [wrapShift h, vecNew_ok h]
    rw [rep_add 9]
    show (vecCopy _ 9 l >>= fun x => Except.ok (⟨x⟩ : Packet)) = _
    rw [vecCopy_ok (by simp) (by simp)]; rfl

theorem VOp.sim {p : Packet} {v v' : List Cell} (hs : p.Sim v) (a : VOp) (h : a.want v.length + 9 < 2 ^ 63)
    (hv : a.vec v = some v') : ∃ p', a.pkt p = .ok p' ∧ p'.Sim v' := by
  obtain ⟨pre, hp, hb, hl⟩ := hs
  cases p with | mk buf => ?_
  simp only at hb; subst hb
  cases a <;> simp only [VOp.want] at h
  case assignFill n b =>
    simp only [VOp.vec, Option.some.injEq] at hv; subst hv
    refine ⟨⟨pre ++ List.replicate n (some b)⟩, ?_, pre, hp, rfl, by simpa [VOp.want] using h⟩
    simp only [VOp.pkt, Packet.assignFill, Packet.resize]
    rw [wrapShift h, vecResize_ok hp h]
    generalize hx : v.take n ++ List.replicate (n - v.length) none = x
    have hxl : x.length = n := by rw [← hx]; exact length_resize _ _ _
    show (vecCopy (pre ++ x) 9 (List.replicate ((pre ++ x).length - 9) b) >>= fun x => Except.ok (⟨x⟩ : Packet)) = _
    rw [List.length_append, hp, Nat.add_sub_cancel_left, hxl, vecCopy_ok hp (by simp [hxl])]
    simp only [List.map_replicate]; rfl
  case assignRange l =>
    simp only [VOp.vec, Option.some.injEq] at hv; subst hv
    refine ⟨⟨pre ++ l.map some⟩, ?_, pre, hp, rfl, by simpa [VOp.want] using h⟩
    simp only [VOp.pkt, Packet.assignRange, Packet.resize]
    rw [wrapShift h, vecResize_ok hp h]
    generalize hx : v.take l.length ++ List.replicate (l.length - v.length) none = x
    have hxl : x.length = l.length := by rw [← hx]; exact length_resize _ _ _
    show (vecCopy (pre ++ x) 9 l >>= fun x => Except.ok (⟨x⟩ : Packet)) = _
    rw [vecCopy_ok hp hxl]; rfl
  case set i b =>
    simp only [VOp.vec] at hv
    split at hv
    · next hi =>
      simp only [Option.some.injEq] at hv; subst hv
      refine ⟨⟨pre ++ v.set i (some b)⟩, ?_, pre, hp, rfl, by simpa [VOp.want] using h⟩
      simp only [VOp.pkt, Packet.set]
      rw [wrapShift (by omega), vecSet, if_pos (by simp [hp]; omega),
        List.set_append_right (i + 9) (some b) (by omega), hp, Nat.add_sub_cancel]; rfl
    · cases hv
  case pushBack b =>
    simp only [VOp.vec, Option.some.injEq] at hv; subst hv
    refine ⟨⟨pre ++ (v ++ [some b])⟩, ?_, pre, hp, rfl, by simp; omega⟩
    simp only [VOp.pkt, Packet.pushBack]
    rw [if_neg (by simp only [vecMax, List.length_append, hp]; omega), List.append_assoc]
  case clear =>
    simp only [VOp.vec, Option.some.injEq] at hv; subst hv
    refine ⟨⟨pre⟩, ?_, pre, hp, by simp, by simp⟩
    have := vecResize_ok (v := v) (n := 0) (c := none) hp (by omega)
    simp only [VOp.pkt, Packet.clear, Pkt.shift, Pkt.alignment, Pkt.headers]
    show (vecResize (pre ++ v) (0 + 9) none >>= fun x => Except.ok (⟨x⟩ : Packet)) = _
    rw [this]; simp; rfl
  case resize n =>
    simp only [VOp.vec, Option.some.injEq] at hv; subst hv
    refine ⟨⟨pre ++ (v.take n ++ List.replicate (n - v.length) none)⟩, ?_, pre, hp, rfl,
      by rw [length_resize]; exact h⟩
    simp only [VOp.pkt, Packet.resize]
    rw [wrapShift h, vecResize_ok hp h]; rfl
  case resizeFill n b =>
    simp only [VOp.vec, Option.some.injEq] at hv; subst hv
    refine ⟨⟨pre ++ (v.take n ++ List.replicate (n - v.length) (some b))⟩, ?_, pre, hp, rfl,
      by rw [length_resize]; exact h⟩
    simp only [VOp.pkt, Packet.resizeFill]
    rw [wrapShift h, vecResize_ok hp h]; rfl
  case reserve n =>
    simp only [VOp.vec, Option.some.injEq] at hv; subst hv
    refine ⟨_, ?_, pre, hp, rfl, hl⟩
    simp only [VOp.pkt, Packet.reserve]
    rw [wrapShift h, if_neg (by simp only [vecMax]; omega)]
  case shrinkToFit =>
    simp only [VOp.vec, Option.some.injEq] at hv; subst hv
    exact ⟨_, rfl, pre, hp, rfl, hl⟩

theorem pktRun_append (o : VNew) (ops : List VOp) (a : VOp) :
    pktRun o (ops ++ [a]) = pktRun o ops >>= fun p => a.pkt p := by
  simp only [pktRun, List.foldlM_append, List.foldlM_cons, List.foldlM_nil, bind_assoc, bind_pure]

/-- **C34.** A sequence of operations that a plain byte vector allows is carried out by a packet without fault
nor exception, and the packet then looks like that vector through `size`, `empty`, `begin`/`end`,
`data`/`size` and `[]`.  Values of bytes that were never written are `none` on both sides. -/
theorem C34_packet_is_vector {o : VNew} {ops : List VOp} {v : List Cell} (h : VRun o ops v) :
    ∃ p, pktRun o ops = .ok p ∧ SameAs p v := by
  suffices ∃ p, pktRun o ops = .ok p ∧ p.Sim v by
    obtain ⟨p, h₁, h₂⟩ := this; exact ⟨p, h₁, h₂.sameAs⟩
  induction h with
  | start h =>
    obtain ⟨p, h₁, h₂⟩ := o.sim h
    exact ⟨p, by simp only [pktRun, h₁]; rfl, h₂⟩
  | op a _ hw hv ih =>
    obtain ⟨p, h₁, h₂⟩ := ih
    obtain ⟨p', h₃, h₄⟩ := VOp.sim h₂ a hw hv
    exact ⟨p', by rw [pktRun_append, h₁]; exact h₃, h₄⟩

/-- A run that uses every kind of operation. -/
example : VRun (.range [1#8, 2#8, 3#8])
    [.pushBack 4#8, .resize 2, .resizeFill 5 9#8, .set 1 7#8, .reserve 100, .shrinkToFit, .resize 6]
    [some 1#8, some 7#8, some 9#8, some 9#8, some 9#8, none] :=
  ((((((((VRun.start (by decide)).op _ (by decide) rfl).op _ (by decide) rfl).op _ (by decide) rfl).op _
    (by decide) rfl).op _ (by decide) rfl).op _ (by decide) rfl).op _ (by decide) rfl)

/-- **C34**, alignment: in a storage that starts at an address which is a multiple of 16, the symbol is 7 bytes
after `data()`, whatever the packet, and at a multiple of 16. -/
theorem C34_symbol_position (base : Nat) (h : base % 16 = 0) :
    base + Packet.symbolOff = (base + Packet.beginOff) + 7 ∧ (base + Packet.symbolOff) % 16 = 0 := by
  have h1 : Packet.symbolOff = 16 := rfl
  have h2 : Packet.beginOff = 9 := rfl
  rw [h1, h2]; omega

/-- **C34**, packets made from a symbol: the symbol is found at `symbol()`, behind 7 bytes of header. -/
theorem C34_of_symbol (l : List Byte) (h : l.length + 16 < 2 ^ 63) :
    ∃ p, Packet.ofSymbol l = .ok p ∧ p.size = l.length + 7 ∧ p.buf.drop Packet.symbolOff = l.map some ∧
      SameAs p (List.replicate 7 none ++ l.map some) := by
  have e : Packet.ofSymbol l = .ok ⟨List.replicate 16 none ++ l.map some⟩ := by
    simp only [Packet.ofSymbol, Pkt.alignment]
    have : Pkt.wrap64 (l.length + 16) = l.length + 16 := by simp only [Pkt.wrap64]; omega
    rw [this, vecNew_ok h]
    rw [rep_add 16]
    show (vecCopy _ 16 l >>= fun x => Except.ok (⟨x⟩ : Packet)) = _
    rw [vecCopy, if_pos (by simp only [List.length_append, List.length_replicate]; omega)]
    have e : List.drop (16 + l.length) (List.replicate 16 (none : Cell) ++ List.replicate l.length none) = [] :=
      List.drop_eq_nil_of_le (by simp only [List.length_append, List.length_replicate]; omega)
    rw [e, List.take_left' (by simp), List.append_nil]; rfl
  refine ⟨_, e, ?_, ?_, ?_⟩
  · simp only [Packet.size, Pkt.wrap64, List.length_append, List.length_replicate, List.length_map, Pkt.shift,
      Pkt.alignment, Pkt.headers]
    omega
  · show (List.replicate 16 none ++ l.map some).drop 16 = _
    rw [List.drop_left' (by simp)]
  · exact Packet.Sim.sameAs ⟨List.replicate 9 none, by simp, rfl, by simp; omega⟩

/-- Three bytes. -/
example : ∃ p, Packet.ofSymbol [1, 2, 3] = .ok p ∧ p.size = 10 ∧ p.buf.drop Packet.symbolOff = [some 1, some 2, some 3] := by
  obtain ⟨p, h1, h2, h3, -⟩ := C34_of_symbol [1, 2, 3] (by decide)
  exact ⟨p, h1, h2, h3⟩

/-- **C34**, moved-from packets: `resize` (as the documentation of the C functions says), `clear` and `assign`
bring a packet that was moved from back to a usable state. -/
theorem C34_moved_from (n : Nat) (l : List Byte) (b : Byte) (hn : n + 9 < 2 ^ 63) (hl : l.length + 9 < 2 ^ 63) :
    (∃ p, Packet.movedFrom.resize n = .ok p ∧ SameAs p (List.replicate n none)) ∧
    (∃ p, Packet.movedFrom.resizeFill n b = .ok p ∧ SameAs p (List.replicate n (some b))) ∧
    (∃ p, Packet.movedFrom.clear = .ok p ∧ SameAs p []) ∧
    (∃ p, Packet.movedFrom.assignRange l = .ok p ∧ SameAs p (l.map some)) := by
  have key : ∀ (m : Nat) (c : Cell), m + 9 < 2 ^ 63 →
      vecResize [] (m + 9) c = .ok (List.replicate 9 c ++ List.replicate m c) := by
    intro m c hm
    rw [vecResize, if_neg (by simp only [vecMax]; omega), if_neg (by simp)]
    rw [List.nil_append, List.length_nil, Nat.sub_zero, rep_add 9]
  refine ⟨⟨⟨List.replicate 9 none ++ List.replicate n none⟩, ?_, Packet.Sim.sameAs ⟨_, by simp, rfl, by simpa using hn⟩⟩,
    ⟨⟨List.replicate 9 (some b) ++ List.replicate n (some b)⟩, ?_,
      Packet.Sim.sameAs ⟨_, by simp, rfl, by simpa using hn⟩⟩,
    ⟨⟨List.replicate 9 none ++ []⟩, ?_, Packet.Sim.sameAs ⟨_, by simp, rfl, by simp⟩⟩,
    ⟨⟨List.replicate 9 none ++ l.map some⟩, ?_, Packet.Sim.sameAs ⟨_, by simp, rfl, by simpa using hl⟩⟩⟩
  · simp only [Packet.resize, Packet.movedFrom]; rw [wrapShift hn, key n none hn]; rfl
  · simp only [Packet.resizeFill, Packet.movedFrom]; rw [wrapShift hn, key n (some b) hn]; rfl
  · rfl
  · simp only [Packet.assignRange, Packet.resize, Packet.movedFrom]; rw [wrapShift hl, key l.length none hl]
    show (vecCopy (List.replicate 9 none ++ List.replicate l.length none) 9 l >>= fun x => Except.ok (⟨x⟩ : Packet)) = _
    rw [vecCopy_ok (by simp) (by simp)]; rfl

/-- What the limit on sizes excludes: `resize(2^64 - 1)`, which a vector refuses with `std::length_error`, leaves
a packet with 8 bytes of storage that claims to have `2^64 - 1` bytes; reading the first one is
undefined. -/
theorem C34_huge_resize :
    vecResize [] (2 ^ 64 - 1) none = .error .length ∧
    (pktRun .empty [.resize (2 ^ 64 - 1)]).map (fun p => (p.buf.length, p.size, p.get 0)) =
      .ok (8, 2 ^ 64 - 1, .error (.ub .oobRead)) := by
  constructor <;> rfl

/-- The same happens to a packet that was moved from: `size()` is `2^64 - 9`. -/
theorem C34_moved_from_size : Packet.movedFrom.size = 2 ^ 64 - 9 := by decide

/-! ## Dumps -/

/-- A packet as users can make one, no longer than 65526 bytes. -/
def Packet.Dumpable (p : Packet) : Prop := ∃ v : List Cell, p.Sim v ∧ v.length ≤ 65526

theorem undump_dump (p : Packet) (h : 0 < p.buf.length) (h' : p.buf.length < 65536) (rest : List Cell) :
    undumpPacket (dumpPacket p ++ rest) = .ok (p, rest) := by
  obtain ⟨buf⟩ := p
  simp only at h h'
  have hsz : ((BitVec.ofNat 16 buf.length).extractLsb' 8 8 ++ (BitVec.ofNat 16 buf.length).extractLsb' 0 8 : BitVec 16).toNat
      = buf.length := by
    have : ∀ x : BitVec 16, x.extractLsb' 8 8 ++ x.extractLsb' 0 8 = x := by
      intro x
      ext i hi
      simp only [BitVec.getElem_append, BitVec.getElem_extractLsb']
      split
      · next h => simp [BitVec.getLsbD_eq_getElem hi]
      · next h =>
        rw [show 8 + (i - 8) = i by omega, BitVec.getLsbD_eq_getElem hi]
    rw [this]
    simp [Nat.mod_eq_of_lt h']
  simp only [undumpPacket, dumpPacket, List.cons_append, List.nil_append]
  have e1 : ∀ (a b : Cell) (t : List Cell), streamCopyN (a :: b :: t) 2 = .ok ([a, b], b :: t) := by
    intro a b t
    rw [streamCopyN, if_pos (by simp)]; rfl
  rw [e1]
  simp only [bind, Except.bind, streamIncr]
  rw [hsz]
  have e2 : streamCopyN (buf ++ rest) buf.length = .ok (buf, (buf.drop (buf.length - 1)) ++ rest) := by
    rw [streamCopyN, if_pos (by simp), List.take_left' rfl, List.drop_append_of_le_length (by omega)]
  obtain ⟨x, hx⟩ : ∃ x, buf.drop (buf.length - 1) = [x] := by
    have : (buf.drop (buf.length - 1)).length = 1 := by simp; omega
    exact List.length_eq_one_iff.1 this
  have e3 : Packet.empty = .ok ⟨List.replicate 9 none⟩ := rfl
  obtain ⟨b, hb, hbl⟩ : ∃ b, vecResize (List.replicate 9 none) buf.length none = .ok b ∧ b.length = buf.length := by
    rw [vecResize, if_neg (by simp only [vecMax]; omega)]
    split
    · next hle => exact ⟨_, rfl, by simp only [List.length_replicate, List.length_take] at hle ⊢; omega⟩
    · next hle => exact ⟨_, rfl, by simp only [List.length_append, List.length_replicate] at hle ⊢; omega⟩
  rw [e3]
  simp only [hb, e2, hx, List.cons_append, List.nil_append]
  rw [List.drop_eq_nil_of_le (by omega), List.append_nil]
  rfl

theorem Packet.Dumpable.bounds {p : Packet} (h : p.Dumpable) : 0 < p.buf.length ∧ p.buf.length < 65536 := by
  obtain ⟨v, ⟨pre, hp, hb, _⟩, hv⟩ := h
  rw [hb, List.length_append, hp]; omega

/-- The packets that a sequence of operations of a user can produce are dumpable when they are no longer than
65526 bytes. -/
theorem dumpable_of_run {o : VNew} {ops : List VOp} {v : List Cell} (h : VRun o ops v) (hv : v.length ≤ 65526) :
    ∃ p, pktRun o ops = .ok p ∧ p.Dumpable := by
  suffices ∃ p, pktRun o ops = .ok p ∧ p.Sim v by
    obtain ⟨p, h₁, h₂⟩ := this; exact ⟨p, h₁, v, h₂, hv⟩
  clear hv
  induction h with
  | start h =>
    obtain ⟨p, h₁, h₂⟩ := o.sim h
    exact ⟨p, by simp only [pktRun, h₁]; rfl, h₂⟩
  | op a _ hw hv ih =>
    obtain ⟨p, h₁, h₂⟩ := ih
    obtain ⟨p', h₃, h₄⟩ := VOp.sim h₂ a hw hv
    exact ⟨p', by rw [pktRun_append, h₁]; exact h₃, h₄⟩

/-- **C35.** Packets of at most 65526 bytes that were written one after the other are read back unchanged, in the
same order, and the stream is left at the first byte that follows them.  (A UDP datagram holds at most 65507
bytes.) -/
theorem C35_dump_round_trip_partial (ps : List Packet) (h : ∀ p ∈ ps, p.Dumpable) (rest : List Cell) :
    undumpN ps.length (dumpAll ps ++ rest) = .ok (ps, rest) := by
  induction ps with
  | nil => rfl
  | cons p ps ih =>
    have hp := (h p (by simp)).bounds
    have e : dumpAll (p :: ps) ++ rest = dumpPacket p ++ (dumpAll ps ++ rest) := by
      simp [dumpAll]
    simp only [List.length_cons, undumpN]
    rw [e, undump_dump p hp.1 hp.2]
    simp only [bind, Except.bind]
    rw [ih (fun q hq => h q (List.mem_cons_of_mem _ hq))]
    rfl

example : ∃ p, pktRun (.range [1#8, 2#8, 3#8]) [] = .ok p ∧ p.Dumpable :=
  dumpable_of_run (.start (by decide)) (by decide)

/-- A packet of 65527 bytes exists. -/
example : ∃ p, pktRun (.sized 65527) [] = .ok p ∧ 65536 ≤ p.buf.length :=
  ⟨⟨List.replicate 65536 none⟩, by
    simp only [pktRun, VNew.pkt, Packet.sized]
    rw [wrapShift (by decide), vecNew_ok (by decide)]; rfl, Nat.le_of_eq List.length_replicate.symm⟩

/-- **C35** fails for a packet of 65527 bytes or more: its length is truncated to 16 bits, and what is read
back differs from it. -/
theorem C35_false (p : Packet) (h : 65536 ≤ p.buf.length) (rest : List Cell) :
    ∀ s, undumpPacket (dumpPacket p ++ rest) ≠ .ok (p, s) := by
  intro s hs
  obtain ⟨buf⟩ := p
  simp only at h
  simp only [undumpPacket, dumpPacket, List.cons_append, List.nil_append] at hs
  have e1 : ∀ (a b : Cell) (t : List Cell), streamCopyN (a :: b :: t) 2 = .ok ([a, b], b :: t) := by
    intro a b t
    rw [streamCopyN, if_pos (by simp)]; rfl
  rw [e1] at hs
  simp only [bind, Except.bind, streamIncr] at hs
  generalize hn : BitVec.toNat _ = n at hs
  have hlt : n < 65536 := by rw [← hn]; exact BitVec.isLt _
  have e3 : Packet.empty = .ok ⟨List.replicate 9 none⟩ := rfl
  rw [e3] at hs
  simp only at hs
  obtain ⟨b, hb, hbl⟩ : ∃ b, vecResize (List.replicate 9 none) n none = .ok b ∧ b.length = n := by
    rw [vecResize, if_neg (by simp only [vecMax]; omega)]
    split
    · next hle => exact ⟨_, rfl, by simp only [List.length_replicate, List.length_take] at hle ⊢; omega⟩
    · next hle => exact ⟨_, rfl, by simp only [List.length_append, List.length_replicate] at hle ⊢; omega⟩
  rw [hb] at hs
  simp only [streamCopyN, List.length_append, if_pos (show n ≤ buf.length + rest.length by omega)] at hs
  split at hs
  · cases hs
  · next t ht =>
    simp only [pure, Except.pure, Except.ok.injEq, Prod.mk.injEq, Packet.mk.injEq] at hs
    have := congrArg List.length hs.1
    rw [List.drop_eq_nil_of_le (by omega)] at this
    simp only [List.length_append, List.length_take, List.length_nil] at this
    omega

theorem replayLoop_dump (ps : List Packet) (hne : ps ≠ []) (h : ∀ p ∈ ps, p.Dumpable) :
    ∀ fuel, ps.length ≤ fuel → replayLoop fuel (dumpAll ps) = .ok ps.dropLast := by
  induction ps with
  | nil => exact absurd rfl hne
  | cons p ps ih =>
    intro fuel hf
    obtain ⟨fuel, rfl⟩ : ∃ f, fuel = f + 1 := ⟨fuel - 1, by simp only [List.length_cons] at hf; omega⟩
    have hp := (h p (by simp)).bounds
    have e : dumpAll (p :: ps) = dumpPacket p ++ dumpAll ps := by simp [dumpAll]
    simp only [replayLoop]
    rw [e, undump_dump p hp.1 hp.2]
    simp only [bind, Except.bind]
    cases ps with
    | nil => simp [dumpAll]; rfl
    | cons q qs =>
      have : dumpAll (q :: qs) ≠ [] := by simp [dumpAll, dumpPacket]
      rw [if_neg this, ih (by simp) (fun q hq => h q (List.mem_cons_of_mem _ hq)) fuel
        (by simp only [List.length_cons] at hf ⊢; omega)]
      rfl

theorem length_le_dumpAll (ps : List Packet) : ps.length ≤ (dumpAll ps).length := by
  induction ps with
  | nil => simp
  | cons p ps ih =>
    have e : dumpAll (p :: ps) = dumpPacket p ++ dumpAll ps := by simp [dumpAll]
    rw [e, List.length_append]
    simp only [dumpPacket, List.length_append, List.length_cons]
    omega

/-- **C47**: what holds of the replay tool.  On the dump of a non-empty sequence of packets it gives its decoder
all of them but the last. -/
theorem C47_replay_partial (ps : List Packet) (hne : ps ≠ []) (h : ∀ p ∈ ps, p.Dumpable) :
    replay (dumpAll ps) = .ok ps.dropLast :=
  replayLoop_dump ps hne h _ (Nat.le_succ_of_le (length_le_dumpAll ps))

/-- Two packets: the first is replayed. -/
example : ∃ p q : Packet, p.Dumpable ∧ q.Dumpable ∧ p.size = 3 ∧ q.size = 1 ∧ replay (dumpAll [p, q]) = .ok [p] := by
  obtain ⟨p, h1, h2⟩ : ∃ p, pktRun (.range [1#8, 2#8, 3#8]) [] = .ok p ∧ p.Dumpable := dumpable_of_run (.start (by decide)) (by decide)
  obtain ⟨q, h3, h4⟩ : ∃ p, pktRun (.range [9#8]) [] = .ok p ∧ p.Dumpable := dumpable_of_run (.start (by decide)) (by decide)
  cases h1
  cases h3
  exact ⟨_, _, h2, h4, rfl, rfl, C47_replay_partial [_, _] (by simp) (by
    intro x hx
    rcases List.mem_cons.1 hx with rfl | hx
    · exact h2
    · rcases List.mem_cons.1 hx with rfl | hx
      · exact h4
      · cases hx)⟩

/-- **C47** fails: no replay of a dump feeds the decoder the packets that were dumped.  The last one is dropped
(tools/replay.cc:64-69 tests for the end of the file after reading a packet, before using it), and an empty dump
is read past its end. -/
theorem C47_false (ps : List Packet) (h : ∀ p ∈ ps, p.Dumpable) : replay (dumpAll ps) ≠ .ok ps := by
  by_cases hne : ps = []
  · subst hne
    intro hx; cases hx
  · rw [C47_replay_partial ps hne h]
    intro hx
    simp only [Except.ok.injEq] at hx
    have := congrArg List.length hx
    have h0 : ps.length ≠ 0 := by simpa using hne
    rw [List.length_dropLast] at this
    omega

end Netcode
