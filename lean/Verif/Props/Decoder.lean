import Verif.Proofs.DecProps
import Verif.Proofs.Failed
import Verif.Props.Field
import Verif.Proofs.Depth
import Verif.Proofs.Check
import Verif.Proofs.Algebra
import Verif.Proofs.SysFacts
import Verif.Props.Defects

/-!
# Properties of the decoder on arbitrary packets

These theorems range over every state of the decoder or over every sequence of calls with arbitrary bytes, as long as
no call meets undefined behaviour.
-/

namespace Netcode

variable {w : Nat}

/-- A clock that does not advance. -/
def clk0 : Clock := fun _ => 0

/-- What an encoder with window 4 and rate 4 emits for eight data: packets 0-3 and 5-8 are sources 0-7, 4 and 9 are the
repairs {0,1,2,3} and {4,5,6,7}. -/
def eight : List (List Byte) :=
  (anyReached (cfg8 true) true ([.setRate 4, .setWindow 4] ++ (List.range 8).map (fun n => .commit (dat n)))).enc.out.map
    (·.bytes)

/-- Give the decoder these packets of `eight`. -/
def give (l : List Nat) : List DAct := l.map (fun i => .packet (eight.getD i []))

/-! ## C24 -/

/-- **C24**, whatever the packets are: each identifier in each ack is one of a source the decoder held (received or
decoded) at some time before the ack. -/
theorem C24_acks_held (gf : GF w) (dbg : Bool) (clk : Clock) (io : Bool) (acts : List DAct) (d : NDec)
    (h : (NDec.init clk io).after gf dbg clk acts = .ok d) :
    ∀ a ∈ d.out, ∀ x ∈ a.ids, (NDec.init clk io).EverHeld gf dbg clk acts x :=
  fun a ha => ((past_after (past_init gf dbg clk io) acts d h).acks.out a ha).2.1

/-- **C24**: `generate_ack` names exactly the sources the decoder holds. -/
theorem C24_names_all_held (gf : GF w) (dbg : Bool) (clk : Clock) (io : Bool) (acts : List DAct) (d : NDec)
    (h : (NDec.init clk io).after gf dbg clk acts = .ok d) :
    ∃ a, d.generateAck.out = d.out ++ [a] ∧ ∀ x, x ∈ a.ids ↔ d.det.Holds x := by
  refine ⟨_, rfl, fun x => ?_⟩
  have hi := (counts_after (counts_init clk io) h).ids
  simp only [hi]
  rw [foldl_setInsert_mem]
  simp [Dec.Holds]

/-- **C24** without ordering: each identifier in an ack is one whose datum was handed over. -/
theorem C24_acks_handed (gf : GF w) (dbg : Bool) (clk : Clock) (acts : List DAct) (d : NDec)
    (h : (NDec.init clk false).after gf dbg clk acts = .ok d) :
    ∀ a ∈ d.out, ∀ x ∈ a.ids, x ∈ d.det.handed := by
  obtain ⟨u, hu, t⟩ := twin_after acts _ _ _ (twin_init clk false) h
  rw [h] at hu
  cases hu
  exact fun a ha => (t.acks.out a ha).2.1

/-- An ack of three sources, one of them decoded. -/
example : ((NDec.init clk0 false).after gf8 true clk0 (give [0, 4, 1, 3] ++ [.genAck])).toOption.map
    (fun d => (d.out, d.det.handed)) = some ([⟨[0, 1, 2, 3], 4⟩], [0, 1, 3, 2]) := by decide +kernel

/-! ## C29 -/

/-- **C29**, counters: whatever is given to a decoder, `nb_received_sources()` and `nb_received_repairs()` count the
packets of each type (truncated ones included), `nb_sent_acks()` the acks sent. -/
theorem C29_counters (gf : GF w) (dbg : Bool) (clk : Clock) (io : Bool) (acts : List DAct) (d : NDec)
    (h : (NDec.init clk io).after gf dbg clk acts = .ok d) :
    d.nbSources = nbOfType 2#8 acts ∧ d.nbRepairs = nbOfType 1#8 acts ∧ d.nbAcks = d.out.length := by
  obtain ⟨a, b, _, _⟩ := after_counters acts _ _ h
  exact ⟨by simpa [NDec.init] using a, by simpa [NDec.init] using b, (counts_after (counts_init clk io) h).acks⟩

/-- **C29**, deliveries (without ordering): the number of data handed over is the number of fresh sources received plus
`nb_decoded()`. -/
theorem C29_deliveries_partial (gf : GF w) (dbg : Bool) (clk : Clock) (acts : List DAct) (d : NDec)
    (h : (NDec.init clk false).after gf dbg clk acts = .ok d) :
    d.data.length = nbFresh gf dbg clk (NDec.init clk false) acts + d.det.nbDecoded := by
  obtain ⟨_, _, _, c⟩ := after_counters acts _ _ h
  have e := (counts_after (counts_init clk false) h).data
  have := c rfl
  simp only [NDec.init, Dec.init, List.length_nil, Nat.zero_add] at this
  rw [e, List.length_map]
  show d.det.log.length = _
  simp only [NDec.init, Dec.init]
  omega

/-- **C29 fails with ordering**: source 3 is received, is neither handed over nor still held. -/
theorem C29_false (dbg : Bool) :
    ¬ ∀ acts d, (NDec.init clk0 true).after gf8 dbg clk0 acts = .ok d →
      nbFresh gf8 dbg clk0 (NDec.init clk0 true) acts + d.det.nbDecoded ≤
        d.data.length + (d.det.sources.keys.filter (fun x => decide (x ∉ d.det.handed))).length := by
  intro h
  have h1 : ∃ d, (NDec.init clk0 true).after gf8 dbg clk0 (give [0, 4, 1, 3, 9]) = .ok d ∧
      ¬ (nbFresh gf8 dbg clk0 (NDec.init clk0 true) (give [0, 4, 1, 3, 9]) + d.det.nbDecoded ≤
        d.data.length + (d.det.sources.keys.filter (fun x => decide (x ∉ d.det.handed))).length) := by
    clear h
    cases ho : (NDec.init clk0 true).after gf8 dbg clk0 (give [0, 4, 1, 3, 9]) with
    | error f =>
      have : ((NDec.init clk0 true).after gf8 dbg clk0 (give [0, 4, 1, 3, 9])).toOption.isSome = true := by
        clear ho; revert dbg; decide +kernel
      rw [ho] at this; cases this
    | ok d =>
      refine ⟨d, rfl, ?_⟩
      have : ((NDec.init clk0 true).after gf8 dbg clk0 (give [0, 4, 1, 3, 9])).toOption.any (fun d =>
          !decide (nbFresh gf8 dbg clk0 (NDec.init clk0 true) (give [0, 4, 1, 3, 9]) + d.det.nbDecoded ≤
            d.data.length + (d.det.sources.keys.filter (fun x => decide (x ∉ d.det.handed))).length)) = true := by
        clear ho; revert dbg; decide +kernel
      rw [ho] at this
      simpa [Except.toOption] using this
  obtain ⟨d, h2, h3⟩ := h1
  exact h3 (h _ d h2)

/-- Three sources, two repairs, one source decoded: four data. -/
example : ((NDec.init clk0 false).after gf8 true clk0 (give [0, 4, 1, 3, 9, 9, 0])).toOption.map
    (fun d => (d.nbSources, d.nbRepairs, d.data.length, d.det.nbDecoded)) = some (4, 3, 4, 1) ∧
    nbFresh gf8 true clk0 (NDec.init clk0 false) (give [0, 4, 1, 3, 9, 9, 0]) = 3 := by decide +kernel

/-! ## C30 -/

/-- **C30**, sources: in any state, a source that is held or older than the window changes nothing but the counters of
received packets. -/
theorem C30_source_ignored (gf : GF w) (dbg : Bool) (clk : Clock) (d : NDec) (p : List Byte) (src : DSource) (n : Nat)
    (hty : p.head? = some 2#8) (hp : readSource p = .ok (src, n)) (h : d.det.Holds src.id ∨ d.det.Outdated src.id) :
    d.notify gf dbg clk p = .ok
      ({ d with nbSources := d.nbSources + 1, ackPackets := (d.ackPackets + 1) % 2 ^ 16 }, .ok n) := by
  rw [NDec.notify_of_source gf dbg clk d (by rw [type_of_head hty]; rfl), hp]
  simp only
  rw [onSource_ignored h.symm]
  simp only [Except.map]
  rw [show d.det = d.gotSource.det from rfl, afterDet_same]
  rfl

/-- **C30**, repairs: in any state, a repair that is held, or lists only sources older than the window, changes nothing
but the counters of received packets. -/
theorem C30_repair_ignored (gf : GF w) (dbg : Bool) (clk : Clock) (d : NDec) (p : List Byte) (r : DRepair) (n : Nat)
    (hty : p.head? = some 1#8) (hp : readRepair p = .ok (r, n)) (hne : r.ids ≠ [])
    (h : r.id ∈ d.det.repairs.keys ∨ ∀ x ∈ r.ids, d.det.Outdated x) :
    d.notify gf dbg clk p = .ok
      ({ d with nbRepairs := d.nbRepairs + 1, ackPackets := (d.ackPackets + 1) % 2 ^ 16 }, .ok n) := by
  rw [NDec.notify_of_repair gf dbg clk d (by rw [type_of_head hty]; rfl), hp]
  simp only
  rw [onRepair_ignored hne (h.imp (fun h => (OMap.has_iff _ _).2 h) (fun h => ?_))]
  · simp only [Except.map]
    rw [show d.det = d.gotRepair.det from rfl, afterDet_same]
    rfl
  · obtain ⟨l, hl, hlt⟩ := h _ (List.getLast_mem hne)
    exact ⟨l, hl, hlt⟩

/-- A held source, an outdated source, a held repair and an outdated repair, after packets that outdate 0-3. -/
example : ((NDec.init clk0 false).after gf8 true clk0 (give [5, 9])).toOption.any (fun d =>
    decide (d.det.Holds 4) && decide (d.det.Outdated 3) && decide (1 ∈ d.det.repairs.keys) &&
    [0, 1, 2, 3].all (fun x => decide (d.det.Outdated x))) = true ∧
    (readSource (eight.getD 5 [])).toOption.map (·.1.id) = some 4 ∧
    (readSource (eight.getD 3 [])).toOption.map (·.1.id) = some 3 ∧
    (readRepair (eight.getD 9 [])).toOption.map (·.1.id) = some 1 ∧
    (readRepair (eight.getD 4 [])).toOption.map (·.1.ids) = some [0, 1, 2, 3] := by decide +kernel

/-! ## C31 -/

/-- **C31.** In any state of a decoder that does not order, a source packet which is not outdated and not held hands its
data over first. -/
theorem C31_immediate (gf : GF w) (dbg : Bool) (clk : Clock) (d d' : NDec) (p : List Byte) (src : DSource) (n : Nat)
    (res : Except CppErr Nat) (hio : d.det.inOrder = false) (hty : p.head? = some 2#8)
    (hp : readSource p = .ok (src, n)) (h1 : ¬ d.det.Outdated src.id) (h2 : ¬ d.det.Holds src.id)
    (h : d.notify gf dbg clk p = .ok (d', res)) :
    res = .ok n ∧ ∃ rest, d'.data = d.data ++ src.sym :: rest := by
  rw [NDec.notify_of_source gf dbg clk d (by rw [type_of_head hty]; rfl), hp] at h
  simp only [map_ok_iff] at h
  obtain ⟨det', ho, h⟩ := h
  cases h
  refine ⟨rfl, ?_⟩
  obtain ⟨t, ht⟩ := onSource_first hio h1 h2 ho
  have hd : det'.log.drop d.gotSource.det.log.length = { id := src.id, data := src.sym, held := d.det.sources.keys } :: t := by
    rw [← ht, List.append_assoc]
    show List.drop d.det.log.length _ = _
    simp
  refine ⟨t.map (·.data), ?_⟩
  unfold NDec.afterDet
  rw [hd, (handleFold_step clk _ _).2.2]
  rfl

/-- A fresh source (3) whose arrival also decodes another one (2). -/
example : ((NDec.init clk0 false).after gf8 true clk0 (give [0, 4, 1])).toOption.any (fun d =>
    !decide (d.det.Holds 3) && !decide (d.det.Outdated 3) &&
    (((d.notify gf8 true clk0 (eight.getD 3 [])).toOption.map (fun x => x.1.data)) == some [dat 0, dat 1, dat 3, dat 2]))
    = true := by decide +kernel

/-! ## C32 -/

/-- The sources a repair packet lists are sorted. -/
theorem readRepair_sorted {p : List Byte} {r : DRepair} {n : Nat} (h : readRepair p = .ok (r, n)) : Sorted r.ids := by
  rw [readRepair_eq] at h
  obtain ⟨⟨x, c⟩, h1, h2⟩ := map_ok_inv h
  cases h2
  unfold repairReader at h1
  obtain ⟨_, c1, _, h1⟩ := rbind_inv h1
  obtain ⟨ids, c2, h2, h1⟩ := rbind_inv h1
  obtain ⟨_, c3, _, h1⟩ := rbind_inv h1
  cases h1
  rw [readIds_eq] at h2
  obtain ⟨nb, c4, _, h2⟩ := rbind_inv h2
  split at h2
  · cases h2; exact List.Pairwise.nil
  · obtain ⟨_, _, _, h2⟩ := rbind_inv h2
    obtain ⟨_, _, _, h2⟩ := rbind_inv h2
    cases h2
    exact foldl_setInsert_sorted _ _ List.Pairwise.nil

/-- **C32.** In any state, a repair (not held, not outdated) all of whose sources are held is counted useless and
decodes nothing; all that is handed over are data held before, and without ordering nothing is. -/
theorem C32_useless (gf : GF w) (dbg : Bool) (clk : Clock) (d d' : NDec) (p : List Byte) (r : DRepair) (n : Nat)
    (res : Except CppErr Nat) (hty : p.head? = some 1#8) (hp : readRepair p = .ok (r, n)) (hne : r.ids ≠ [])
    (hr : r.id ∉ d.det.repairs.keys) (hout : ∃ x ∈ r.ids, ¬ d.det.Outdated x) (hall : ∀ x ∈ r.ids, d.det.Holds x)
    (h : d.notify gf dbg clk p = .ok (d', res)) :
    res = .ok n ∧ d'.det.nbUseless = d.det.nbUseless + 1 ∧ d'.det.nbDecoded = d.det.nbDecoded ∧
    d'.det.nbFailed = d.det.nbFailed ∧
    ∃ new, d'.data = d.data ++ new ∧ (d.det.inOrder = false → new = []) ∧
      ∀ b ∈ new, ∃ k src, d.det.sources.get? k = some src ∧ src.sym = b := by
  have hs := readRepair_sorted hp
  rw [NDec.notify_of_repair gf dbg clk d (by rw [type_of_head hty]; rfl), hp] at h
  simp only [map_ok_iff] at h
  obtain ⟨det', ho, h⟩ := h
  cases h
  have hlast : ∀ l, d.det.lastId = some l → l ≤ r.ids.getLast hne := by
    intro l hl
    obtain ⟨x, hx, hno⟩ := hout
    have h1 : l ≤ x := by
      by_contra hc
      exact hno ⟨l, hl, by omega⟩
    have h2 : x ≤ r.ids.getLast hne := by
      rcases List.mem_iff_append.1 hx with ⟨a, b, e⟩
      rcases List.eq_nil_or_concat b with rfl | ⟨b', y, rfl⟩
      · simp [e]
      · simp only [e, List.concat_eq_append]
        rw [List.getLast_append_of_ne_nil _ (by simp)]
        rw [e] at hs
        have := (List.pairwise_append.1 hs).2.1
        have := (List.pairwise_cons.1 this).1 y (by simp)
        simpa using Nat.le_of_lt this
    omega
  rw [onRepair_useless hne hs (by
    cases hh : d.det.repairs.has r.id with
    | false => rfl
    | true => exact absurd ((OMap.has_iff _ _).1 hh) hr) hlast hall, map_ok_iff] at ho
  obtain ⟨s1, h1, rfl⟩ := ho
  obtain ⟨e1, e2, e3, e4, e5, e6⟩ := dropOutdated_fromHeld h1
  obtain ⟨a1, a2, a3⟩ := afterDet_step clk d.gotRepair { s1 with nbUseless := s1.nbUseless + 1 } e2
  refine ⟨rfl, by rw [a2]; show s1.nbUseless + 1 = _; rw [e4], by rw [a2]; exact e5, by rw [a2]; exact e6,
    (s1.log.drop d.det.log.length).map (·.data), ?_, ?_, ?_⟩
  · unfold NDec.afterDet
    rw [(handleFold_step clk _ _).2.2]
    rfl
  · intro hio; rw [e3 hio]; simp
  · intro b hb
    obtain ⟨ev, hev, rfl⟩ := List.mem_map.1 hb
    obtain ⟨k, hk⟩ := e1 ev hev
    exact ⟨k, _, hk, rfl⟩

/-- **C32.** The symbol of such a repair is never used: two repair packets with the same identifiers, whatever their
symbols and encoded sizes, have the same effect. -/
theorem C32_symbol_unused (gf : GF w) (dbg : Bool) (clk : Clock) (d : NDec) (p q : List Byte) (r t : DRepair) (n : Nat)
    (htp : p.head? = some 1#8) (htq : q.head? = some 1#8) (hp : readRepair p = .ok (r, n))
    (hq : readRepair q = .ok (t, n)) (hid : t.id = r.id) (hids : t.ids = r.ids) (hne : r.ids ≠ [])
    (hall : ∀ x ∈ r.ids, d.det.Holds x) :
    d.notify gf dbg clk p = d.notify gf dbg clk q := by
  have hs := readRepair_sorted hp
  rw [NDec.notify_of_repair gf dbg clk d (by rw [type_of_head htp]; rfl), hp,
    NDec.notify_of_repair gf dbg clk d (by rw [type_of_head htq]; rfl), hq]
  simp only
  have hne' : t.ids ≠ [] := by rw [hids]; exact hne
  have key : d.det.onRepair gf dbg r = d.det.onRepair gf dbg t := by
    by_cases h1 : d.det.repairs.has r.id = true ∨ ∃ l, d.det.lastId = some l ∧ r.ids.getLast hne < l
    · rw [onRepair_ignored hne h1, onRepair_ignored hne' (by rw [hid]; simp only [hids]; exact h1)]
    · rw [not_or] at h1
      have hh : d.det.repairs.has r.id = false := by simpa using h1.1
      have hl : ∀ l, d.det.lastId = some l → l ≤ r.ids.getLast hne := by
        intro l hl
        by_contra hc
        exact h1.2 ⟨l, hl, by omega⟩
      rw [onRepair_useless hne hs hh hl hall,
        onRepair_useless hne' (by rw [hids]; exact hs) (by rw [hid]; exact hh) (by simpa only [hids] using hl)
          (by rw [hids]; exact hall)]
      simp only [hids]
  rw [key]

/-- All the sources of the second repair are held. -/
example : ((NDec.init clk0 false).after gf8 true clk0 (give [5, 6, 7, 8])).toOption.any (fun d =>
    [4, 5, 6, 7].all (fun x => decide (d.det.Holds x)) && !decide (d.det.Outdated 4) &&
    !decide (1 ∈ d.det.repairs.keys) &&
    ((d.notify gf8 true clk0 (eight.getD 9 [])).toOption.map (fun x => (x.1.data.length, x.1.det.nbUseless)) ==
      some (4, 1))) = true ∧
    (readRepair (eight.getD 9 [])).toOption.map (fun x => (x.1.id, x.1.ids)) = some (1, [4, 5, 6, 7]) := by
  decide +kernel

/-- With ordering the arrival of such a repair may hand over sources withheld until then: source 4 waits for 0-3. -/
example : ((NDec.init clk0 true).after gf8 true clk0 (give [5, 6, 7, 8])).toOption.any (fun d =>
    (d.data == []) && ((d.notify gf8 true clk0 (eight.getD 9 [])).toOption.map (fun x => x.1.data) ==
      some [dat 4, dat 5, dat 6, dat 7])) = true := by decide +kernel

/-! ## C33 -/

/-- When `maybe_ack` sends an ack: as many packets as configured were received, or the period (in milliseconds, of a
clock in nanoseconds) has elapsed. -/
def NDec.AckDue (clk : Clock) (d : NDec) : Prop :=
  d.ackNb ≤ d.ackPackets ∨ (d.ackPeriod ≠ 0 ∧ d.ackPeriod * 1000000 ≤ clk d.ticks - d.lastAck)

instance (clk : Clock) (d : NDec) : Decidable (d.AckDue clk) := inferInstanceAs (Decidable (_ ∨ _))

/-- **C33.** In any state `maybe_ack` sends an ack exactly when it is due; the ack then reports the packets received
since the last one and the count restarts. -/
theorem C33_maybe_ack (clk : Clock) (d : NDec) :
    (d.AckDue clk → (d.maybeAck clk).out.length = d.out.length + 1 ∧
      (∃ a, (d.maybeAck clk).out = d.out ++ [a] ∧ a.nbPackets = d.ackPackets) ∧
      (d.maybeAck clk).ackPackets = 0 ∧ (d.maybeAck clk).lastAck = clk d.ticks) ∧
    (¬ d.AckDue clk → (d.maybeAck clk).out = d.out ∧ (d.maybeAck clk).ackPackets = d.ackPackets ∧
      (d.maybeAck clk).lastAck = d.lastAck) := by
  unfold NDec.AckDue NDec.maybeAck NDec.maybeAckWith
  by_cases h1 : d.ackNb ≤ d.ackPackets
  · rw [if_pos h1]
    exact ⟨fun _ => ⟨by simp [NDec.generateAckWith], ⟨_, rfl, rfl⟩, rfl, rfl⟩, fun h => absurd (Or.inl h1) h⟩
  · rw [if_neg h1]
    by_cases h2 : d.ackPeriod = 0
    · rw [if_neg (by simpa using h2)]
      exact ⟨fun h => by rcases h with h | h; exact absurd h h1; exact absurd h2 h.1, fun _ => ⟨rfl, rfl, rfl⟩⟩
    · rw [if_pos h2]
      by_cases h3 : d.ackPeriod * 1000000 ≤ clk d.ticks - d.lastAck
      · simp only [ge_iff_le]
        rw [if_pos h3]
        exact ⟨fun _ => ⟨by simp [NDec.generateAckWith], ⟨_, rfl, rfl⟩, rfl, rfl⟩,
          fun h => absurd (Or.inr ⟨h2, h3⟩) h⟩
      · simp only [ge_iff_le]
        rw [if_neg h3]
        exact ⟨fun h => by rcases h with h | h; exact absurd h h1; exact absurd h.2 h3, fun _ => ⟨rfl, rfl, rfl⟩⟩

/-- Both reasons for an ack, and no reason. -/
example : ({ NDec.init clk0 false with ackPackets := 50 } : NDec).AckDue clk0 ∧
    (NDec.init (fun n => n * 100000000) false).AckDue (fun n => n * 100000000) ∧ ¬ (NDec.init clk0 false).AckDue clk0 := by
  decide +kernel

/-- **C33.** After a call that handed something over, fewer packets are unreported than the configured count. -/
theorem C33_after_delivery (gf : GF w) (dbg : Bool) (clk : Clock) (d d' : NDec) (p : List Byte)
    (res : Except CppErr Nat) (hnb : 0 < d.ackNb) (h : d.notify gf dbg clk p = .ok (d', res)) (hd : d'.data ≠ d.data) :
    d'.ackPackets < d'.ackNb := by
  have fin : ∀ (u : NDec) (det' : Dec), u.ackNb = d.ackNb → u.data = d.data → (u.afterDet clk det').data ≠ d.data →
      (u.afterDet clk det').ackPackets < (u.afterDet clk det').ackNb := by
    intro u det' e1 e2 hne
    unfold NDec.afterDet at hne ⊢
    refine handleFold_low clk _ _ (by show 0 < u.ackNb; rw [e1]; exact hnb) ?_
    intro hc
    rw [hc] at hne
    exact hne e2
  cases notify_got h with
  | other => exact absurd rfl hd
  | badSource => exact absurd rfl hd
  | badRepair => exact absurd rfl hd
  | source s n det' => exact fin _ _ rfl rfl hd
  | repair s n det' => exact fin _ _ rfl rfl hd

/-- **C33.** In any history the k-th ack reports the number of source and repair packets received between the previous
ack and itself, modulo 2^16. -/
theorem C33_reports_partial (gf : GF w) (dbg : Bool) (clk : Clock) (io : Bool) (acts : List DAct) (d : NDec)
    (h : (NDec.init clk io).after gf dbg clk acts = .ok d) :
    d.out.map (·.nbPackets) = (sinceLast 0 (ackTrace gf dbg clk (NDec.init clk io) acts)).map (· % 65536) := by
  have := ackTrace_sound acts (NDec.init clk io) d (by show (0 : Nat) < 2 ^ 16; decide) h
  simpa [NDec.init] using this

/-- **C33.** Hence exactly that number when fewer than 65536 packets arrive between two acks. -/
theorem C33_reports_exact_partial (gf : GF w) (dbg : Bool) (clk : Clock) (io : Bool) (acts : List DAct) (d : NDec)
    (h : (NDec.init clk io).after gf dbg clk acts = .ok d)
    (hlt : ∀ n ∈ sinceLast 0 (ackTrace gf dbg clk (NDec.init clk io) acts), n < 65536) :
    d.out.map (·.nbPackets) = sinceLast 0 (ackTrace gf dbg clk (NDec.init clk io) acts) := by
  rw [C33_reports_partial gf dbg clk io acts d h]
  conv_rhs => rw [← List.map_id (sinceLast 0 (ackTrace gf dbg clk (NDec.init clk io) acts))]
  exact List.map_congr_left (fun n hn => Nat.mod_eq_of_lt (hlt n hn))

/-- **C33.** The configured count is at most 128 in any history. -/
theorem C33_clamped (gf : GF w) (dbg : Bool) (clk : Clock) (io : Bool) (acts : List DAct) (d : NDec)
    (h : (NDec.init clk io).after gf dbg clk acts = .ok d) : d.ackNb ≤ 128 :=
  (counts_after (counts_init clk io) h).nb

/-- **C33.** `set_ack_nb_packets` sets the count, limited to 128. -/
theorem C33_set_count (dbg : Bool) (d : NDec) (n : Nat) (h : 0 < n) :
    d.setAckNb dbg n = .ok { d with ackNb := if n ≤ 128 then n else 128 } := by
  unfold NDec.setAckNb
  rw [cassert_ok _ (by simpa using h)]
  simp only [bind, Except.bind, pure, Except.pure]
  rw [show min n 128 = if n ≤ 128 then n else 128 by split <;> omega]

/-- A held source that arrives again `n` times. -/
theorem again_after (gf : GF w) (dbg : Bool) (clk : Clock) (d : NDec) (p : List Byte) (src : DSource) (n : Nat)
    (hty : p.head? = some 2#8) (hp : readSource p = .ok (src, n)) (h : d.det.Holds src.id) (k : Nat) :
    ∃ d', d.after gf dbg clk (List.replicate k (.packet p)) = .ok d' ∧ d'.det = d.det ∧
      d'.out = d.out ∧ d'.ackPackets % 2 ^ 16 = (d.ackPackets + k) % 2 ^ 16 := by
  induction k generalizing d with
  | zero => exact ⟨d, rfl, rfl, rfl, rfl⟩
  | succ k ih =>
    have h1 := C30_source_ignored gf dbg clk d p src n hty hp (Or.inl h)
    obtain ⟨d', e1, e2, e3, e4⟩ := ih { d with nbSources := d.nbSources + 1, ackPackets := (d.ackPackets + 1) % 2 ^ 16 } h
    refine ⟨d', ?_, e2, e3, ?_⟩
    · rw [List.replicate_succ]
      exact after_cons.2 ⟨_, by simp only [NDec.act, h1]; rfl, e1⟩
    · rw [e4]; show ((d.ackPackets + 1) % 2 ^ 16 + k) % 2 ^ 16 = _; omega

/-- **C33 fails beyond 2^16 packets**: a source that arrives 65537 times is acknowledged as one packet (`maybe_ack` is
called only when data are handed over, so that the repetitions trigger no ack). -/
theorem C33_false (dbg : Bool) :
    ¬ ∀ acts d, (NDec.init clk0 false).after gf8 dbg clk0 acts = .ok d →
      d.out.map (·.nbPackets) = sinceLast 0 (ackTrace gf8 dbg clk0 (NDec.init clk0 false) acts) := by
  intro h
  have hp : ∃ src n, (eight.getD 0 []).head? = some 2#8 ∧ readSource (eight.getD 0 []) = .ok (src, n) ∧ src.id = 0 := by
    refine ⟨⟨0, dat 0⟩, 9, by decide +kernel, ?_, rfl⟩
    have : (readSource (eight.getD 0 [])).toOption = some (⟨0, dat 0⟩, 9) := by decide +kernel
    cases hr : readSource (eight.getD 0 []) with
    | error e => rw [hr] at this; cases this
    | ok x => rw [hr] at this; cases this; rfl
  obtain ⟨src, n, hty, hr, hid⟩ := hp
  have one : nbOfType 1#8 [.packet (eight.getD 0 [])] + nbOfType 2#8 [.packet (eight.getD 0 [])] = 1 := by
    simp only [nbOfType, hty]; decide
  -- the first arrival
  obtain ⟨d1, hd1, a1, a2, a3⟩ : ∃ d1, (NDec.init clk0 false).act gf8 dbg clk0 (.packet (eight.getD 0 [])) = .ok d1 ∧
      d1.det.Holds 0 ∧ d1.out = [] ∧ d1.ackPackets = 1 := by
    have : ((NDec.init clk0 false).act gf8 dbg clk0 (.packet (eight.getD 0 []))).toOption.any (fun d1 =>
        decide (d1.det.Holds 0 ∧ d1.out = [] ∧ d1.ackPackets = 1)) = true := by
      clear h; revert dbg; decide +kernel
    cases ho : (NDec.init clk0 false).act gf8 dbg clk0 (.packet (eight.getD 0 [])) with
    | error e => rw [ho] at this; cases this
    | ok d1 => rw [ho] at this; exact ⟨d1, rfl, by simpa [Except.toOption] using this⟩
  obtain ⟨d2, hd2, b1, b2, b3⟩ := again_after gf8 dbg clk0 d1 _ src n hty hr (by rw [hid]; exact a1) 65536
  have b4 : d2.ackPackets = 1 := by
    have hlt : d2.ackPackets < 2 ^ 16 :=
      (past_after (past_init gf8 dbg clk0 false) (.packet (eight.getD 0 []) :: List.replicate 65536 (.packet (eight.getD 0 [])))
        d2 (after_cons.2 ⟨d1, hd1, hd2⟩)).acks.packets
    rw [a3] at b3
    omega
  -- the ack
  have hall : (NDec.init clk0 false).after gf8 dbg clk0
      ((.packet (eight.getD 0 []) :: List.replicate 65536 (.packet (eight.getD 0 []))) ++ [.genAck]) = .ok d2.generateAck :=
    after_snoc.2 ⟨d2, after_cons.2 ⟨d1, hd1, hd2⟩, rfl⟩
  have h1 := h _ _ hall
  have h2 : d2.generateAck.out.map (·.nbPackets) = [1] := by
    simp only [NDec.generateAck, NDec.generateAckWith, b2, a2, b4, List.nil_append, List.map_cons, List.map_nil]
  rw [h2] at h1
  -- 65537 packets were received before it
  have key : ∀ (k m : Nat) (d d' : NDec), d.after gf8 dbg clk0 (List.replicate k (.packet (eight.getD 0 [])) ++ [.genAck])
      = .ok d' → d.det.Holds 0 →
      sinceLast m (ackTrace gf8 dbg clk0 d (List.replicate k (.packet (eight.getD 0 [])) ++ [.genAck])) = [m + k] := by
    intro k
    induction k with
    | zero =>
      intro m d d' _ _
      show sinceLast m [(0, (d.out ++ [_]).length - d.out.length)] = _
      rw [List.length_append, Nat.add_sub_cancel_left]
      rfl
    | succ k ih =>
      intro m d d' hd hh
      rw [List.replicate_succ, List.cons_append] at hd ⊢
      obtain ⟨e1, f1, f2⟩ := after_cons.1 hd
      have g := C30_source_ignored gf8 dbg clk0 d _ src n hty hr (by rw [hid]; exact Or.inl hh)
      have f1' := f1
      simp only [NDec.act, g, Except.map, Except.ok.injEq] at f1'
      unfold ackTrace
      rw [f1]
      simp only
      have e0 : e1.out.length - d.out.length = 0 := by rw [← f1']; simp
      rw [e0]
      simp only [sinceLast]
      rw [ih _ e1 d' f2 (by rw [← f1']; exact hh)]
      rw [one]
      congr 1
      omega
  rw [List.cons_append] at h1
  unfold ackTrace at h1
  rw [hd1] at h1
  simp only [a2, List.length_nil, Nat.zero_sub, sinceLast] at h1
  rw [key 65536 _ d1 d2.generateAck (by
    obtain ⟨e, g1, g2⟩ := after_cons.1 (by rw [List.cons_append] at hall; exact hall)
    rw [hd1] at g1; cases g1; exact g2) a1] at h1
  rw [one] at h1
  simp at h1

/-- An ack is sent at the third packet, the second one is forced. -/
example : ((NDec.init clk0 false).after gf8 true clk0 ([.setAckNb 3] ++ give [0, 1, 2, 3] ++ [.maybeAck, .genAck])).toOption.map
      (fun d => d.out) = some [⟨[0, 1], 3⟩, ⟨[0, 1, 2, 3], 1⟩] ∧
    ackTrace gf8 true clk0 (NDec.init clk0 false) ([.setAckNb 3] ++ give [0, 1, 2, 3] ++ [.maybeAck, .genAck]) =
      [(0, 0), (1, 0), (1, 0), (1, 1), (1, 0), (0, 0), (0, 1)] := by decide +kernel

/-! ## C38 -/

/-- **C38.** In any state (even one no history leads to) and for any bytes, the bounds on the recursion and on the loops
of the decoder are never reached: the call terminates. -/
theorem C38_terminates (gf : GF w) (dbg : Bool) (clk : Clock) (d : NDec) (p : List Byte) :
    d.notify gf dbg clk p ≠ .error .fuel := by
  by_cases hp : p = []
  · subst hp
    unfold NDec.notify
    cases dbg <;> simp [cassert, getPacketType, bind, Except.bind]
  by_cases h2 : getPacketType p = .ok .source
  · rw [NDec.notify_of_source gf dbg clk d h2]
    rcases readSource_total p with ⟨s, n, hr, _⟩ | hr
    · rw [hr]
      simp only
      cases ho : d.det.onSource gf dbg s with
      | ok x => simp [Except.map]
      | error f =>
        have := noFuel_onSource gf dbg d.det s
        unfold NoFuel at this
        rw [ho] at this
        simpa [Except.map] using this
    · rw [hr]; simp
  · by_cases h1 : getPacketType p = .ok .repair
    · rw [NDec.notify_of_repair gf dbg clk d h1]
      rcases readRepair_total p with ⟨s, n, hr, _⟩ | hr
      · rw [hr]
        simp only
        cases ho : d.det.onRepair gf dbg s with
        | ok x => simp [Except.map]
        | error f =>
          have := noFuel_onRepair gf dbg d.det s
          unfold NoFuel at this
          rw [ho] at this
          simpa [Except.map] using this
      · rw [hr]; simp
    · rw [NDec.notify_of_other gf dbg clk d hp h2 h1]; simp

/-- **C38.** The bound on the recursion has no influence: any larger one gives the same result. -/
theorem C38_bound_irrelevant (gf : GF w) (dbg : Bool) (src : DSource) (s : Dec) (n : Nat) :
    addSource gf dbg (s.fuel + n) src s = addSource gf dbg s.fuel src s := addSource_fuel gf dbg src s n

/-- **C38.** `add_source_recursive` nests at most (number of repairs held) + 1 calls, and each of them makes at most one
iteration per missing source: the code restricted to that (`addNested`) does the same. -/
theorem C38_nesting (gf : GF w) (dbg : Bool) (src : DSource) (s : Dec) :
    addNested gf dbg (s.repairs.length + 1) src s = addSource gf dbg s.fuel src s ∧
    addNested gf dbg (s.repairs.length + 1) src s ≠ .error .fuel := by
  rw [addNested_eq]
  exact ⟨rfl, noFuel_addSource _ _ _ _⟩

/-- The nesting is needed: with one repair held, the arrival of source 3 nests a second call, for source 2. -/
example : ((NDec.init clk0 false).after gf8 true clk0 (give [0, 4, 1])).toOption.any (fun d =>
    (d.det.repairs.length == 1) && (faultOf (addNested gf8 true 1 ⟨3, dat 3⟩ d.det) == some .fuel) &&
    (faultOf (addNested gf8 true 2 ⟨3, dat 3⟩ d.det) == none)) = true := by decide +kernel

/-! ## C39 -/

/-- **C39.** In any state in which decoding is attempted with as many repairs as missing sources (at least two) whose
coefficients form a matrix without inverse: exactly the last repair held is given up, the failure is counted, nothing is
handed over, no source is forgotten.  (`hlive`: the links of the missing sources are to repairs that are held, as they are after all
the schedules of C43.) -/
theorem C39_one_repair_lost_partial (hv : ValidW w) (gf : GF w) (dbg : Bool) (s : Dec)
    (hlen : s.missing.length = s.repairs.length) (hgt : 1 < s.repairs.length)
    (hlive : ∀ x l, s.missing.get? x = some l → ∀ rid ∈ l, rid ∈ s.repairs.keys)
    (hsing : ¬ ∃ N, IsInverse gf s.repairs.length N (coeffMatrix w s.repairs s.missing)) :
    ∃ s' init rid r, s.fullDecode gf dbg = .ok s' ∧ s.repairs = init ++ [(rid, r)] ∧
      s'.repairs = s.repairs.erase rid ∧ s'.nbFailed = s.nbFailed + 1 ∧ s'.log = s.log ∧ s'.sources = s.sources ∧
      s'.nbDecoded = s.nbDecoded := by
  have := fact_of_valid hv
  cases hi : invert gf s.repairs.length (coeffMatrix w s.repairs s.missing) with
  | ok inv => exact absurd ⟨inv, invert_inverse _ _ _ hi⟩ hsing
  | error c =>
    obtain ⟨init, rid, r, h1, h2⟩ := fullDecode_singular (dbg := dbg) hlen hgt hlive hi (invert_fail _ _ _ hi).1
    exact ⟨_, init, rid, r, h2, h1, rfl, rfl, rfl, rfl, rfl⟩

/-- Three repairs of three missing sources over GF(2^4), the first two with coefficients that depend on each other. -/
def dependentState : Dec :=
  { Dec.init false with
    repairs := [1, 2, 3].map (fun r => (r, ⟨r, [3, 4, 5], 1#16, [7#8], 1⟩)),
    missing := [3, 4, 5].map (fun x => (x, [1, 2, 3])) }

/-- The hypotheses are met: that state. -/
example : ∃ s' init rid r, dependentState.fullDecode gf4 true = .ok s' ∧ dependentState.repairs = init ++ [(rid, r)] ∧
    s'.repairs = dependentState.repairs.erase rid ∧ s'.nbFailed = dependentState.nbFailed + 1 ∧
    s'.log = dependentState.log ∧ s'.sources = dependentState.sources ∧ s'.nbDecoded = dependentState.nbDecoded := by
  refine C39_one_repair_lost_partial (.inl rfl) gf4 true dependentState rfl (by decide) ?_ ?_
  · intro x l h rid hr
    have hm := List.mem_map.1 (OMap.mem_of_get? h)
    obtain ⟨y, _, hy⟩ := hm
    cases hy
    exact hr
  · rw [← C17_success_iff (.inl rfl)]
    rintro ⟨inv, hi⟩
    have : (match invert gf4 dependentState.repairs.length (coeffMatrix 4 dependentState.repairs dependentState.missing) with
      | .error _ => true
      | .ok _ => false) = true := by decide +kernel
    rw [hi] at this
    cases this

/-- **C39.** Whatever the state of the decoder and the bytes of a packet: the packet raises the number of failed full decodings
by one or not at all. If it does, each failure costs one repair: a repair packet has then rebuilt nothing, handed over
nothing (without ordering) and left no more repairs than were held before it; a source packet that rebuilt k sources has left at
least k + 1 fewer repairs. -/
theorem C39_packet_partial (gf : GF w) (dbg : Bool) (clk : Clock) (d d' : NDec) (p : List Byte) (res : Except CppErr Nat)
    (h : d.notify gf dbg clk p = .ok (d', res)) :
    d'.det.nbFailed = d.det.nbFailed ∨ (d'.det.nbFailed = d.det.nbFailed + 1 ∧
      ((p.head? = some 1#8 ∧ d'.det.nbDecoded = d.det.nbDecoded ∧ d'.det.repairs.length ≤ d.det.repairs.length ∧
          (d.det.inOrder = false → d'.det.log = d.det.log)) ∨
        (p.head? = some 2#8 ∧ d'.det.nbDecoded + d'.det.nbUseless + d'.det.repairs.length + 1 ≤
          d.det.nbDecoded + d.det.nbUseless + d.det.repairs.length))) := by
  cases notify_got h with
  | other => exact .inl rfl
  | badSource => exact .inl rfl
  | badRepair => exact .inl rfl
  | source s n det' hh _ ho =>
    rw [(afterDet_step clk d.gotSource det' (onSource_ext ho).log).2.1]
    rcases onSource_failed ho with e | ⟨e1, e2⟩
    · exact .inl e
    · exact .inr ⟨e1, .inr ⟨hh, e2⟩⟩
  | repair s n det' hh _ ho =>
    rw [(afterDet_step clk d.gotRepair det' (onRepair_ext ho).log).2.1]
    rcases onRepair_failed ho with e | ⟨e1, e2⟩
    · exact .inl e
    · exact .inr ⟨e1, .inl ⟨hh, e2⟩⟩

/-- GF(2^4), exact arithmetic, a clock that does not advance. -/
def cfg4 (dbg : Bool) : Cfg 4 := ⟨gf4, F0, dbg, fun _ => 0⟩

/-- Packets 0-5 are sources, 6-9 repairs of all six; 3, 4 and 5 are lost. -/
def blameActs : List Act :=
  [.setRate 1000, .commit [1], .commit [2], .commit [3], .commit [4], .commit [5], .commit [6]] ++
    List.replicate 4 .repair ++ [.deliver 0, .deliver 1, .deliver 2, .deliver 7, .deliver 8]

/-- **C39 fails**: the repair given up is the last one, which is independent of the two others although these depend on
each other. -/
theorem C39_false (dbg : Bool) : ∃ s s', Reach (cfg4 dbg) false s ∧ s.step (cfg4 dbg) (.deliver 9) = .ok s' ∧
    s.dec.det.repairs.keys = [1, 2] ∧ s'.dec.det.repairs.keys = [1, 2] ∧ s'.dec.det.missing.keys = [3, 4, 5] ∧
    s'.dec.det.nbFailed = s.dec.det.nbFailed + 1 ∧
    (∃ a, ∀ x ∈ [3, 4, 5], coefficient 4 2 x = gf4.mul a (coefficient 4 1 x)) ∧
    ∀ a b, ¬ ∀ x ∈ [3, 4, 5], coefficient 4 3 x = gf4.mul a (coefficient 4 1 x) ^^^ gf4.mul b (coefficient 4 2 x) := by
  have h0 : (runAllowed (cfg4 dbg) (Sys.init (cfg4 dbg).clk false) blameActs).isSome = true := by
    revert dbg; decide +kernel
  have h1 : ((reached (cfg4 dbg) false blameActs).step (cfg4 dbg) (.deliver 9)).toOption.any (fun s' => decide (
      (reached (cfg4 dbg) false blameActs).dec.det.repairs.keys = [1, 2] ∧ s'.dec.det.repairs.keys = [1, 2] ∧
      s'.dec.det.missing.keys = [3, 4, 5] ∧
      s'.dec.det.nbFailed = (reached (cfg4 dbg) false blameActs).dec.det.nbFailed + 1)) = true := by
    clear h0; revert dbg; decide +kernel
  cases hs : (reached (cfg4 dbg) false blameActs).step (cfg4 dbg) (.deliver 9) with
  | error f => rw [hs] at h1; cases h1
  | ok s' =>
    rw [hs] at h1
    obtain ⟨a1, a2, a3, a4⟩ : _ ∧ _ ∧ _ ∧ _ := by
      simpa only [Except.toOption, Option.any_some, decide_eq_true_eq] using h1
    refine ⟨_, s', reached_reach h0, hs, a1, a2, a3, a4, by decide +kernel, by decide +kernel⟩

/-! ## C44 -/

/-- Packets 0-3 are sources, 4-10 repairs of all four; 0 and 3 are lost. -/
def minorActs : List Act :=
  [.setRate 1000, .commit [1], .commit [2], .commit [3], .commit [4]] ++ List.replicate 7 .repair ++
    [.deliver 1, .deliver 2, .deliver 6, .deliver 10]

/-- **C44 fails**: after two different repairs of all four sources, the two lost ones stay missing. -/
theorem C44_false (dbg : Bool) : ∃ s, Reach (cfg8 dbg) false s ∧ s.hist = [1, 2, 6, 10] ∧
    s.enc.out[6]?.map (fun p => match p with | .repair r => r.ids | _ => []) = some [0, 1, 2, 3] ∧
    s.enc.out[10]?.map (fun p => match p with | .repair r => r.ids | _ => []) = some [0, 1, 2, 3] ∧
    s.dec.det.missing.keys = [0, 3] ∧ s.dec.det.nbFailed = 1 ∧ s.dec.det.nbDecoded = 0 :=
  ⟨reached (cfg8 dbg) false minorActs, reached_reach (by revert dbg; decide +kernel), by revert dbg; decide +kernel,
    by revert dbg; decide +kernel, by revert dbg; decide +kernel, by revert dbg; decide +kernel,
    by revert dbg; decide +kernel, by revert dbg; decide +kernel⟩

/-! ## C45 -/

/-- **C45.** In any history each repair packet is used at most once: `nb_decoded()`, `nb_failed_full_decodings()`,
`nb_useless_repairs()` and the number of repairs held add up to at most the number of repair packets received. -/
theorem C45_no_free_data (gf : GF w) (dbg : Bool) (clk : Clock) (io : Bool) (acts : List DAct) (d : NDec)
    (h : (NDec.init clk io).after gf dbg clk acts = .ok d) :
    d.det.nbDecoded + d.det.nbFailed + d.det.nbUseless + d.det.repairs.length ≤ nbOfType 1#8 acts := by
  have h1 := (counts_after (counts_init clk io) h).uses
  rw [(C29_counters gf dbg clk io acts d h).2.1] at h1
  exact h1

example : ((NDec.init clk0 false).after gf8 true clk0 (give [0, 4, 1, 3, 5, 9])).toOption.map (fun d =>
    (d.det.nbDecoded, d.det.repairs.length)) = some (1, 1) ∧ nbOfType 1#8 (give [0, 4, 1, 3, 5, 9]) = 2 := by
  decide +kernel

/-- Two repairs held and one that made a decoding fail: the bound is reached. -/
example (dbg : Bool) : (anyReached (cfg4 dbg) false (blameActs ++ [.deliver 9])).dec.det.nbFailed = 1 ∧
    (anyReached (cfg4 dbg) false (blameActs ++ [.deliver 9])).dec.det.repairs.length = 2 ∧
    (anyReached (cfg4 dbg) false (blameActs ++ [.deliver 9])).dec.nbRepairs = 3 := by
  revert dbg; decide +kernel

/-! ## C46 -/

/-- **C46.** Ordering does not influence decoding: whatever a decoder with ordering is given without undefined behaviour,
one without ordering that is given the same holds the same sources and repairs, misses the same sources and has the same
counters. -/
theorem C46_ordering_neutral (gf : GF w) (dbg : Bool) (clk : Clock) (acts : List DAct) (d : NDec)
    (h : (NDec.init clk true).after gf dbg clk acts = .ok d) :
    ∃ u, (NDec.init clk false).after gf dbg clk acts = .ok u ∧ u.det.sources = d.det.sources ∧
      u.det.repairs = d.det.repairs ∧ u.det.missing = d.det.missing ∧ u.det.lastId = d.det.lastId ∧
      u.det.nbDecoded = d.det.nbDecoded ∧ u.det.nbUseless = d.det.nbUseless ∧ u.det.nbFailed = d.det.nbFailed ∧
      u.nbSources = d.nbSources ∧ u.nbRepairs = d.nbRepairs := by
  obtain ⟨u, hu, t⟩ := twin_after acts _ _ _ (twin_init clk true) h
  have s := t.like.same
  exact ⟨u, hu, s.sources, s.repairs, s.missing, s.lastId, s.dec, s.useless, s.failed, t.src, t.rep⟩

example : ((NDec.init clk0 true).after gf8 true clk0 (give [0, 2, 3, 4, 9, 6])).toOption.map (fun d =>
    ((d.det.sources.keys, d.det.missing.keys), d.det.repairs.keys, d.data)) =
      some (([5], [4, 6, 7]), [1], [dat 0, dat 1, dat 2, dat 3]) ∧
  ((NDec.init clk0 false).after gf8 true clk0 (give [0, 2, 3, 4, 9, 6])).toOption.map (fun d =>
    ((d.det.sources.keys, d.det.missing.keys), d.det.repairs.keys, d.data)) =
      some (([5], [4, 6, 7]), [1], [dat 0, dat 2, dat 3, dat 1, dat 5]) := by decide +kernel

end Netcode
