import Verif.Proofs.Gap
import Verif.Spec.OtherRun

/-!
# Gaps of 65536 identifiers in acks and repairs

Acks and repairs give the difference of consecutive identifiers with 16 bits.  These are the consequences for an encoder and a decoder.
-/

set_option linter.unusedSectionVars false

namespace Netcode

variable {w : Nat} {c : Cfg w} {s : Sys}

/-- Two lists of identifiers, the same bytes. -/
theorem same_bytes : writeIds [0, 65537] = writeIds [0, 1] := by decide +kernel

/-- **C61 fails** for long outages: of 65538 sources only the first and the last arrive, and the ack of these two makes the encoder
remove source 1 from its window, which the decoder does not know, and keep source 65537, which it knows. -/
theorem C61_false (hc : c.Ok) (d : List Byte) (hd : DataOk w d) :
    ∃ s s1 s2, Reach c false s ∧ s.committed.length = 65538 ∧ (∀ i, i ∈ s.hist ↔ i = 0 ∨ i = 65537) ∧
      s.step c .genAck = .ok s1 ∧ s1.step c (.ack s.dec.out.length) = .ok s2 ∧
      1 ∈ s.enc.win ∧ ¬ s.dec.det.Knows 1 ∧ 1 ∉ s2.enc.win ∧
      65537 ∈ s.enc.win ∧ s.dec.det.Knows 65537 ∧ 65537 ∈ s2.enc.win := by
  have := fact_of_valid hc.width
  obtain ⟨N, hN⟩ : ∃ N, N = 65538 := ⟨_, rfl⟩
  obtain ⟨s, h, h1, h2, h3, h4, h5, h6, h7, -, h8, hQ⟩ :=
    gap_state hc (fun _ => d) (fun _ => hd) (fun x => decide (x = 0 ∨ x = 65537)) N (by omega)
  have hholds : ∀ x, s.dec.det.Holds x ↔ (x = 0 ∨ x = 65537) := by
    intro x
    have : s.dec.det.Holds x ↔ (s.dec.det.sources.get? x).isSome := by
      rw [Option.isSome_iff_exists, OMap.get?_isSome_iff]; rfl
    rw [this, hQ.held]
    by_cases hx : x = 0 ∨ x = 65537
    · rw [if_pos ⟨by omega, by simpa using hx⟩]; simp [hx]
    · rw [if_neg (fun hh => hx (by simpa using hh.2))]; simp [hx]
  obtain ⟨acts, g1, g2⟩ := anyReach_dec (reach_any h)
  obtain ⟨a, hout, hids⟩ := C24_names_all_held c.gf c.dbg c.clk false acts s.dec g1
  obtain ⟨acts2, g3, -⟩ := anyReach_dec (s := { s with dec := s.dec.generateAck }) (.step (a := .genAck) (reach_any h) trivial rfl)
  have ho := (past_after (past_init c.gf c.dbg c.clk false) acts2 _ g3).acks.out a (by show a ∈ s.dec.generateAck.out; rw [hout]; simp)
  have hai : a.ids = [0, 65537] := by
    refine sorted_ext ho.1 (by decide) (fun x => ?_)
    rw [hids, hholds]; simp
  have hget : s.dec.generateAck.out[s.dec.out.length]? = some a := by rw [hout]; simp
  have hb : (writeAck a).flatten = (writeAck ⟨[0, 1], a.nbPackets⟩).flatten := by
    unfold writeAck
    rw [hai, same_bytes]
  have hwin : s.enc.win = List.range N := by
    unfold Enc.win
    rw [h5, List.map_map]
    exact List.map_id _
  have hsort : Sorted (s.enc.sources.map (·.id)) := by
    show Sorted s.enc.win
    rw [hwin]
    exact List.pairwise_lt_range
  refine ⟨s, { s with dec := s.dec.generateAck }, { s with enc := s.enc.gotAck.applyAck c.F ⟨[0, 1], a.nbPackets⟩, dec := s.dec.generateAck, errs := s.errs },
    h, by rw [h1, List.length_map, List.length_range]; exact hN, fun i => ?_, rfl, ?_, ?_, ?_, ?_, ?_, .inr ((hholds _).2 (.inr rfl)), ?_⟩
  · rw [h8, List.mem_filter, List.mem_range, decide_eq_true_eq]
    omega
  · simp only [Sys.step, hget]
    show (do let (e, x) ← s.enc.notify c.F c.dbg (writeAck a).flatten; _) = _
    rw [hb, Enc.notify_of_ack c.F c.dbg s.enc (getPacketType_ack _), readAck_writeAck ⟨[0, 1], a.nbPackets⟩ ho.2.2 (show WireIds [0, 1] by decide)]
    rfl
  · rw [hwin, List.mem_range]; omega
  · rintro (hk | hk)
    · have := (hQ.handed 1 hk).2
      simp at this
    · have := (hholds 1).1 hk
      omega
  · show 1 ∉ (eraseIds s.enc.sources [0, 1]).map (·.id)
    rw [eraseIds_eq _ _ hsort (by decide)]
    intro hm
    obtain ⟨y, hy, e⟩ := List.mem_map.1 hm
    have := (List.mem_filter.1 hy).2
    rw [e] at this
    simp at this
  · rw [hwin, List.mem_range]; omega
  · show 65537 ∈ (eraseIds s.enc.sources [0, 1]).map (·.id)
    rw [eraseIds_eq _ _ hsort (by decide)]
    refine List.mem_map.2 ⟨⟨65537, d⟩, List.mem_filter.2 ⟨?_, by simp⟩, rfl⟩
    rw [h5]
    exact List.mem_map.2 ⟨65537, List.mem_range.2 (by omega), rfl⟩

/-! ## A repair -/

/-- The repair of source 0, five bytes 1, and source 65537, four bytes 3. -/
def gapRepair : ERepair := ⟨0, [0, 65537], 0x1b#16, [0x0c, 0x0c, 0x0c, 0x0c, 0x03]⟩

/-- What a decoder reads: a repair of sources 0 and 1. -/
def gapRead : DRepair := ⟨0, [0, 1], 0x1b#16, [0x0c, 0x0c, 0x0c, 0x0c, 0x03] ++ (writeRepair gapRepair).flatten.drop 12, 5⟩

/-- The repair without source 1, five bytes 2. -/
def gapLeft : DRepair :=
  ⟨0, [0, 1], 0x0f#16, [0x04, 0x04, 0x04, 0x04, 0x0b] ++ (writeRepair gapRepair).flatten.drop 12, 5⟩

theorem gapRead_ids : gapRead.ids = [0, 1] := rfl

/-- … of which source 0 is left. -/
def gapOne : DRepair := { gapLeft with ids := [0] }

/-- A decoder that knows source 1 takes the repair for one of sources 0 and 1, and hands over as source 0 what it computes from it. -/
theorem onRepair_gap (dbg : Bool) {f : Nat → List Byte} {P : Nat → Bool} {N : Nat} {d : Dec} (h : Quiet f P N d) (hN : 1 < N)
    (h0 : P 0 = false) (h1 : P 1 = true) (hf : f 1 = [2, 2, 2, 2, 2]) :
    ∃ d', d.onRepair gf8 dbg gapRead = .ok d' ∧ d'.log = d.log ++ [⟨0, [0xf7, 0xf7, 0xf7, 0xf7, 0xf2], d.sources.keys⟩] := by
  have r1 : removeData gf8 dbg ⟨1, [2, 2, 2, 2, 2]⟩ gapRead = .ok gapLeft := by
    clear h0 h1 hf h; revert dbg; decide +kernel
  have r2 : createSource gf8 dbg gapOne = .ok ⟨0, [0xf7, 0xf7, 0xf7, 0xf7, 0xf2]⟩ := by
    clear r1 h0 h1 hf h; revert dbg; decide +kernel
  have g0 : d.sources.get? 0 = none := by rw [h.held, if_neg (by simp [h0])]
  have g1 : d.sources.get? 1 = some ⟨1, [2, 2, 2, 2, 2]⟩ := by rw [h.held, if_pos ⟨hN, h1⟩, hf]
  have n0 : 0 ∉ d.sources.map (·.1) := h.fresh (by simp [h0])
  have b0 : d.sources.has 0 = false := (OMap.has_false_iff _ _).2 n0
  have b1 : d.sources.has 1 = true := (OMap.has_iff _ _).2 ((OMap.get?_isSome_iff _ _).1 ⟨_, g1⟩)
  have hdrop : d.dropOutdated dbg 0 = .ok { d with lastId := some 0 } := by
    unfold Dec.dropOutdated
    simp only [h.repairs]
    unfold dropRepairs
    simp only [bind, Except.bind]
    unfold Dec.giveAllOutdated
    rw [if_neg (by simp [h.mode])]
    simp only [OMap.eraseBelow, h.missing, List.filter_nil]
    have : d.sources.filter (fun p => decide (0 ≤ p.1)) = d.sources := List.filter_eq_self.2 (by simp)
    rw [this]
    rfl
  have l1 : linkStep gf8 dbg d.sources (gapRead, d.missing) 1 = .ok (gapOne, d.missing) := by
    unfold linkStep
    simp only [g1, r1, bind, Except.bind]
    rfl
  have l2 : linkStep gf8 dbg d.sources (gapOne, d.missing) 0 = .ok (gapOne, [(0, [0])]) := by
    unfold linkStep
    simp only [g0, h.missing]
    rfl
  have hlink : [1, 0].foldlM (linkStep gf8 dbg d.sources) (gapRead, d.missing) = .ok (gapOne, [(0, [0])]) := by
    simp only [List.foldlM_cons, List.foldlM_nil, l1, l2, bind, Except.bind]
    rfl
  have hfin := addSource_quiet (d := { d with lastId := some 0, nbDecoded := d.nbDecoded + 1, missing := [], repairs := [] }) gf8 dbg
    ⟨0, [0xf7, 0xf7, 0xf7, 0xf7, 0xf2]⟩ h.mode rfl n0 5
  refine ⟨{ ({ d with lastId := some 0, nbDecoded := d.nbDecoded + 1, missing := [], repairs := [] } : Dec).callback
    ⟨0, [0xf7, 0xf7, 0xf7, 0xf7, 0xf2]⟩ with sources := d.sources.emplace 0 ⟨0, [0xf7, 0xf7, 0xf7, 0xf7, 0xf2]⟩ }, ?_, rfl⟩
  unfold Dec.onRepair
  rw [cassert_true _ (by decide)]
  simp only [gapRead_ids, List.getLast?_cons_cons, List.getLast?_singleton, List.head?_cons, bind, Except.bind, h.last, Option.any_none]
  rw [if_neg (by simp), if_neg (by simp [h.repairs, OMap.has]), hdrop]
  simp only [List.all_cons, b0, Bool.false_and]
  rw [if_neg (by simp)]
  have hal : linksAlive d.repairs d.missing ([0, 1].filter (fun x => !d.sources.has x)) = true := by
    rw [h.repairs, h.missing, List.filter_cons_of_pos (by simp [b0]), List.filter_cons_of_neg (by simp [b1])]
    rfl
  rw [hal]
  simp only [ensure, if_true]
  rw [show ([0, 1] : List Nat).reverse = [1, 0] from rfl, hlink]
  simp only
  rw [cassert_true _ (by decide)]
  simp only
  rw [if_pos (by decide), r2]
  simp only [h.repairs]
  exact hfin

/-- The data of the execution: five bytes 1, then five bytes 2 each. -/
def gapData (i : Nat) : List Byte := if i = 0 then [1, 1, 1, 1, 1] else [2, 2, 2, 2, 2]

/-- Source 0 is lost, sources 1 to 65536 arrive and are acked, source 65537 is lost, and a repair of the two lost sources arrives, which
the decoder takes for a repair of sources 0 and 1. -/
theorem gap_run (dbg : Bool) :
    ∃ s s', Reach (cfg8 dbg) false s ∧ s.hist = (List.range 65537).filter (fun x => decide (x ≠ 0)) ∧
      s.enc.out = (List.range 65537).map (fun i => .source ⟨i, gapData i⟩) ++ [.source ⟨65537, [3, 3, 3, 3]⟩] ++ [.repair gapRepair] ∧
      s.committed = (List.range 65537).map gapData ++ [[3, 3, 3, 3]] ∧
      s.step (cfg8 dbg) (.deliver 65538) = .ok s' ∧ s'.dec.data = s.dec.data ++ [[0xf7, 0xf7, 0xf7, 0xf7, 0xf2]] ∧
      s'.dec.det.Knows 0 ∧ s'.hist = s.hist ++ [65538] ∧ s'.enc = s.enc ∧ s'.committed = s.committed := by
  have hc := cfg8_ok dbg
  have := fact_of_valid hc.width
  have hf : ∀ x, DataOk 8 (gapData x) := by
    intro x
    unfold gapData
    split <;> decide
  obtain ⟨N, hN⟩ : ∃ N, N = 65537 := ⟨_, rfl⟩
  obtain ⟨s, h, h1, h2, h3, h4, h5, h6, h7, h7', h8, hQ⟩ :=
    gap_state hc gapData hf (fun x => decide (x ≠ 0)) N (by omega)
  have hholds : ∀ x, s.dec.det.Holds x ↔ (1 ≤ x ∧ x < N) := by
    intro x
    have : s.dec.det.Holds x ↔ (s.dec.det.sources.get? x).isSome := by
      rw [Option.isSome_iff_exists, OMap.get?_isSome_iff]; rfl
    rw [this, hQ.held]
    by_cases hx : x < N ∧ x ≠ 0
    · rw [if_pos ⟨hx.1, by simpa using hx.2⟩]; simp; omega
    · rw [if_neg (fun hh => hx ⟨hh.1, by simpa using hh.2⟩)]; simp; omega
  obtain ⟨acts, g1, g2⟩ := anyReach_dec (reach_any h)
  obtain ⟨a, hout, hids⟩ := C24_names_all_held (cfg8 dbg).gf (cfg8 dbg).dbg (cfg8 dbg).clk false acts s.dec g1
  have r1 : Reach (cfg8 dbg) false { s with dec := s.dec.generateAck } := .step (a := .genAck) h trivial rfl
  obtain ⟨acts2, g3, -⟩ := anyReach_dec (reach_any r1)
  have hpast := past_after (past_init (cfg8 dbg).gf (cfg8 dbg).dbg (cfg8 dbg).clk false) acts2 _ g3
  have ho := hpast.acks.out a (by show a ∈ s.dec.generateAck.out; rw [hout]; simp)
  have hitv : Itv 1 N a.ids := ⟨ho.1, fun x => by rw [hids, hholds]⟩
  have hwire : WireIds a.ids := hitv.wire (by omega) (by rw [hitv.eq, List.length_range']; omega)
  have hget : s.dec.generateAck.out[s.dec.out.length]? = some a := by rw [hout]; simp
  have hsort : Sorted (s.enc.sources.map (·.id)) := by
    rw [h5, List.map_map]
    show Sorted ((List.range N).map id)
    rw [List.map_id]
    exact List.pairwise_lt_range
  -- the ack
  have hs2 : ({ s with dec := s.dec.generateAck } : Sys).step (cfg8 dbg) (.ack s.dec.out.length) =
      .ok { s with enc := s.enc.gotAck.applyAck F0 a, dec := s.dec.generateAck, errs := s.errs } := by
    simp only [Sys.step, hget]
    show (do let (e, x) ← s.enc.notify F0 dbg (writeAck a).flatten; _) = _
    rw [Enc.notify_of_ack F0 dbg s.enc (getPacketType_ack _), readAck_writeAck a ho.2.2 hwire]
    rfl
  have ha2 : Allowed (cfg8 dbg) { s with dec := s.dec.generateAck } (.ack s.dec.out.length) := by
    intro a' ha'
    have e : s.dec.generateAck.out[s.dec.out.length]? = some a' := ha'
    rw [hget] at e
    rw [← Option.some.inj e]
    exact hwire
  have r2 := Reach.step r1 ha2 hs2
  have hwin : (s.enc.gotAck.applyAck F0 a).sources = [⟨0, [1, 1, 1, 1, 1]⟩] := by
    show eraseIds s.enc.sources a.ids = _
    rw [eraseIds_eq _ _ hsort ho.1, h5]
    obtain ⟨M, rfl⟩ : ∃ M, N = M + 1 := ⟨65536, hN⟩
    rw [List.range_succ_eq_map, List.map_cons, List.filter_cons_of_pos (by
      have : (0 : Nat) ∉ a.ids := fun hh => by have := (hitv.mem 0).1 hh; omega
      simpa using this)]
    congr 1
    rw [List.filter_eq_nil_iff]
    intro y hy
    obtain ⟨i, hi, rfl⟩ := List.mem_map.1 hy
    obtain ⟨j, hj, rfl⟩ := List.mem_map.1 hi
    have := List.mem_range.1 hj
    have : j.succ ∈ a.ids := (hitv.mem _).2 ⟨by omega, by omega⟩
    simpa using this
  generalize he2 : s.enc.gotAck.applyAck F0 a = e2 at r2 hwin
  have k : e2.systematic = true ∧ e2.windowSize = 2 ^ 64 - 1 ∧ e2.out = s.enc.out ∧ e2.nbSentRepairs = 0 ∧ e2.curRep = 0 ∧
      e2.curSrc = s.enc.curSrc := by
    rw [← he2]; exact ⟨h2, h4, rfl, h7, h7', rfl⟩
  clear hs2 he2
  -- the rate again
  obtain ⟨s3, hs3, -⟩ := C05_no_fault_partial hc r2 (.setRate (2 ^ 32)) (by show 0 < 2 ^ 32; decide)
  have r3 := Reach.step r2 (by show 0 < 2 ^ 32; decide) hs3
  simp only [Sys.step, Enc.setRate, bind_ok_iff, pure_ok_iff] at hs3
  obtain ⟨e3, ⟨_, _, rfl⟩, rfl⟩ := hs3
  -- the last source
  have hcur : s.enc.curSrc = N := by
    obtain ⟨ems, A, ρ, L, W, K, hI⟩ := inv_of_reach hc h
    rw [hI.cur, h1, List.length_map, List.length_range]
  have ha4 : Allowed (cfg8 dbg) { s with enc := { e2 with rate := 2 ^ 32 }, dec := s.dec.generateAck } (.commit [3, 3, 3, 3]) :=
    ⟨by decide, by show s.committed.length + 1 < _; rw [h1, List.length_map, List.length_range]; omega, by
      show e2.nbSentRepairs + 2 < _; rw [k.2.2.2.1]; decide⟩
  obtain ⟨s4, hs4, -⟩ := C05_no_fault_partial hc r3 _ ha4
  have r4 := Reach.step r3 ha4 hs4
  simp only [Sys.step, bind_ok_iff, pure_ok_iff] at hs4
  obtain ⟨e4, he4, rfl⟩ := hs4
  have k4 : e4.sources = [⟨0, [1, 1, 1, 1, 1]⟩, ⟨65537, [3, 3, 3, 3]⟩] ∧ e4.out = (List.range N).map (fun i => .source ⟨i, gapData i⟩) ++ [.source ⟨65537, [3, 3, 3, 3]⟩] ∧ e4.curRep = 0 ∧ e4.nbSentRepairs = 0 := by
    obtain ⟨e5, e6, rfl, q2, q3, q4⟩ := commit_inv he4
    have hroom : ({ e2 with rate := 2 ^ 32 } : Enc).room = e2.sources := by
      unfold Enc.room
      rw [if_neg]
      show ¬ e2.sources.length = e2.windowSize
      rw [hwin, k.2.1]
      decide
    rcases q2 with ⟨-, rfl⟩ | ⟨q2, -⟩
    · rcases q4 with ⟨-, rfl⟩ | ⟨q4, -⟩
      · refine ⟨?_, ?_, k.2.2.2.2.1, k.2.2.2.1⟩
        · show ({ e2 with rate := 2 ^ 32 } : Enc).room ++ [⟨e2.curSrc, _⟩] = _
          rw [hroom, hwin, k.2.2.2.2.2, hcur, hN]; rfl
        · show e2.out ++ [.source ⟨e2.curSrc, _⟩] = _
          rw [k.2.2.1, h6, k.2.2.2.2.2, hcur, hN]
      · exfalso
        have q5 : (e2.curSrc + 1) % 2 ^ 32 % 2 ^ 32 = 0 := q4
        rw [k.2.2.2.2.2, hcur] at q5
        omega
    · have : e2.systematic = false := q2
      rw [k.1] at this; cases this
  -- the repair
  have ha5 : Allowed (cfg8 dbg) { s with enc := e4, dec := s.dec.generateAck, committed := s.committed ++ [[3, 3, 3, 3]] } .repair :=
    ⟨by show e4.sources.length ≠ 0; rw [k4.1]; decide, by show e4.nbSentRepairs + 1 < _; rw [k4.2.2.2]; decide⟩
  obtain ⟨s5, hs5, -⟩ := C05_no_fault_partial hc r4 _ ha5
  have r5 := Reach.step r4 ha5 hs5
  simp only [Sys.step, bind_ok_iff, pure_ok_iff] at hs5
  obtain ⟨e5, he5, rfl⟩ := hs5
  obtain ⟨r, hr, rfl⟩ := generateRepair_inv he5
  have hr2 : r = gapRepair := by
    rw [k4.1, k4.2.2.1] at hr
    have : encodeRepair gf8 dbg 0 [⟨0, [1, 1, 1, 1, 1]⟩, ⟨65537, [3, 3, 3, 3]⟩] = .ok gapRepair := by
      clear * -
      revert dbg; decide +kernel
    have e : encodeRepair gf8 dbg 0 [⟨0, [1, 1, 1, 1, 1]⟩, ⟨65537, [3, 3, 3, 3]⟩] = .ok r := hr
    rw [this] at e
    exact (Except.ok.inj e).symm
  subst hr2
  have hg5 : (e4.sentRepair gapRepair).out[65538]? = some (.repair gapRepair) := by
    have hl : e4.out.length = 65538 := by
      rw [k4.2.1, List.length_append, List.length_map, List.length_range, hN]; rfl
    show (e4.out ++ [_])[65538]? = _
    rw [← hl]; simp
  -- its arrival
  have hQ2 : Quiet gapData (fun x => decide (x ≠ 0)) N s.dec.generateAck.det := hQ
  obtain ⟨d', q1, q2⟩ := onRepair_gap dbg hQ2 (by omega) (by decide) (by decide) rfl
  have hdata := afterDet_step (cfg8 dbg).clk s.dec.generateAck.gotRepair d' ⟨_, q2.symm⟩
  have hstep : ({ s with enc := e4.sentRepair gapRepair, dec := s.dec.generateAck, committed := s.committed ++ [[3, 3, 3, 3]] } : Sys).step
      (cfg8 dbg) (.deliver 65538) = .ok { s with
        enc := e4.sentRepair gapRepair, dec := s.dec.generateAck.gotRepair.afterDet (cfg8 dbg).clk d',
        committed := s.committed ++ [[3, 3, 3, 3]], hist := s.hist ++ [65538], errs := s.errs } := by
    simp only [Sys.step, hg5]
    show (do let (d, x) ← s.dec.generateAck.notify gf8 dbg (cfg8 dbg).clk (writeRepair gapRepair).flatten; _) = _
    rw [NDec.notify_of_repair gf8 dbg _ _ (by decide +kernel), show readRepair (writeRepair gapRepair).flatten = .ok (gapRead, 23) by decide +kernel]
    simp only [q1]
    rfl
  subst hN
  refine ⟨_, _, r5, h8, ?_, ?_, hstep, ?_, .inl ?_, rfl, rfl, rfl⟩
  · show e4.out ++ _ = _
    rw [k4.2.1]
  · show s.committed ++ _ = _
    rw [h1]
  · show (s.dec.generateAck.gotRepair.afterDet (cfg8 dbg).clk d').data = s.dec.generateAck.data ++ _
    rw [hdata.2.2 hpast.data, q2, List.map_append]
    rw [hpast.data]
    rfl
  · show 0 ∈ (s.dec.generateAck.gotRepair.afterDet (cfg8 dbg).clk d').det.log.map (·.id)
    rw [hdata.2.1, q2]
    simp

/-- **C01 fails** for long windows, without any reordering: source 0 is lost, sources 1 to 65536 arrive and are acked, source 65537 is
lost, and a repair of the two lost sources arrives.  The decoder takes it for a repair of sources 0 and 1 and hands over a datum that was
never committed. -/
theorem C01_false_gap (dbg : Bool) :
    ∃ s s' r, Reach (cfg8 dbg) false s ∧ Sorted s.hist ∧ (∀ i ∈ s.hist, i < 65538) ∧
      s.enc.out[65538]? = some (.repair r) ∧ r.ids = [0, 65537] ∧
      s.step (cfg8 dbg) (.deliver 65538) = .ok s' ∧ s'.dec.data = s.dec.data ++ [[0xf7, 0xf7, 0xf7, 0xf7, 0xf2]] ∧
      ([0xf7, 0xf7, 0xf7, 0xf7, 0xf2] : List Byte) ∉ s'.committed := by
  obtain ⟨s, s', h, h1, h2, h3, h4, h5, -, -, -, h6⟩ := gap_run dbg
  obtain ⟨N, hN⟩ : ∃ N, 65537 = N := ⟨_, rfl⟩
  rw [hN] at h1 h2 h3
  refine ⟨s, s', gapRepair, h, ?_, fun i hi => ?_, ?_, rfl, h4, h5, ?_⟩
  · rw [h1]
    exact List.Pairwise.filter _ List.pairwise_lt_range
  · rw [h1, List.mem_filter, List.mem_range] at hi
    omega
  · rw [h2, List.getElem?_append_right (by rw [List.length_append, List.length_map, List.length_range, ← hN]; exact Nat.le_refl _),
      List.length_append, List.length_map, List.length_range, ← hN]
    rfl
  · rw [h6, h3]
    intro hm
    rcases List.mem_append.1 hm with hm | hm
    · obtain ⟨i, -, hi⟩ := List.mem_map.1 hm
      unfold gapData at hi
      split at hi <;> revert hi <;> decide
    · revert hm; decide

/-- Other data for which the repair is the same. -/
def gapOther (x : Nat) : List Byte :=
  if x = 0 then [4, 4, 4, 4, 1] else if x = 65537 then [0, 0, 0, 0] else [2, 2, 2, 2, 2]

/-- **C63 fails** for long windows: the decoder hands over source 0, although the packets it received fit other data for source 0
too. -/
theorem C63_false (dbg : Bool) :
    ∃ s data, AnyReach (cfg8 dbg) false s ∧ Sorted s.hist ∧ (∀ x < s.committed.length, DataOk 8 (data x)) ∧
      (∀ i ∈ s.hist, ∀ p, s.enc.out[i]? = some p → p.Fits gf8 data) ∧
      s.dec.det.Knows 0 ∧ s.committed[0]? ≠ some (data 0) := by
  obtain ⟨s, s', h, h1, h2, h3, h4, -, h5, h6, h7, h8⟩ := gap_run dbg
  have : Fact (0 < 8) := ⟨by decide⟩
  have hr : (EPkt.repair gapRepair).Fits gf8 gapOther := by
    refine ⟨?_, fun x _ h => by cases h⟩
    have h0 : encodeRepair gf8 dbg 0 [⟨0, [4, 4, 4, 4, 1]⟩, ⟨65537, [0, 0, 0, 0]⟩] = .ok gapRepair := by
      clear * -
      revert dbg; decide +kernel
    obtain ⟨r, hr, hE⟩ := encodeRepair_ok gf8 (by decide) dbg 0 [⟨0, [4, 4, 4, 4, 1]⟩, ⟨65537, [0, 0, 0, 0]⟩] (by simp) (by decide)
      (by decide)
    rw [h0] at hr
    cases hr
    exact isRepairOf_of_encOk gf8 (by decide) hE (by decide)
  obtain ⟨N, hN⟩ : ∃ N, 65537 = N := ⟨_, rfl⟩
  rw [hN] at h1 h2 h3
  refine ⟨s', gapOther, .step (a := .deliver 65538) (reach_any h) trivial h4, ?_, fun x _ => ?_, fun i hi p hp => ?_, h5, ?_⟩
  · rw [h6, h1]
    refine List.pairwise_append.2 ⟨List.Pairwise.filter _ List.pairwise_lt_range, by simp, fun a ha b hb => ?_⟩
    rw [List.mem_filter, List.mem_range] at ha
    simp at hb
    omega
  · unfold gapOther
    split
    · decide
    · split <;> decide
  · rw [h6, List.mem_append] at hi
    rw [h7, h2] at hp
    rcases hi with hi | hi
    · rw [h1, List.mem_filter, List.mem_range, decide_eq_true_eq] at hi
      rw [List.append_assoc, List.getElem?_append_left (by rw [List.length_map, List.length_range]; exact hi.1), List.getElem?_map,
        List.getElem?_range hi.1] at hp
      simp only [Option.map_some, Option.some.injEq] at hp
      subst hp
      show gapData i = gapOther i
      unfold gapData gapOther
      rw [if_neg hi.2, if_neg hi.2, if_neg (by omega)]
    · simp at hi
      subst hi
      rw [List.getElem?_append_right (by rw [List.length_append, List.length_map, List.length_range, ← hN]; exact Nat.le_refl _),
        List.length_append, List.length_map, List.length_range, ← hN] at hp
      have : p = .repair gapRepair := (Option.some.inj hp).symm
      rw [this]
      exact hr
  · rw [h8, h3, List.getElem?_append_left (by rw [List.length_map, List.length_range, ← hN]; decide), List.getElem?_map, List.getElem?_range (by omega)]
    decide

end Netcode
