import Verif.Proofs.Wait
import Verif.Props.OtherRun

/-!
# C83: with ordering, how long a datum that arrived may be withheld
-/

set_option linter.unusedSectionVars false

namespace Netcode

variable {w : Nat} {c : Cfg w} {io : Bool} {s : Sys} {W : Nat}

/-- **C83.** With ordering, a source that is known is handed over at the latest when a repair arrives all of whose sources are newer. -/
theorem C83_passed_partial (hc : c.Ok) (h : Reach c true s) {i : Nat} (hi : i ∈ s.hist) {r : ERepair}
    (hr : s.enc.out[i]? = some (.repair r)) {x : Nat} (hx : ∀ y ∈ r.ids, x < y) (hk : s.dec.det.Knows x) : x ∈ s.dec.det.handed := by
  by_contra hn
  rcases hk with hk | hk
  · exact hn hk
  obtain ⟨y, hy, -, ho⟩ := C04_withheld_partial hc h x hk hn
  exact ho (outdated_of_repair hc h hi hr (fun z hz => by have := hx z hz; omega))

/-- **C83.** With ordering and no acks, a source that arrived is handed over, under its own datum, at the latest when a repair arrives that
lists a source `W` numbers later, `W` being the window size. -/
theorem C83_bounded_partial (hc : c.Ok) (h : SidedReach c W true s) {k : Nat} (hk : k ∈ s.hist) {sr : ESource}
    (hs : s.enc.out[k]? = some (.source sr)) {i : Nat} (hi : i ∈ s.hist) {r : ERepair} (hr : s.enc.out[i]? = some (.repair r)) {y : Nat}
    (hy : y ∈ r.ids) (hxy : sr.id + W ≤ y) : sr.id ∈ s.dec.det.handed := by
  have h1 := sided_reach h
  refine C83_passed_partial hc h1 hi hr (fun z hz => ?_) (known_of_arrived hc h1 hk hs)
  have := (span_of_sided hc h).apart (List.mem_of_getElem? hr) z hz y hy
  omega

theorem reach_hist_lt (hc : c.Ok) (h : Reach c io s) : ∀ j ∈ s.hist, j < s.enc.out.length := by
  have := fact_of_valid hc.width
  obtain ⟨ems, A, ρ, L, W, K, hI⟩ := inv_of_reach hc h
  intro j hj
  rw [hI.enc.outLen]
  exact hI.histLt j hj

/-- A packet newer than all that arrived may arrive. -/
theorem allowed_newest (hc : c.Ok) (hw : w ≠ 32) (h : Reach c io s) (hn : s.committed.length < 2 ^ 16) {i : Nat}
    (hi : ∀ j ∈ s.hist, j ≤ i) : Allowed c s (.deliver i) :=
  allowed_of_order hc hw h hn i (fun _ _ => Or.inr (Or.inl (fun j hj hij => by have := hi j hj; omega)))
    (fun _ _ => Or.inl (fun j hj _ => hi j hj))

/-- A commit with the rate 1: the source, and then a repair. -/
theorem commit_two {gf : GF w} {dbg : Bool} {e e' : Enc} {d : List Byte} (h : e.commit gf dbg d = .ok e') (hs : e.systematic = true)
    (hr : e.rate = 1) : ∃ r, encodeRepair gf dbg e.curRep e'.sources = .ok r ∧ e'.sources = e.room ++ [⟨e.curSrc, d⟩] ∧
      e'.out = e.out ++ [.source ⟨e.curSrc, d⟩, .repair r] ∧ e'.systematic = true ∧ e'.rate = 1 ∧ e'.adaptive = e.adaptive ∧
      e'.windowSize = e.windowSize ∧ e'.nbSentRepairs = e.nbSentRepairs + 1 := by
  obtain ⟨e1, e2, rfl, h2, -, h4⟩ := commit_inv h
  rcases h2 with ⟨-, rfl⟩ | ⟨h2, -⟩
  swap
  · rw [hs] at h2; cases h2
  rcases h4 with ⟨h4, -⟩ | ⟨-, r, h5, rfl⟩
  · rw [hr, Nat.mod_one] at h4; exact absurd rfl h4
  · exact ⟨r, h5, rfl, by simp [Enc.sentRepair, Enc.sentSource], hs, hr, rfl, rfl, rfl⟩

/-- What an ack does not change. -/
theorem ack_keeps {s' : Sys} {j : Nat} (h : s.step c (.ack j) = .ok s') :
    s'.enc.systematic = s.enc.systematic ∧ (s.enc.adaptive = false → s'.enc.rate = s.enc.rate) ∧ s'.enc.adaptive = s.enc.adaptive ∧
      s'.enc.windowSize = s.enc.windowSize ∧ s'.enc.nbSentRepairs = s.enc.nbSentRepairs ∧ s'.committed = s.committed ∧ s'.hist = s.hist := by
  simp only [Sys.step] at h
  split at h
  · cases h; exact ⟨rfl, fun _ => rfl, rfl, rfl, rfl, rfl, rfl⟩
  · next p hp =>
    simp only [bind_ok_iff, pure_ok_iff] at h
    obtain ⟨⟨e, r⟩, h1, rfl⟩ := h
    have h2 : s.enc.act c.gf c.F c.dbg (.packet (writeAck p).flatten) = .ok e := by simp only [Enc.act, h1]; rfl
    rcases packet_inv h2 with rfl | ⟨-, rfl⟩ | ⟨a, n, -, -, rfl⟩
    · exact ⟨rfl, fun _ => rfl, rfl, rfl, rfl, rfl, rfl⟩
    · exact ⟨rfl, fun _ => rfl, rfl, rfl, rfl, rfl, rfl⟩
    · refine ⟨rfl, fun ha => ?_, rfl, rfl, rfl, rfl, rfl⟩
      show (if s.enc.adaptive then _ else s.enc.rate) = _
      rw [ha]; rfl

/-- **C83.** With ordering and no acks: once `W` more data have been committed, the next repair that is asked for and arrives makes the decoder hand
over every source that arrived before. -/
theorem C83_next_repair_partial (hc : c.Ok) (hw : w ≠ 32) (h : SidedReach c W true s) (hn : s.committed.length < 2 ^ 16)
    (hb : s.enc.nbSentRepairs + 1 < 2 ^ 32) {x : Nat} (hk : s.dec.det.Knows x) (hx : x + W < s.committed.length) :
    ∃ s', s.run c [.repair, .deliver s.enc.out.length] = .ok s' ∧ x ∈ s'.dec.det.handed := by
  have := fact_of_valid hc.width
  have hr := sided_reach h
  have hsp := span_of_sided hc h
  have hne : s.enc.win ≠ [] := sided_nonempty hc h (by omega)
  have hbd := hsp.bound hne
  have hsz := hsp.size
  have ha : Allowed c s .repair := ⟨fun h0 => hne (List.eq_nil_of_length_eq_zero ((win_length _).trans h0)), hb⟩
  obtain ⟨s1, g1, -⟩ := C05_no_fault_partial hc hr _ ha
  have r1 : Reach c true s1 := .step hr ha g1
  have g1' := g1
  simp only [Sys.step, bind_ok_iff, pure_ok_iff] at g1'
  obtain ⟨e, g2, rfl⟩ := g1'
  obtain ⟨r, g3, rfl⟩ := generateRepair_inv g2
  have hids := repair_lists_win hc hr g3
  have hnew : (s.enc.sentRepair r).out[s.enc.out.length]? = some (.repair r) := by simp [Enc.sentRepair]
  have hlt := reach_hist_lt hc hr
  have ha2 := allowed_newest hc hw r1 hn (i := s.enc.out.length) (fun j hj => Nat.le_of_lt (hlt j hj))
  obtain ⟨s2, g4, -⟩ := C05_no_fault_partial hc r1 _ ha2
  have r2 : Reach c true s2 := .step r1 ha2 g4
  refine ⟨s2, ?_, ?_⟩
  · unfold Sys.run
    simp only [List.foldlM_cons, List.foldlM_nil, g1, g4, bind, Except.bind]; rfl
  have hk2 := (C04_known_forever_partial hc r1 _ ha2 s2 g4).1 x ((C04_known_forever_partial hc hr _ ha _ g1).1 x hk)
  simp only [Sys.step, hnew, bind_ok_iff, pure_ok_iff] at g4
  obtain ⟨⟨d, q⟩, -, rfl⟩ := g4
  refine C83_passed_partial hc r2 (i := s.enc.out.length) (by simp) hnew (fun z hz => ?_) hk2
  rw [hids, hsp.win, List.mem_range'_1] at hz
  omega

/-- Two sources are stuck in the window: nothing else is in it, each commit is followed by a repair, and acks arrive. -/
structure Stalled (c : Cfg w) (x y : Nat) (s : Sys) : Prop where
  reach : Reach c true s
  win : s.enc.win = [x, y]
  lost : s.BothLost x y
  sys : s.enc.systematic = true
  rate : s.enc.rate = 1
  fixed : s.enc.adaptive = false
  room : 3 ≤ s.enc.windowSize
  differ : s.committed[x]? ≠ s.committed[y]?

theorem Stalled.unknown (hc : c.Ok) (hw : w ≠ 32) {x y : Nat} (hxy : x % (2 ^ w - 1) = y % (2 ^ w - 1)) (h : Reach c true s)
    (hx : x < s.committed.length) (hy : y < s.committed.length) (hd : s.committed[x]? ≠ s.committed[y]?) (hl : s.BothLost x y) :
    ¬ s.dec.det.Knows x ∧ ¬ s.dec.det.Knows y := by
  refine C64_false_congruent hc hw (late_of_reach h) hxy (List.getElem?_eq_getElem hx) (List.getElem?_eq_getElem hy) ?_ hl
  intro h0
  rw [List.getElem?_eq_getElem hx, List.getElem?_eq_getElem hy, h0] at hd
  exact hd rfl

/-- One more datum: it arrives, and so do the repair and the ack that follow. -/
theorem Stalled.round (hc : c.Ok) (hw : w ≠ 32) {x y : Nat} (hxy : x % (2 ^ w - 1) = y % (2 ^ w - 1)) (h : Stalled c x y s)
    {d : List Byte} (hd : DataOk w d) (hn : s.committed.length + 1 < 2 ^ 16)
    (hsmall : (s.enc.nbSentRepairs + max x y + 2) * (s.enc.nbSentRepairs + 1) < 2 ^ 32) :
    ∃ j s', s.run c (stallRun s.enc.out.length [(d, j)]) = .ok s' ∧ Stalled c x y s' ∧ s'.committed = s.committed ++ [d] ∧
      s'.enc.nbSentRepairs = s.enc.nbSentRepairs + 1 ∧ s'.enc.out.length = s.enc.out.length + 2 ∧
      s'.hist = s.hist ++ [s.enc.out.length, s.enc.out.length + 1] := by
  have := fact_of_valid hc.width
  obtain ⟨ems, A, ρ, L, W, K, hI⟩ := inv_of_reach hc h.reach
  have hx : x ∈ s.enc.win := by rw [h.win]; simp
  have hy : y ∈ s.enc.win := by rw [h.win]; simp
  have hxn := hI.enc.srcLt x hx
  have hyn := hI.enc.srcLt y hy
  have hb : s.enc.nbSentRepairs + 2 < 2 ^ 32 := by
    have h1 : (s.enc.nbSentRepairs + max x y + 2) * 1 ≤ (s.enc.nbSentRepairs + max x y + 2) * (s.enc.nbSentRepairs + 1) :=
      Nat.mul_le_mul_left _ (by omega)
    omega
  -- the commit
  have ha1 : Allowed c s (.commit d) := ⟨hd, by omega, hb⟩
  obtain ⟨s1, g1, -⟩ := C05_no_fault_partial hc h.reach _ ha1
  have r1 : Reach c true s1 := .step h.reach ha1 g1
  obtain ⟨e, g2, rfl⟩ : ∃ e, s.enc.commit c.gf c.dbg d = .ok e ∧ { s with enc := e, committed := s.committed ++ [d] } = s1 := by
    have g1' := g1
    simp only [Sys.step, bind_ok_iff, pure_ok_iff] at g1'
    exact g1'
  obtain ⟨r, q1, q2, q3, q4, q5, q6, q7, q8⟩ := commit_two g2 h.sys h.rate
  have hroom : s.enc.room = s.enc.sources := by
    have : s.enc.sources.length = 2 := by rw [← List.length_map (f := (·.id))]; exact congrArg List.length h.win
    have hrm := h.room
    unfold Enc.room
    rw [if_neg (by omega)]
  have hwin1 : e.win = [x, y, s.committed.length] := by
    unfold Enc.win
    rw [q2, hroom, List.map_append, hI.cur]
    show s.enc.win ++ [s.committed.length] = _
    rw [h.win]; rfl
  have hout1 : e.out.length = s.enc.out.length + 2 := by rw [q3]; simp
  have hsrc1 : e.out[s.enc.out.length]? = some (.source ⟨s.enc.curSrc, d⟩) := by rw [q3]; simp
  have hrep1 : e.out[s.enc.out.length + 1]? = some (.repair r) := by
    rw [q3, List.getElem?_append_right (by omega)]; simp
  have hold : ∀ i < s.enc.out.length, e.out[i]? = s.enc.out[i]? := by
    intro i hi; rw [q3, List.getElem?_append_left hi]
  have hlt := reach_hist_lt hc h.reach
  have hn1 : (s.committed ++ [d]).length < 2 ^ 16 := by rw [List.length_append, List.length_singleton]; omega
  -- the source
  have ha2 := allowed_newest hc hw r1 hn1 (i := s.enc.out.length) (fun j hj => Nat.le_of_lt (hlt j hj))
  obtain ⟨s2, g3, -⟩ := C05_no_fault_partial hc r1 _ ha2
  have r2 : Reach c true s2 := .step r1 ha2 g3
  obtain ⟨dc2, er2, rfl⟩ : ∃ dc er, ({ s with enc := e, dec := dc, committed := s.committed ++ [d], hist := s.hist ++ [s.enc.out.length], errs := er } : Sys) = s2 := by
    have g3' := g3
    simp only [Sys.step, hsrc1, bind_ok_iff, pure_ok_iff] at g3'
    obtain ⟨⟨dc, q⟩, -, g4⟩ := g3'
    exact ⟨dc, _, g4⟩
  -- the repair
  have ha3 := allowed_newest hc hw r2 hn1 (i := s.enc.out.length + 1) (by
    intro j hj
    rcases List.mem_append.1 hj with hj | hj
    · have := hlt j hj; omega
    · rw [List.mem_singleton] at hj; omega)
  obtain ⟨s3, g4, -⟩ := C05_no_fault_partial hc r2 _ ha3
  have r3 : Reach c true s3 := .step r2 ha3 g4
  obtain ⟨dc3, er3, rfl⟩ : ∃ dc er, ({ s with enc := e, dec := dc, committed := s.committed ++ [d], hist := s.hist ++ [s.enc.out.length] ++ [s.enc.out.length + 1], errs := er } : Sys) = s3 := by
    have g4' := g4
    simp only [Sys.step, hrep1, bind_ok_iff, pure_ok_iff] at g4'
    obtain ⟨⟨dc, q⟩, -, g5⟩ := g4'
    exact ⟨dc, _, g5⟩
  -- what is known then
  have hids : x ∈ r.ids ∧ y ∈ r.ids := by
    have := repair_lists_win hc r1 q1
    rw [this]
    show x ∈ e.win ∧ y ∈ e.win
    rw [hwin1]; simp
  have hrid : r.id = s.enc.nbSentRepairs := by
    have hshape := encodeRepair_strip q1
    simp only [EPkt.strip, EPkt.repair.injEq, ERepair.mk.injEq] at hshape
    rw [hshape.1]; exact hI.rep
  have hlost3 : ({ s with enc := e, dec := dc3, committed := s.committed ++ [d], hist := s.hist ++ [s.enc.out.length] ++ [s.enc.out.length + 1], errs := er3 } : Sys).BothLost x y := by
    intro i hi
    rcases List.mem_append.1 hi with hi | hi
    · rcases List.mem_append.1 hi with hi | hi
      · simp only [hold i (hlt i hi)]
        exact h.lost i hi
      · rw [List.mem_singleton] at hi
        subst hi
        simp only [hsrc1, hI.cur]
        omega
    · rw [List.mem_singleton] at hi
      subst hi
      simp only [hrep1, hrid]
      exact ⟨⟨fun _ => hids.2, fun _ => hids.1⟩, hsmall⟩
  have hdiff : (s.committed ++ [d])[x]? ≠ (s.committed ++ [d])[y]? := by
    rw [List.getElem?_append_left hxn, List.getElem?_append_left hyn]; exact h.differ
  have hun := Stalled.unknown hc hw hxy r3 (by show _ < (s.committed ++ [d]).length; rw [List.length_append]; omega)
    (by show _ < (s.committed ++ [d]).length; rw [List.length_append]; omega) hdiff hlost3
  have hkn := known_of_arrived hc r3 (i := s.enc.out.length) (by simp) hsrc1
  -- the ack
  have r4 := r3
  generalize hs3 : ({ s with enc := e, dec := dc3, committed := s.committed ++ [d], hist := s.hist ++ [s.enc.out.length] ++ [s.enc.out.length + 1], errs := er3 } : Sys) = s3
    at g4 r3 hlost3 hun hkn r4
  have he3 : s3.enc = e := by rw [← hs3]
  have hc3 : s3.committed = s.committed ++ [d] := by rw [← hs3]
  have hh3 : s3.hist = s.hist ++ [s.enc.out.length] ++ [s.enc.out.length + 1] := by rw [← hs3]
  have g5 : s3.step c .genAck = .ok { s3 with dec := s3.dec.generateAck } := rfl
  have r5 : Reach c true { s3 with dec := s3.dec.generateAck } := .step (a := .genAck) r3 trivial g5
  have ha6 := allowed_ack hc r5 (by show s3.committed.length < _; rw [hc3]; exact hn1) s3.dec.out.length
  obtain ⟨s6, g6, g7, g8, g9⟩ := C61_ack_round_trip_partial hc r3 _ g5 ha6
  have r6 : Reach c true s6 := .step r5 ha6 g6
  obtain ⟨t1, t2, t3, t4, t5, t6, t7⟩ := ack_keeps g6
  have hout6 : s6.enc.out = e.out := by rw [g9, he3]
  have hcom6 : s6.committed = s.committed ++ [d] := t6.trans hc3
  have hhist6 : s6.hist = s.hist ++ [s.enc.out.length] ++ [s.enc.out.length + 1] := t7.trans hh3
  refine ⟨s3.dec.out.length, s6, ?_, ⟨r6, ?_, ?_, ?_, ?_, ?_, ?_, ?_⟩, hcom6, ?_, ?_, ?_⟩
  · unfold Sys.run stallRun stallRun
    simp only [List.append_nil, List.foldlM_cons, List.foldlM_nil, g1, g3, g4, g5, g6, bind, Except.bind]; rfl
  · show s6.enc.sources.map (·.id) = _
    have hf : ∀ (p : Nat → Bool) (S : List ESource), (S.filter (fun z => p z.id)).map (·.id) = (S.map (·.id)).filter p := by
      intro p S; rw [List.filter_map]; rfl
    rw [g7, hf (fun z => decide (¬ s3.dec.det.Knows z)), he3]
    show e.win.filter _ = _
    rw [hwin1]
    rw [hI.cur] at hkn
    simp [hun.1, hun.2, hkn]
  · intro i hi
    have h1 := hlost3 i (by rw [hh3, ← hhist6]; exact hi)
    rw [he3, ← hout6] at h1
    exact h1
  · rw [t1]; show s3.enc.systematic = _; rw [he3]; exact q4
  · rw [t2 (by show s3.enc.adaptive = _; rw [he3, q6]; exact h.fixed)]; show s3.enc.rate = _; rw [he3]; exact q5
  · rw [t3]; show s3.enc.adaptive = _; rw [he3, q6]; exact h.fixed
  · rw [t4]; show 3 ≤ s3.enc.windowSize; rw [he3, q7]; exact h.room
  · rw [hcom6]; exact hdiff
  · rw [t5]; show s3.enc.nbSentRepairs = _; rw [he3, q8]
  · rw [hout6, hout1]
  · rw [hhist6]; simp

/-- **C83 fails** when acks arrive: let the sources `x` and `y`, whose numbers differ by a multiple of 2^w - 1, be lost and be all that is left in the
window, and let the rate be 1.  However many data are then committed (until 2^16), with every source, every repair and an ack after each of them
arriving, the window never fills, neither of the two is recovered, and with ordering no datum from `x` on is handed over. -/
theorem C83_false_stall (hc : c.Ok) (hw : w ≠ 32) (h : Reach c true s) {x y : Nat} (hxy : x % (2 ^ w - 1) = y % (2 ^ w - 1))
    (hd : s.committed[x]? ≠ s.committed[y]?) (hl : s.BothLost x y) (hwin : s.enc.sources.map (·.id) = [x, y])
    (hs : s.enc.systematic = true) (hr : s.enc.rate = 1) (had : s.enc.adaptive = false) (hws : 3 ≤ s.enc.windowSize)
    (ds : List (List Byte)) (hds : ∀ d ∈ ds, DataOk w d) (hn : s.committed.length + ds.length < 2 ^ 16)
    (hm : (s.enc.nbSentRepairs + ds.length + max x y + 2) * (s.enc.nbSentRepairs + ds.length + 1) < 2 ^ 32) :
    ∃ rounds s', rounds.map (·.1) = ds ∧ s.run c (stallRun s.enc.out.length rounds) = .ok s' ∧ s'.committed = s.committed ++ ds ∧
      s'.enc.out.length = s.enc.out.length + 2 * ds.length ∧ (∀ i < s'.enc.out.length, s.enc.out.length ≤ i → i ∈ s'.hist) ∧
      ∀ z ∈ s'.dec.det.handed, z < x := by
  have := fact_of_valid hc.width
  have key : ∀ (ds : List (List Byte)) (s : Sys), Stalled c x y s → (∀ d ∈ ds, DataOk w d) → s.committed.length + ds.length < 2 ^ 16 →
      (s.enc.nbSentRepairs + ds.length + max x y + 2) * (s.enc.nbSentRepairs + ds.length + 1) < 2 ^ 32 →
      ∃ rounds s', rounds.map (·.1) = ds ∧ s.run c (stallRun s.enc.out.length rounds) = .ok s' ∧ s'.committed = s.committed ++ ds ∧
        s'.enc.out.length = s.enc.out.length + 2 * ds.length ∧ (∀ i ∈ s.hist, i ∈ s'.hist) ∧
        (∀ i < s'.enc.out.length, s.enc.out.length ≤ i → i ∈ s'.hist) ∧ Stalled c x y s' := by
    intro ds
    induction ds with
    | nil => intro s hst _ _ _; exact ⟨[], s, rfl, rfl, by simp, rfl, fun i hi => hi, fun i h1 h2 => by omega, hst⟩
    | cons d t ih =>
      intro s hst hds hn hm
      rw [List.length_cons] at hn hm
      obtain ⟨j, s1, a1, a2, a3, a4, a5, a6⟩ := hst.round hc hw hxy (hds d List.mem_cons_self) (by omega)
        (lt_of_le_of_lt (Nat.mul_le_mul (by omega) (by omega)) hm)
      obtain ⟨rounds, s2, b1, b2, b3, b4, b5, b6, b7⟩ := ih s1 a2 (fun z hz => hds z (List.mem_cons_of_mem _ hz))
        (by rw [a3, List.length_append, List.length_singleton]; omega)
        (by rw [a4]; exact lt_of_le_of_lt (Nat.mul_le_mul (by omega) (by omega)) hm)
      refine ⟨(d, j) :: rounds, s2, by rw [List.map_cons, b1], ?_, by rw [b3, a3, List.append_assoc]; rfl, by rw [b4, a5, List.length_cons]; omega,
        fun i hi => b5 i (by rw [a6]; exact List.mem_append_left _ hi), fun i h1 h2 => ?_, b7⟩
      · have hsplit : stallRun s.enc.out.length ((d, j) :: rounds) = stallRun s.enc.out.length [(d, j)] ++ stallRun s1.enc.out.length rounds := by
          rw [a5]; simp [stallRun]
        unfold Sys.run at a1 b2 ⊢
        rw [hsplit, List.foldlM_append, a1]
        exact b2
      · by_cases h3 : s1.enc.out.length ≤ i
        · exact b6 i h1 h3
        · refine b5 i ?_
          rw [a6, List.mem_append]
          right
          have : i = s.enc.out.length ∨ i = s.enc.out.length + 1 := by omega
          simpa using this
  obtain ⟨rounds, s', b1, b2, b3, b4, -, b6, b7⟩ := key ds s ⟨h, hwin, hl, hs, hr, had, hws, hd⟩ hds hn hm
  refine ⟨rounds, s', b1, b2, b3, b4, b6, fun z hz => ?_⟩
  obtain ⟨ems, A, ρ, L, W, K, hI⟩ := inv_of_reach hc b7.reach
  have hxw : x ∈ s'.enc.win := by rw [b7.win]; simp
  have hyw : y ∈ s'.enc.win := by rw [b7.win]; simp
  have hun := (Stalled.unknown hc hw hxy b7.reach (hI.enc.srcLt x hxw) (hI.enc.srcLt y hyw) b7.differ b7.lost).1
  have hno := win_not_outdated hc b7.reach hxw
  rw [hI.outdated_iff] at hno
  rw [hI.knows_iff] at hun
  obtain ⟨ho, -⟩ := hI.dinv.log.ord hI.io
  have h1 := ((ho.logMem z).1 hz).2
  by_contra hcon
  exact hun (ho.full x (by omega) (by omega))

/-- GF(2^4), with ordering: the sources 0 and 15 are lost, an ack leaves them alone in the window, and the rate becomes 1. -/
def stallActs : List Act :=
  [.setRate 50] ++ (List.range 16).map (fun k => .commit [BitVec.ofNat 8 (k + 1)]) ++ (List.range 14).map (fun k => .deliver (k + 1)) ++
    [.genAck, .ack 0, .setRate 1]

theorem stall_reach (dbg : Bool) : Reach (cfg4 dbg) true (reached (cfg4 dbg) true stallActs) := reached_reach (by revert dbg; decide +kernel)

/-- **C83 fails**: with ordering there is no bound, as long as numbers fit.  After two losses, 60000 data arrive, each with a repair of what is left in
the window, and none is ever handed over. -/
theorem C83_false (dbg : Bool) (ds : List (List Byte)) (hds : ∀ d ∈ ds, DataOk 4 d) (hn : ds.length ≤ 60000) :
    ∃ s s' acts, Reach (cfg4 dbg) true s ∧ s.committed.length = 16 ∧ s.run (cfg4 dbg) acts = .ok s' ∧ s'.committed = s.committed ++ ds ∧
      s'.enc.out.length = s.enc.out.length + 2 * ds.length ∧ (∀ i < s'.enc.out.length, s.enc.out.length ≤ i → i ∈ s'.hist) ∧
      s'.dec.det.handed = [] := by
  have h1 : (reached (cfg4 dbg) true stallActs).committed.length = 16 := by revert dbg; decide +kernel
  have h2 : (reached (cfg4 dbg) true stallActs).enc.nbSentRepairs = 0 := by revert dbg; decide +kernel
  obtain ⟨rounds, s', -, a2, a3, a4, a5, a6⟩ := C83_false_stall (c := cfg4 dbg) ⟨by decide, F0_ok⟩ (by decide) (stall_reach dbg) (x := 0) (y := 15) (by decide)
    (by revert dbg; decide +kernel) (by revert dbg; decide +kernel) (by revert dbg; decide +kernel) (by revert dbg; decide +kernel)
    (by revert dbg; decide +kernel) (by revert dbg; decide +kernel) (by revert dbg; decide +kernel) ds hds (by rw [h1]; omega)
    (by
      rw [h2]
      refine lt_of_le_of_lt (b := 60017 * 60001) (Nat.mul_le_mul ?_ ?_) (by decide)
      · have : max 0 15 = 15 := rfl
        omega
      · omega)
  refine ⟨_, s', _, stall_reach dbg, h1, a2, a3, a4, a5, ?_⟩
  exact List.eq_nil_iff_forall_not_mem.2 (fun z hz => absurd (a6 z hz) (by omega))

/-! ## Examples -/

/-- Run a schedule as long as the calls and arrivals are those considered here. -/
def runSided (c : Cfg w) (W : Nat) : Sys → List Act → Option Sys
  | s, [] => some s
  | s, a :: t =>
    if allowedB c s a ∧ OneSided W s a then
      match s.step c a with
      | .ok s' => runSided c W s' t
      | .error _ => none
    else none

theorem sided_of_run (acts : List Act) (h : SidedReach c W io s) {s' : Sys} (hr : runSided c W s acts = some s') : SidedReach c W io s' := by
  induction acts generalizing s with
  | nil => cases hr; exact h
  | cons a t ih =>
    unfold runSided at hr
    split at hr
    · next ha =>
      split at hr
      · next s1 h1 => exact ih (.step h (allowed_of_B ha.1) ha.2 h1) hr
      · cases hr
    · cases hr

/-- The state such a schedule reaches. -/
@[irreducible] def sidedReached (c : Cfg w) (W : Nat) (io : Bool) (acts : List Act) : Sys :=
  (runSided c W (Sys.init c.clk io) acts).getD (Sys.init c.clk io)

theorem sidedReached_reach {acts : List Act} (h : (runSided c W (Sys.init c.clk io) acts).isSome = true) :
    SidedReach c W io (sidedReached c W io acts) := by
  obtain ⟨s, hs⟩ := Option.isSome_iff_exists.1 h
  unfold sidedReached
  rw [hs]
  exact sided_of_run acts .init hs

/-- A window of two: the sources 0 and 2 and the first repair are lost; source 1 is withheld until the repair of 2 and 3 arrives.  Packets: 0, 1 sources
0, 1; 2 repair; 3, 4 sources 2, 3; 5 repair {2, 3}. -/
def waitActs : List Act :=
  [.setRate 2, .setWindow 2, .commit [1], .commit [2], .commit [3], .commit [4], .deliver 1, .deliver 5]

example : (sidedReached (cfg8 true) 2 true (waitActs.take 7)).dec.det.handed = [] ∧
    (sidedReached (cfg8 true) 2 true waitActs).dec.det.handed = [1] := by decide +kernel

example : 1 ∈ (sidedReached (cfg8 true) 2 true waitActs).dec.det.handed := by
  obtain ⟨r, h1, h2⟩ : ∃ r, (sidedReached (cfg8 true) 2 true waitActs).enc.out[5]? = some (.repair r) ∧ 3 ∈ r.ids :=
    (show ∃ r, (sidedReached (cfg8 true) 2 true waitActs).enc.out[5]? = some (.repair r) ∧ r.ids = [2, 3] from
      ⟨_, (by decide +kernel : _ = some (EPkt.repair ⟨1, [2, 3], mulSize gf8 1 (coefficient 8 1 2) ^^^ mulSize gf8 1 (coefficient 8 1 3),
        [gf8.mul (coefficient 8 1 2) 3 ^^^ gf8.mul (coefficient 8 1 3) 4]⟩)), rfl⟩).imp (fun r h => ⟨h.1, by rw [h.2]; decide⟩)
  exact C83_bounded_partial (sr := ⟨1, [2]⟩) (cfg8_ok true) (sidedReached_reach (by decide +kernel)) (k := 1) (by decide +kernel) (by decide +kernel)
    (i := 5) (by decide +kernel) h1 h2 (by decide)

/-- Source 1 arrived and is withheld; two more data were committed. -/
example : ∃ s', (sidedReached (cfg8 true) 2 true (waitActs.take 7)).run (cfg8 true)
      [.repair, .deliver (sidedReached (cfg8 true) 2 true (waitActs.take 7)).enc.out.length] = .ok s' ∧ 1 ∈ s'.dec.det.handed :=
  C83_next_repair_partial (cfg8_ok true) (by decide) (sidedReached_reach (by decide +kernel)) (by decide +kernel) (by decide +kernel) (by decide +kernel)
    (by decide +kernel)

/-- The same schedule, for the first theorem. -/
example : 1 ∈ (reached (cfg8 true) true waitActs).dec.det.handed :=
  C83_passed_partial (r := ⟨1, [2, 3], mulSize gf8 1 (coefficient 8 1 2) ^^^ mulSize gf8 1 (coefficient 8 1 3),
        [gf8.mul (coefficient 8 1 2) 3 ^^^ gf8.mul (coefficient 8 1 3) 4]⟩) (cfg8_ok true) (reached_reach (by decide +kernel)) (i := 5)
    (by decide +kernel) (by decide +kernel) (by decide) (by decide +kernel)

end Netcode
