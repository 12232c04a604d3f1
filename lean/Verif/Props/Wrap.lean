import Verif.Props.Memory

/-!
# C76: streams of any length

Identifiers have 32 bits.  The theorems on histories are stated for fewer than `2 ^ 32` data (`Allowed`, `ApiOk`); this file says what
happens next.
-/

set_option linter.unusedSectionVars false

namespace Netcode

variable {w : Nat} {c : Cfg w} {io : Bool} {s : Sys}

/-- **C76, in part.** As long as fewer than `2 ^ 32` data were committed, over a network that loses nothing, the datum committed as
number `i` is sent with identifier `i`, and all data are handed over. -/
theorem C76_below_partial (hc : c.Ok) (h : FifoReach c io s) :
    s.committed.length < 2 ^ 32 ∧ (s.hist.length = s.enc.out.length → s.dec.data = s.committed) ∧
    ∀ (k i : Nat) (d : List Byte), s.enc.out[k]? = some (.source ⟨i, d⟩) → s.committed[i]? = some d := by
  have := fact_of_valid hc.width
  obtain ⟨ems, A, a, L, k, hI⟩ := fifo_inv hc h _ (comData_agree s)
  refine ⟨hI.curLt, C40_complete hc h, ?_⟩
  intro k i d hk
  obtain ⟨em, hem, hren⟩ := hI.enc.ems_get hk
  cases em with
  | rep rid Wi => obtain ⟨r', h1, -⟩ := hren; cases h1
  | src y =>
    have h1 := EPkt.source.inj hren
    have hy : i = y := congrArg ESource.id h1
    have hd : d = comData s y := congrArg ESource.sym h1
    subst hy
    have hlt : i < s.committed.length := hI.enc.emLt _ (List.mem_of_getElem? hem) i (by simp [Em.ids])
    rw [hd, List.getElem?_eq_getElem hlt, comData_agree s i _ (List.getElem?_eq_getElem hlt)]

example (io : Bool) : FifoReach (cfg8 true) io (fifoReached (cfg8 true) io demoFifo) :=
  fifoReached_reach (by revert io; decide +kernel)

/-- A commit of a systematic encoder whose window has size one. -/
theorem commit_one (hv : ValidW w) (gf : GF w) (dbg : Bool) (e : Enc) (d : List Byte) (hd : DataOk w d) (hsys : e.systematic = true)
    (hws : e.windowSize = 1) (hlen : e.sources.length ≤ 1) (hr : e.rate ≠ 0) :
    ∃ r e', EncOk gf e.curRep [⟨e.curSrc, d⟩] r ∧ e.commit gf dbg d = .ok e' ∧ e'.curSrc = (e.curSrc + 1) % 2 ^ 32 ∧
      e'.systematic = true ∧ e'.windowSize = 1 ∧ e'.sources.length ≤ 1 ∧ e'.rate = e.rate ∧
      e'.out = e.out ++ .source ⟨e.curSrc, d⟩ :: (if (e.curSrc + 1) % 2 ^ 32 % e.rate = 0 then [.repair r] else []) := by
  have := fact_of_valid hv
  obtain ⟨r, q1, hr1⟩ := encodeRepair_ok gf hv dbg e.curRep [⟨e.curSrc, d⟩] (by simp) (by simpa using hd) (by simp [Sorted])
  have hroom : (if e.sources.length = e.windowSize then e.sources.tail else e.sources) = [] := by
    rw [hws]
    split
    · next h => exact List.length_eq_zero_iff.1 (by rw [List.length_tail, h])
    · next h => exact List.length_eq_zero_iff.1 (by omega)
  have hl := hd.1
  have ha := hd.2.2
  have hsl := (hr1.symLen (by simpa using hd)).1
  generalize he1 : (({ e with sources := [⟨e.curSrc, d⟩] } : Enc).sentSource ⟨e.curSrc, d⟩) = e1
  have hem : ({ e with sources := [⟨e.curSrc, d⟩] } : Enc).emitNew gf dbg ⟨e.curSrc, d⟩ = .ok e1 := by
    rw [← he1]
    unfold Enc.emitNew
    rw [if_pos (by exact hsys)]
    rfl
  have f1 : e1.curSrc = e.curSrc := by rw [← he1]; rfl
  have f2 : e1.curRep = e.curRep := by rw [← he1]; rfl
  have f3 : e1.sources = [⟨e.curSrc, d⟩] := by rw [← he1]; rfl
  have f4 : e1.rate = e.rate := by rw [← he1]; rfl
  have f5 : e1.windowSize = 1 := by rw [← he1]; exact hws
  have f6 : e1.systematic = true := by rw [← he1]; exact hsys
  have f7 : e1.out = e.out ++ [.source ⟨e.curSrc, d⟩] := by rw [← he1]; rfl
  obtain ⟨e2, k0, k1, k2, k3, k4, k5, k6⟩ : ∃ e2, e1.autoRepair gf dbg = .ok e2 ∧ e2.curSrc = e.curSrc ∧
      e2.systematic = true ∧ e2.windowSize = 1 ∧ e2.sources = [⟨e.curSrc, d⟩] ∧ e2.rate = e.rate ∧
      e2.out = e.out ++ .source ⟨e.curSrc, d⟩ :: (if (e.curSrc + 1) % 2 ^ 32 % e.rate = 0 then [.repair r] else []) := by
    unfold Enc.autoRepair
    rw [ensure_true _ (by rw [f4]; simpa using hr)]
    simp only [bind, Except.bind]
    rw [f1, f4]
    by_cases hz : (e.curSrc + 1) % 2 ^ 32 % e.rate = 0
    · simp only [hz, if_true]
      refine ⟨e1.sentRepair r, ?_, f1, f6, f5, f3, f4, ?_⟩
      · unfold Enc.generateRepair
        rw [f2, f3, q1]
        simp only [bind, Except.bind]
        rw [cassert_true _ (by simpa using hsl)]
        simp only [Enc.sentRepair, f2, f3]
        rfl
      · simp only [Enc.sentRepair, f7, List.append_assoc, List.singleton_append]
    · simp only [hz, if_false]
      exact ⟨e1, rfl, f1, f6, f5, f3, f4, f7⟩
  refine ⟨r, { e2 with curSrc := (e.curSrc + 1) % 2 ^ 32 }, hr1, ?_, rfl, k2, k3, by simp only [k4]; exact le_refl _, k5, k6⟩
  unfold Enc.commit
  rw [cassert_true _ (by simp; exact List.ne_nil_of_length_pos hl)]
  rw [cassert_true _ (by
    simp only [ne_eq, decide_eq_true_eq]
    by_cases h16 : w = 16
    · subst h16; right; omega
    · exact Or.inl h16)]
  rw [cassert_true _ (by
    simp only [ne_eq, decide_eq_true_eq]
    by_cases h16 : w = 32
    · subst h16; right; omega
    · exact Or.inl h16)]
  rw [ensure_true _ (by
    cases hs : e.sources with
    | nil => simp; omega
    | cons a b => simp)]
  simp only [bind, Except.bind, hroom, List.nil_append, hem, k0, k1]
  rfl

/-- A source reaches a decoder that lost nothing. -/
theorem deliver_calm [Fact (0 < w)] {data : Nat → List Byte} {L k : Nat} {d : NDec} (gf : GF w) (dbg : Bool) (clk : Clock)
    (h : Calm data false L k d.det) (hk : k < 2 ^ 32) (hd : DataOk w (data k)) :
    ∃ d' n, d.notify gf dbg clk (writeSource ⟨k, data k⟩).flatten = .ok (d', .ok n) ∧ Calm data false L (k + 1) d'.det ∧
      d'.data = d.data ++ [data k] := by
  obtain ⟨det', e1, e2, e3⟩ := h.source gf dbg (by intro h; cases h)
  have hN := notify_source gf dbg clk d ⟨k, data k⟩ hk hd.2.1 det' e1
  refine ⟨_, _, hN, ?_, ?_⟩
  · unfold NDec.afterDet
    rw [(fold_frame _ _ _).1]
    exact e2
  · unfold NDec.afterDet
    rw [(fold_frame _ _ _).2, e3]
    simp

/-- **C76 fails.** With fields of any size and any data, over a network that loses, repeats and reorders nothing, after `2 ^ 32` data the
identifiers start again from zero, and the next datum is ignored although its packet arrives. -/
theorem C76_false (hc : c.Ok) (d x : List Byte) (hd : DataOk w d) (hx : DataOk w x) :
    ∃ s s' n, FifoReach c false s ∧ s.hist = List.range n ∧ s.enc.out.length = n ∧
      s.run c [.commit d, .deliver n, .deliver (n + 1), .commit x, .deliver (n + 2)] = .ok s' ∧
      s'.enc.out.length = n + 3 ∧ s'.enc.out[n + 2]? = some (.source ⟨0, x⟩) ∧ s'.hist = List.range (n + 3) ∧ s'.errs = 0 ∧
      s'.committed = List.replicate (2 ^ 32) d ++ [x] ∧ s'.dec.data = List.replicate (2 ^ 32) d := by
  have := fact_of_valid hc.width
  obtain ⟨N, hN⟩ : ∃ N, N + 1 = 2 ^ 32 := ⟨2 ^ 32 - 1, rfl⟩
  obtain ⟨s, h, h1, h2, h3, h4, h5, h6, h7, h8, hF⟩ := keep_all (io := false) hc d hd N (by omega)
  rw [← hN]
  have hlen : s.enc.out.length = N := by rw [h6]; simp
  have hdata := C40_complete hc hF (by rw [h8, hlen]; simp)
  obtain ⟨ems, A, a, L, k, hI⟩ := fifo_inv hc hF (fun _ => d) (by
    intro y e hy
    rw [h1] at hy
    exact (List.eq_of_mem_replicate (List.mem_of_getElem? hy)).symm)
  have hcur : s.enc.curSrc = N := by rw [hI.cur, h1, List.length_replicate]
  have hk : k = N := by
    rw [← hI.arrived]
    unfold Sys.arrivedSources
    rw [h8, List.length_range, ← hlen, List.take_length, h6]
    simp [List.countP_map, Function.comp_def, EPkt.isSource]
  subst hk
  have hcr : s.enc.curRep = 0 := by rw [hI.rep, h7]
  -- the commit of the last identifier
  obtain ⟨r, e1, hr, hcom, f2, f3, f4, f5, f6, f1⟩ := commit_one hc.width c.gf c.dbg s.enc d hd h2 h4 h5 (by rw [h3]; decide)
  rw [hcur, hN, Nat.mod_self] at f2
  rw [hcur] at hr
  rw [hcur, hN, Nat.mod_self, Nat.zero_mod, if_pos rfl] at f1
  rw [h3] at f6
  have step1 : s.step c (.commit d) = .ok { s with enc := e1, committed := s.committed ++ [d] } := by
    simp only [Sys.step, hcom]; rfl
  -- the source arrives
  have hkk : k < 2 ^ 32 := by omega
  obtain ⟨d1, n1, g1, g2, g3⟩ := deliver_calm c.gf c.dbg c.clk hI.calm hkk hd
  have step2 : ({ s with enc := e1, committed := s.committed ++ [d] } : Sys).step c (.deliver k) =
      .ok { enc := e1, dec := d1, committed := s.committed ++ [d], hist := s.hist ++ [k], errs := s.errs + 0 } := by
    have ho : e1.out[k]? = some (.source ⟨k, d⟩) := by rw [f1]; simp [hlen]
    simp only [Sys.step, ho, EPkt.bytes, EPkt.chunks, g1]
    rfl
  -- the repair arrives
  have hids : r.ids = [k] := hr.ids
  have hI1 : Itv k (k + 1) [k] := ⟨by simp [Sorted], by intro y; rw [List.mem_singleton]; omega⟩
  have hsl := (hr.symLen (by simpa using hd)).2.1
  have hrid : r.id = 0 := by rw [hr.id, hcr]
  obtain ⟨det', q1, q2, q3, q4⟩ := g2.repair c.gf c.dbg ⟨r.id, r.ids, r.encSize,
    r.sym ++ ((writeIds r.ids).flatten ++ beBytes 2 r.encSize.toNat ++ beBytes 2 r.sym.length ++ r.sym),
    r.sym.length⟩ (by simp only [hids]; exact hI1) hI.calm.le (Nat.lt_succ_self k)
  have hNr := notify_repair c.gf c.dbg c.clk d1 r (by rw [hrid]; decide) (by rw [hids]; exact hI1.wire (by omega) (by simp)) hsl det' q1
  generalize hd2 : ({ d1 with nbRepairs := d1.nbRepairs + 1, ackPackets := (d1.ackPackets + 1) % 2 ^ 16 } : NDec).afterDet c.clk det' = d2 at hNr
  have hd2det : d2.det = det' := by rw [← hd2]; unfold NDec.afterDet; rw [(fold_frame _ _ _).1]
  have hd2data : d2.data = d1.data := by
    rw [← hd2]; unfold NDec.afterDet; rw [(fold_frame _ _ _).2, q3]; simp
  clear hd2
  have step3 : ({ enc := e1, dec := d1, committed := s.committed ++ [d], hist := s.hist ++ [k], errs := s.errs + 0 } : Sys).step c
      (.deliver (k + 1)) =
      .ok { enc := e1, dec := d2, committed := s.committed ++ [d], hist := s.hist ++ [k] ++ [k + 1], errs := s.errs + 0 + 0 } := by
    have ho : e1.out[k + 1]? = some (.repair r) := by rw [f1]; simp [hlen]
    simp only [Sys.step, ho, EPkt.bytes, EPkt.chunks, hNr]
    rfl
  -- the next commit has identifier zero
  obtain ⟨r2, e2, -, hcom2, -, -, -, -, -, p1⟩ := commit_one hc.width c.gf c.dbg e1 x hx f3 f4 f5 (by rw [f6]; decide)
  rw [f2, f6, if_neg (by decide)] at p1
  have hlen2 : e1.out.length = k + 2 := by rw [f1]; simp [hlen]
  have ho : e2.out[k + 2]? = some (.source ⟨0, x⟩) := by rw [p1]; simp [hlen2]
  have hig : d2.det.onSource c.gf c.dbg ⟨0, x⟩ = .ok d2.det := by
    unfold Dec.onSource
    rw [if_pos (by
      rw [hd2det, q4]
      simp only [Option.any_some, decide_eq_true_eq]
      omega)]
  have hNs := notify_source c.gf c.dbg c.clk d2 ⟨0, x⟩ (by show 0 < 2 ^ 32; decide) hx.2.1 _ hig
  generalize hd3 : ({ d2 with nbSources := d2.nbSources + 1, ackPackets := (d2.ackPackets + 1) % 2 ^ 16 } : NDec).afterDet c.clk d2.det = d3 at hNs
  have hd3data : d3.data = d2.data := by
    rw [← hd3]; unfold NDec.afterDet; rw [(fold_frame _ _ _).2]; simp
  clear hd3
  refine ⟨s, ⟨e2, d3, s.committed ++ [d] ++ [x], s.hist ++ [k] ++ [k + 1] ++ [k + 2], s.errs + 0 + 0 + 0⟩, k, hF, h8, hlen, ?_, ?_, ho, ?_, hI.errs, ?_, ?_⟩
  · simp only [Sys.run, List.foldlM_cons, List.foldlM_nil, step1, bind, Except.bind, step2, step3]
    simp only [Sys.step, hcom2, bind, Except.bind, pure, Except.pure, ho, EPkt.bytes, EPkt.chunks, hNs, errCount]
  · show e2.out.length = _; rw [p1]; simp [hlen2]
  · show s.hist ++ [k] ++ [k + 1] ++ [k + 2] = _; rw [h8]; simp [List.range_succ]
  · show s.committed ++ [d] ++ [x] = _; rw [h1, List.replicate_succ']
  · show d3.data = _
    rw [hd3data, hd2data, g3, hdata, h1, List.replicate_succ']

example (dbg : Bool) : ∃ (s s' : Sys) (n : Nat), s.run (cfg8 dbg) [.commit [1#8], .deliver n, .deliver (n + 1), .commit [2#8, 3#8], .deliver (n + 2)] =
    .ok s' ∧ s'.dec.data.length < s'.committed.length := by
  obtain ⟨s, s', n, -, -, -, h1, -, -, -, -, h2, h3⟩ := C76_false (cfg8_ok dbg) [1#8] [2#8, 3#8] (by decide) (by decide)
  refine ⟨s, s', n, h1, ?_⟩
  rw [h2, h3, List.length_append, List.length_replicate, List.length_singleton]
  omega

end Netcode
