import Verif.Props.Wrap
import Verif.Props.Old

/-!
# C76: numbers of repairs start again from zero, too
-/

set_option linter.unusedSectionVars false

namespace Netcode

variable {w : Nat}

/-- Any number of repairs of the same window. -/
theorem many_repairs {c : Cfg w} (hc : c.Ok) (s : Sys) (hne : s.enc.sources ≠ []) (hd : ∀ x ∈ s.enc.sources, DataOk w x.sym)
    (hs : Sorted (s.enc.sources.map (·.id))) (hr : s.enc.curRep < 2 ^ 32) (n : Nat) :
    ∃ s', s.run c (List.replicate n .repair) = .ok s' ∧ s'.dec = s.dec ∧ s'.committed = s.committed ∧ s'.hist = s.hist ∧
      s'.errs = s.errs ∧ s'.enc.sources = s.enc.sources ∧ s'.enc.curSrc = s.enc.curSrc ∧ s'.enc.systematic = s.enc.systematic ∧
      s'.enc.rate = s.enc.rate ∧ s'.enc.windowSize = s.enc.windowSize ∧ s'.enc.curRep = (s.enc.curRep + n) % 2 ^ 32 ∧
      s'.enc.out.length = s.enc.out.length + n := by
  have := fact_of_valid hc.width
  induction n with
  | zero => exact ⟨s, rfl, rfl, rfl, rfl, rfl, rfl, rfl, rfl, rfl, rfl, (Nat.mod_eq_of_lt hr).symm, rfl⟩
  | succ n ih =>
    obtain ⟨s1, h0, h1, h2, h3, h4, h5, h6, h7, h8, h9, h10, h11⟩ := ih
    obtain ⟨r, q1, hr1⟩ := encodeRepair_ok c.gf hc.width c.dbg s1.enc.curRep s1.enc.sources (by rw [h5]; exact hne)
      (by rw [h5]; exact hd) (by rw [h5]; exact hs)
    have hsl := (hr1.symLen (by rw [h5]; exact hd)).1
    have hstep : s1.step c .repair = .ok { s1 with enc := { s1.enc with
        curRep := (s1.enc.curRep + 1) % 2 ^ 32, nbSentRepairs := s1.enc.nbSentRepairs + 1,
        nbSentPackets := (s1.enc.nbSentPackets + 1) % 2 ^ 16, out := s1.enc.out ++ [.repair r] } } := by
      simp only [Sys.step, Enc.generateRepair, q1, bind, Except.bind]
      rw [cassert_true _ (by simpa using hsl)]
      rfl
    generalize hs2 : ({ s1 with enc := { s1.enc with
        curRep := (s1.enc.curRep + 1) % 2 ^ 32, nbSentRepairs := s1.enc.nbSentRepairs + 1,
        nbSentPackets := (s1.enc.nbSentPackets + 1) % 2 ^ 16, out := s1.enc.out ++ [.repair r] } } : Sys) = s2 at hstep
    refine ⟨s2, ?_, by rw [← hs2]; exact h1, by rw [← hs2]; exact h2, by rw [← hs2]; exact h3, by rw [← hs2]; exact h4,
      by rw [← hs2]; exact h5, by rw [← hs2]; exact h6, by rw [← hs2]; exact h7, by rw [← hs2]; exact h8, by rw [← hs2]; exact h9, ?_, ?_⟩
    · rw [List.replicate_succ', Sys.run, List.foldlM_append, show List.foldlM (Sys.step c) s (List.replicate n Act.repair) = .ok s1 from h0]
      simp only [bind, Except.bind, List.foldlM_cons, List.foldlM_nil, hstep]
      rfl
    · rw [← hs2]
      show (s1.enc.curRep + 1) % 2 ^ 32 = _
      rw [h10]; omega
    · rw [← hs2]
      show (s1.enc.out ++ [_]).length = _
      rw [List.length_append, h11]; rfl

/-- A commit into a window of two sources that is full. -/
theorem commit_full (dbg : Bool) (e : Enc) (h1 : e.sources = [⟨0, [1]⟩, ⟨1, [2]⟩]) (h2 : e.curSrc = 2) (h3 : e.systematic = true)
    (h4 : e.rate = 5) (h5 : e.windowSize = 2) :
    ∃ e', e.commit gf8 dbg [3] = .ok e' ∧ e'.sources = [⟨1, [2]⟩, ⟨2, [3]⟩] ∧ e'.curRep = e.curRep ∧
      e'.out = e.out ++ [.source ⟨2, [3]⟩] := by
  obtain ⟨a1, a2, a3, a4, a5, a6, a7, a8, a9, a10, a11, a12⟩ := e
  simp only at h1 h2 h3 h4 h5
  subst h1 h2 h3 h4 h5
  cases dbg <;> exact ⟨_, rfl, rfl, rfl, rfl⟩

/-- Sources 0 and 1 are lost, a repair of both arrives. -/
def heldActs : List Act := [.setWindow 2, .commit [1], .commit [2], .repair, .deliver 2]

/-- **C76 fails for repairs, too.** Sources 0 and 1 are lost; repair 0, which lists both, arrives and is held.  `2 ^ 32 - 1` repairs
are lost.  Source 2 arrives; source 0 has left the window.  The next repair, of sources 1 and 2, has the number 0 again.  It
arrives, and source 1 is its only unknown source, but it is taken for the one that is held: source 1 is not handed over. -/
theorem C76_false_repairs (dbg : Bool) :
    let c := cfg8 dbg
    let s := reached c false heldActs
    Reach c false s ∧ ∃ n s1 s2 r, s.run c (List.replicate (2 ^ 32 - 1) .repair) = .ok s1 ∧
      s1.run c [.commit [3], .deliver n, .repair, .deliver (n + 1)] = .ok s2 ∧ s2.errs = 0 ∧ n = s1.enc.out.length ∧
      s2.enc.out[n + 1]? = some (.repair r) ∧ r.id = 0 ∧ r.ids = [1, 2] ∧ n + 1 ∈ s2.hist ∧
      s2.committed = [[1], [2], [3]] ∧ s2.dec.data = [[3]] := by
  intro c s
  have hc : c.Ok := cfg8_ok dbg
  have := fact_of_valid hc.width
  have hR : Reach c false s := reached_reach (by clear this hc; revert dbg; decide +kernel)
  have k1 : s.enc.sources = [⟨0, [1]⟩, ⟨1, [2]⟩] ∧ s.enc.curRep = 1 ∧ s.enc.curSrc = 2 ∧ s.enc.systematic = true ∧ s.enc.rate = 5 ∧
      s.enc.windowSize = 2 ∧ s.errs = 0 ∧ s.committed = [[1], [2]] ∧ s.dec.data = [] := by
    clear hR this hc; revert dbg; decide +kernel
  obtain ⟨k1, k2, k3, k4, k5, k6, k7, k8, k9⟩ := k1
  have k10 : ∃ det', s.dec.det.onSource gf8 dbg ⟨2, [3]⟩ = .ok det' ∧ det'.repairs.keys = [0] ∧
      (det'.log.drop s.dec.det.log.length).map (·.data) = [[3]] := by
    have h : (s.dec.det.onSource gf8 dbg ⟨2, [3]⟩).toOption.map (fun d => (d.repairs.keys, (d.log.drop s.dec.det.log.length).map (·.data))) =
        some ([0], [[3]]) := by
      clear k1 k2 k3 k4 k5 k6 k7 k8 k9 hR this hc; revert dbg; decide +kernel
    cases ho : s.dec.det.onSource gf8 dbg ⟨2, [3]⟩ with
    | error e => rw [ho] at h; cases h
    | ok d =>
      rw [ho] at h
      have h := Option.some.inj h
      exact ⟨d, rfl, (Prod.mk.inj h).1, (Prod.mk.inj h).2⟩
  obtain ⟨det', k10, k11, k12⟩ := k10
  obtain ⟨N, hN⟩ : ∃ N, N + 1 = 2 ^ 32 := ⟨2 ^ 32 - 1, rfl⟩
  have hN1 : 2 ^ 32 - 1 = N := by omega
  rw [hN1]
  refine ⟨hR, ?_⟩
  obtain ⟨s1, h0, h1, h2, h3, h4, h5, h6, h7, h8, h9, h10, h11⟩ := many_repairs hc s (by rw [k1]; simp) (by rw [k1]; decide)
    (by rw [k1]; decide) (by rw [k2]; decide) N
  have hcr : s1.enc.curRep = 0 := by rw [h10, k2]; omega
  obtain ⟨e2, g1, g2, g3, g4⟩ := commit_full dbg s1.enc (by rw [h5, k1]) (by rw [h6, k3]) (by rw [h7, k4]) (by rw [h8, k5]) (by rw [h9, k6])
  have step1 : s1.step c (.commit [3]) = .ok { s1 with enc := e2, committed := s1.committed ++ [[3]] } := by
    have g1 : s1.enc.commit c.gf c.dbg [3] = .ok e2 := g1
    simp only [Sys.step, g1]; rfl
  -- source 2 arrives
  have hNs := notify_source c.gf c.dbg c.clk s1.dec ⟨2, [3]⟩ (by show 2 < 2 ^ 32; decide) (by show 1 < 2 ^ 16; decide) det'
    (by rw [h1]; exact k10)
  generalize hd1 : ({ s1.dec with nbSources := s1.dec.nbSources + 1, ackPackets := (s1.dec.ackPackets + 1) % 2 ^ 16 } : NDec).afterDet c.clk det' = d1 at hNs
  have hd1det : d1.det = det' := by rw [← hd1]; unfold NDec.afterDet; rw [(fold_frame _ _ _).1]
  have hd1data : d1.data = [[3]] := by
    rw [← hd1]; unfold NDec.afterDet; rw [(fold_frame _ _ _).2]
    simp only [h1, k9, k12, List.nil_append]
  clear hd1
  have step2 : ({ s1 with enc := e2, committed := s1.committed ++ [[3]] } : Sys).step c (.deliver s1.enc.out.length) =
      .ok { enc := e2, dec := d1, committed := s1.committed ++ [[3]], hist := s1.hist ++ [s1.enc.out.length], errs := s1.errs + 0 } := by
    have ho : e2.out[s1.enc.out.length]? = some (.source ⟨2, [3]⟩) := by rw [g4]; simp
    simp only [Sys.step, ho, EPkt.bytes, EPkt.chunks, hNs]
    rfl
  -- repair 0 again
  obtain ⟨r, q1, hr⟩ := encodeRepair_ok c.gf hc.width c.dbg e2.curRep e2.sources (by rw [g2]; simp) (by rw [g2]; decide) (by rw [g2]; decide)
  have hsl := hr.symLen (by rw [g2]; decide)
  have hids : r.ids = [1, 2] := by rw [hr.ids, g2]; rfl
  have hrid : r.id = 0 := by rw [hr.id, g3, hcr]
  generalize he3 : ({ e2 with
        curRep := (e2.curRep + 1) % 2 ^ 32, nbSentRepairs := e2.nbSentRepairs + 1,
        nbSentPackets := (e2.nbSentPackets + 1) % 2 ^ 16, out := e2.out ++ [.repair r] } : Enc) = e3
  have hgen : e2.generateRepair c.gf c.dbg = .ok e3 := by
    rw [← he3]
    simp only [Enc.generateRepair, q1, bind, Except.bind]
    rw [cassert_true _ (by simpa using hsl.1)]
    rfl
  have ho3 : e3.out[s1.enc.out.length + 1]? = some (.repair r) := by
    rw [← he3, g4]; simp
  have hrep := C69_ignored c.gf c.dbg d1.det ⟨r.id, r.ids, r.encSize,
    r.sym ++ ((writeIds r.ids).flatten ++ beBytes 2 r.encSize.toNat ++ beBytes 2 r.sym.length ++ r.sym), r.sym.length⟩
    (by simp only [hids]; simp) (Or.inr (by
      have : (0 : Nat) ∈ d1.det.repairs.keys := by rw [hd1det, k11]; simp
      obtain ⟨q, hq1, hq2⟩ := List.mem_map.1 this
      exact ⟨q, hq1, by rw [hq2]; exact hrid.symm⟩))
  have hI1 : Itv 1 3 [1, 2] := ⟨by simp [Sorted], by intro y; simp; omega⟩
  have hNr := notify_repair c.gf c.dbg c.clk d1 r (by rw [hrid]; decide) (by rw [hids]; exact hI1.wire (by omega) (by simp)) hsl.2.1 _ hrep
  generalize hd2 : ({ d1 with nbRepairs := d1.nbRepairs + 1, ackPackets := (d1.ackPackets + 1) % 2 ^ 16 } : NDec).afterDet c.clk d1.det = d2 at hNr
  have hd2data : d2.data = d1.data := by
    rw [← hd2]; unfold NDec.afterDet; rw [(fold_frame _ _ _).2]; simp
  clear hd2
  refine ⟨s1.enc.out.length, s1, ⟨e3, d2, s1.committed ++ [[3]], s1.hist ++ [s1.enc.out.length] ++ [s1.enc.out.length + 1], s1.errs + 0 + 0⟩,
    r, h0, ?_, ?_, rfl, ho3, hrid, hids, ?_, ?_, ?_⟩
  · simp only [Sys.run, List.foldlM_cons, List.foldlM_nil, step1, bind, Except.bind, step2]
    simp only [Sys.step, hgen, bind, Except.bind, pure, Except.pure, ho3, EPkt.bytes, EPkt.chunks, hNr, errCount]
  · show s1.errs = 0; rw [h4, k7]
  · simp
  · show s1.committed ++ [[3]] = _; rw [h2, k8]; rfl
  · show d2.data = _; rw [hd2data, hd1data]

/-- With fewer repairs, the numbers of which do not start again, source 1 is handed over: it is the number that matters. -/
example (dbg : Bool) :
    let s := reached (cfg8 dbg) false (heldActs ++ [.repair, .repair, .commit [3], .deliver 5, .repair, .deliver 6])
    s.enc.out.length = 7 ∧ s.committed = [[1], [2], [3]] ∧ [2] ∈ s.dec.data := by
  revert dbg; decide +kernel

end Netcode
