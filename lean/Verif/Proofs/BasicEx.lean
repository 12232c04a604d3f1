import Verif.Model.BasicEx
import Verif.Proofs.OneLoss
import Verif.Proofs.Tunnel
import Verif.Props.Layout

/-!
# The basic examples
-/

set_option linter.unusedSectionVars false

namespace Netcode

variable {c : Cfg 8} {s : Sys} {t : Basic}

/-- What follows a source in a packet is ignored. -/
theorem readSource_append (s : ESource) (hi : s.id < 2 ^ 32) (hl : s.sym.length < 2 ^ 16) (rest : List Byte) :
    readSource ((writeSource s).flatten ++ rest) = .ok ({ id := s.id, sym := s.sym }, (writeSource s).flatten.length) := by
  have h := reads_source_head s hi hl ((writeSource s).flatten ++ rest) (whole _) rest (at_whole _)
  obtain ⟨c', e, _, hp⟩ := h
  rw [readSource_eq, e]
  simp only [Except.map, Except.ok.injEq, Prod.mk.injEq, DSource.mk.injEq, true_and]
  constructor
  · have : (writeSource s).flatten ++ rest = (beBytes 1 2 ++ beBytes 4 s.id ++ beBytes 2 s.sym.length) ++ (s.sym ++ rest) := by
      simp [writeSource]
    rw [this, List.drop_append_of_le_length (by simp [beBytes_length, headerSize]),
      List.drop_of_length_le (by simp [beBytes_length, headerSize])]
    simp
  · rw [hp]; simp [whole]

theorem notify_append {w : Nat} (gf : GF w) (dbg : Bool) (clk : Clock) (d : NDec) (s : ESource) (hi : s.id < 2 ^ 32) (hl : s.sym.length < 2 ^ 16)
    (rest : List Byte) : d.notify gf dbg clk ((EPkt.source s).bytes ++ rest) = d.notify gf dbg clk (EPkt.source s).bytes := by
  have h1 : (EPkt.source s).bytes = (writeSource s).flatten := rfl
  rw [h1]
  have h2 := readSource_append s hi hl rest
  have h3 := readSource_writeSource s hi hl
  have h4 : getPacketType ((writeSource s).flatten ++ rest) = .ok .source := by simp [writeSource, beBytes, getPacketType]
  have h5 := getPacketType_source s
  have h6 : (writeSource s).flatten.length = 7 + s.sym.length := writeSource_length s
  unfold NDec.notify
  rw [h2, h3, h4, h5, List.length_append, h6]
  have h7 : (7 + s.sym.length + rest.length ≠ 0) = True := eq_true (by omega)
  have h8 : (7 + s.sym.length ≠ 0) = True := eq_true (by omega)
  simp only [h7, h8]

/-- When all is known, all has been handed over. -/
theorem data_all {w : Nat} {c : Cfg w} (hc : c.Ok) (h : Reach c true s) (hk : ∀ x < s.committed.length, s.dec.det.Knows x) :
    s.dec.data = s.committed := by
  have := fact_of_valid hc.width
  obtain ⟨ems, A, ρ, L, W, K, hI⟩ := inv_of_reach hc h
  obtain ⟨ho, hf⟩ := hI.dinv.log.ord hI.io
  have hfm : s.committed.length ≤ s.dec.det.firstMissing := by
    by_contra hcon
    exact hf ((hI.knows_iff _).1 (hk _ (by omega)))
  have hrange : s.dec.det.handed = List.range s.committed.length :=
    sorted_eq_range ho.logSorted (fun x => (ho.logMem x).trans
      ⟨fun q => hI.knownLt x q.1, fun q => ⟨(hI.knows_iff x).1 (hk x q), by omega⟩⟩)
  rw [data_of_handed hc h, hrange, map_range_getD (Nat.le_refl _), List.take_length]

/-- The states of the programs after the data `ds`. -/
structure BasicOk (c : Cfg 8) (ds : List (List Byte)) (t : Basic) (s : Sys) : Prop where
  line : LineReach c true s
  enc : t.enc = s.enc
  dec : t.dec = s.dec
  com : s.committed = ds
  sys : s.enc.systematic = true
  rate : s.enc.rate = 5
  size : s.enc.windowSize = 32
  reps : s.enc.nbSentRepairs ≤ ds.length
  hist : ∀ j ∈ s.hist, j < s.enc.out.length
  all : ∀ (k : Nat) (sr : ESource), s.enc.out[k]? = some (.source sr) → k ∈ s.hist
  sent : ∀ x < ds.length, ∃ (k : Nat) (sr : ESource), s.enc.out[k]? = some (.source sr) ∧ sr.id = x
  win : ∃ a m, m ≤ 32 ∧ a + m = ds.length ∧ s.enc.win = List.range' a m ∧ (a = 0 ∨ m = 32)
  errs : s.errs = 0

theorem basic_init (c : Cfg 8) : ∃ t, Basic.init c = .ok t ∧ t.sink = [] ∧ t.dec.data = [] ∧ ∃ s, BasicOk c [] t s := by
  refine ⟨⟨{ Enc.init with windowSize := 32 }, (NDec.init c.clk true).setAckPeriod 200, []⟩, ?_, rfl, rfl,
    { Sys.init c.clk true with enc := { Enc.init with windowSize := 32 }, dec := (NDec.init c.clk true).setAckPeriod 200 }, ?_⟩
  · unfold Basic.init Enc.setWindowSize cassert
    cases c.dbg <;> rfl
  · refine ⟨?_, rfl, rfl, rfl, rfl, rfl, rfl, Nat.le_refl _, ?_, ?_, ?_, ⟨0, 0, by omega, rfl, rfl, Or.inl rfl⟩, rfl⟩
    · have h1 : (Sys.init c.clk true).step c (.setWindow 32) = .ok { Sys.init c.clk true with enc := { Enc.init with windowSize := 32 } } := by
        unfold Sys.step Sys.init Enc.setWindowSize cassert
        cases c.dbg <;> rfl
      refine .step (a := .setAckPeriod 200) (.step (a := .setWindow 32) .init ⟨(by decide : 0 < 32), trivial⟩ h1) ⟨trivial, trivial⟩ ?_
      rfl
    · intro j hj; cases hj
    · intro k sr h; simp [Enc.init] at h
    · intro x hx; cases hx

/-- What a round of the programs does. -/
theorem basic_step (hc : c.Ok) {ds : List (List Byte)} {d : List Byte} (hd : DataOk 8 d) (hn : ds.length + 1 < 2 ^ 16) (h : BasicOk c ds t s) :
    ∃ e dc n s', t.enc.commit c.gf c.dbg d = .ok e ∧ t.dec.notify c.gf c.dbg c.clk (emitted t.enc e) = .ok (dc, .ok n) ∧
      BasicOk c (ds ++ [d]) ⟨e, dc, t.sink⟩ s' ∧ dc.data = ds ++ [d] ∧ t.dec.data = ds := by
  have := fact_of_valid hc.width
  have hcl : s.committed.length < 2 ^ 16 := by rw [h.com]; omega
  have hr := line_reach hc (by decide) h.line hcl
  have ha1 : Line 8 s (.commit d) := ⟨⟨hd, by rw [h.com]; omega, by have := h.reps; omega⟩, trivial⟩
  obtain ⟨s1, h1, e1⟩ := C70_no_fault hc (by decide) h.line hcl (.commit d) ha1
  have hl1 := LineReach.step h.line ha1 h1
  have h1' := h1
  simp only [Sys.step, bind_ok_iff, pure_ok_iff] at h1'
  obtain ⟨e, g1, rfl⟩ := h1'
  obtain ⟨ems, A, ρ, L, W, K, hI⟩ := inv_of_reach hc hr
  have hcur : s.enc.curSrc = ds.length := by rw [hI.cur, h.com]
  -- what is emitted
  have hout : ∃ rest, e.out = s.enc.out ++ .source ⟨ds.length, d⟩ :: rest ∧ (∀ p ∈ rest, ∃ r, p = EPkt.repair r) := by
    obtain ⟨x1, x2, rfl, q2, -, q4⟩ := commit_inv g1
    rw [← hcur]
    rcases q2 with ⟨-, rfl⟩ | ⟨q, -⟩
    · rcases q4 with ⟨-, rfl⟩ | ⟨-, r2, -, rfl⟩
      · exact ⟨[], by simp [Enc.sentSource], by simp⟩
      · exact ⟨[.repair r2], by simp [Enc.sentSource, Enc.sentRepair], by simp⟩
    · rw [h.sys] at q; cases q
  obtain ⟨rest, hout, hrest⟩ := hout
  have hcl1 : (s.committed ++ [d]).length < 2 ^ 16 := by rw [h.com]; simpa using hn
  have hsrc : e.out[s.enc.out.length]? = some (.source ⟨ds.length, d⟩) := by rw [hout]; simp
  have ha2 : Line 8 { s with enc := e, committed := s.committed ++ [d] } (.deliver s.enc.out.length) :=
    ⟨trivial, fun j hj => Nat.le_of_lt (h.hist j hj)⟩
  obtain ⟨s2, h2, e2⟩ := C70_no_fault hc (by decide) hl1 hcl1 (.deliver s.enc.out.length) ha2
  have hl2 := LineReach.step hl1 ha2 h2
  have h2' := h2
  simp only [Sys.step, hsrc, bind_ok_iff, pure_ok_iff] at h2'
  obtain ⟨⟨dc, res⟩, g2, rfl⟩ := h2'
  have hem : emitted s.enc e = (EPkt.source ⟨ds.length, d⟩).bytes ++ rest.flatMap EPkt.bytes := by
    unfold emitted
    rw [hout, List.drop_left]
    rfl
  have hok : ∃ n, res = .ok n := by
    cases res with
    | ok n => exact ⟨n, rfl⟩
    | error x => simp [errCount] at e2
  obtain ⟨n, rfl⟩ := hok
  have hset := commit_same g1
  have hwin := (commit_sources g1).1
  have hb : BasicOk c (ds ++ [d]) ⟨e, dc, t.sink⟩
      { s with enc := e, committed := s.committed ++ [d], dec := dc, hist := s.hist ++ [s.enc.out.length], errs := s.errs + errCount (Except.ok (ε := CppErr) n) } := by
    refine ⟨hl2, rfl, rfl, by simp [h.com], hset.1.sys.trans h.sys, hset.2.1.trans h.rate, hset.1.win.trans h.size, ?_, ?_, ?_, ?_, ?_, e2⟩
    · have := h.reps
      obtain ⟨x1, x2, rfl, q2, -, q4⟩ := commit_inv g1
      rw [List.length_append, List.length_singleton]
      rcases q2 with ⟨-, rfl⟩ | ⟨q, -⟩
      · rcases q4 with ⟨-, rfl⟩ | ⟨-, r2, -, rfl⟩
        · simp only [Enc.sentSource]; omega
        · simp only [Enc.sentSource, Enc.sentRepair]; omega
      · rw [h.sys] at q; cases q
    · intro j hj
      simp only [hout, List.length_append, List.length_cons]
      rcases List.mem_append.1 hj with hj | hj
      · have := h.hist j hj; omega
      · rw [List.mem_singleton.1 hj]; omega
    · intro k sr hk
      simp only [hout] at hk
      rcases Nat.lt_trichotomy k s.enc.out.length with hlt | rfl | hgt
      · rw [List.getElem?_append_left hlt] at hk
        exact List.mem_append_left _ (h.all k sr hk)
      · exact List.mem_append_right _ List.mem_cons_self
      · rw [List.getElem?_append_right (by omega), show k - s.enc.out.length = (k - s.enc.out.length - 1) + 1 by omega,
          List.getElem?_cons_succ] at hk
        obtain ⟨r, hr⟩ := hrest _ (List.mem_of_getElem? hk)
        cases hr
    · intro x hx
      rw [List.length_append, List.length_singleton] at hx
      by_cases hx2 : x < ds.length
      · obtain ⟨k, sr, q1, q2⟩ := h.sent x hx2
        refine ⟨k, sr, ?_, q2⟩
        simp only [hout]
        rw [List.getElem?_append_left (getElem?_lt q1)]
        exact q1
      · exact ⟨_, _, hsrc, by simp only; omega⟩
    · obtain ⟨a, m, q1, q2, q3, q4⟩ := h.win
      have hlen : s.enc.window = m := by
        have := congrArg List.length q3
        rw [List.length_range'] at this
        rw [← this]
        simp [Enc.window, Enc.win]
      unfold Enc.win at q3 ⊢
      simp only [hwin, List.map_append, List.map_cons, List.map_nil, hcur]
      unfold Enc.room
      rw [List.length_append, List.length_singleton]
      unfold Enc.window at hlen
      by_cases hfull : s.enc.sources.length = s.enc.windowSize
      · have hm : m = 31 + 1 := by rw [h.size] at hfull; omega
        rw [if_pos hfull, List.map_tail, q3, hm, List.range'_succ, List.tail_cons]
        refine ⟨a + 1, 32, by omega, by omega, ?_, Or.inr rfl⟩
        have e3 : ds.length = a + 1 + 1 * 31 := by omega
        rw [e3, ← List.range'_concat]
      · rw [if_neg hfull, q3]
        have hm : m ≠ 32 := by rw [h.size] at hfull; omega
        refine ⟨a, m + 1, by omega, by omega, ?_, Or.inl (by omega)⟩
        rw [List.range'_concat]
        simp; omega
  have hdat : ∀ {ds' : List (List Byte)} {t' : Basic} {s' : Sys}, ds'.length < 2 ^ 16 → BasicOk c ds' t' s' → t'.dec.data = ds' := by
    intro ds' t' s' hn' hb'
    have hcl' : s'.committed.length < 2 ^ 16 := by rw [hb'.com]; exact hn'
    rw [hb'.dec, ← hb'.com]
    refine data_all hc (line_reach hc (by decide) hb'.line hcl') ?_
    intro x hx
    rw [hb'.com] at hx
    obtain ⟨k, sr, q1, rfl⟩ := hb'.sent x hx
    exact line_known hc (by decide) hb'.line hcl' k (hb'.all k sr q1) sr q1
  refine ⟨e, dc, n, _, by rw [h.enc]; exact g1, ?_, hb, hdat (by simpa using hn) hb, hdat (by omega) h⟩
  rw [h.enc, h.dec, hem, notify_append]
  · exact g2
  · simp only; omega
  · exact hd.2.1

/-- The size of what a round emits. -/
theorem basic_size (hc : c.Ok) {ds : List (List Byte)} {d : List Byte} (hn : ds.length + 1 < 2 ^ 16)
    {e : Enc} {s s' : Sys} (h : BasicOk c ds t s)
    (he : t.enc.commit c.gf c.dbg d = .ok e) {dc : NDec} {sk : List Byte} (h' : BasicOk c (ds ++ [d]) ⟨e, dc, sk⟩ s') :
    ((ds.length + 1) % 5 ≠ 0 ∧ (emitted t.enc e).length = 7 + d.length) ∨
    ((ds.length + 1) % 5 = 0 ∧ ∃ x ∈ ds ++ [d], d.length ≤ x.length ∧ (emitted t.enc e).length = 27 + d.length + 2 * x.length) := by
  have := fact_of_valid hc.width
  have hr := line_reach hc (by decide) h.line (by rw [h.com]; omega)
  have hr' := line_reach hc (by decide) h'.line (by rw [h'.com]; simpa using hn)
  obtain ⟨ems, A, ρ, L, W, K, hI⟩ := inv_of_reach hc hr
  obtain ⟨q1, q2⟩ := reach_sources hc (late_of_reach hr')
  have hee : s'.enc = e := h'.enc.symm
  rw [hee] at q1 q2
  rw [h'.com] at q2
  have hcur : s.enc.curSrc = ds.length := by rw [hI.cur, h.com]
  have hrate := h.rate
  have hsys := h.sys
  obtain ⟨a, m, w1, w2, w3, w4⟩ := h'.win
  rw [hee] at w3
  rw [List.length_append, List.length_singleton] at w2
  rw [h.enc] at he ⊢
  obtain ⟨x1, x2, rfl, g2, -, g4⟩ := commit_inv he
  rcases g2 with ⟨-, rfl⟩ | ⟨g, -⟩
  swap
  · rw [hsys] at g; cases g
  rw [hcur, hrate, Nat.mod_eq_of_lt (show ds.length + 1 < 2 ^ 32 by omega)] at g4
  rcases g4 with ⟨g5, rfl⟩ | ⟨g5, r, g6, rfl⟩
  · left
    refine ⟨g5, ?_⟩
    unfold emitted
    simp only [Enc.sentSource, List.drop_left, List.flatMap_cons, List.flatMap_nil, List.append_nil]
    exact writeSource_length _
  · right
    refine ⟨g5, ?_⟩
    simp only [Enc.sentSource, Enc.sentRepair] at g6 q1 q2 w3 ⊢
    have hne := encodeRepair_ne g6
    obtain ⟨-, k1, x, hx, k2⟩ := repair_size g6 hne (fun x hx => (q2 x hx).1) q1
    have : Fact (0 < 8) := ⟨by decide⟩
    obtain ⟨r', k3, k4⟩ := encodeRepair_ok c.gf hc.width c.dbg _ _ hne (fun x hx => (q2 x hx).1) q1
    rw [g6] at k3
    cases k3
    have hids : (writeIds r.ids).flatten.length = 9 := by
      have hm : 2 ≤ m := by omega
      rw [k4.ids]
      have w3' : List.map (fun x : ESource => x.id) (s.enc.room ++ [⟨ds.length, d⟩]) = List.range' a m := w3
      rw [w3', show m = (m - 1) + 1 by omega, C60_consecutive a (m - 1) (by omega)]
      omega
    refine ⟨x.sym, (q2 x hx).2, ?_, ?_⟩
    · have := k1 ⟨ds.length, d⟩ (by simp)
      simp only at this
      omega
    · unfold emitted
      simp only [List.append_assoc, List.drop_left, List.cons_append, List.nil_append, List.flatMap_cons, List.flatMap_nil, List.append_nil,
        List.length_append]
      have k5 : (EPkt.source ⟨ds.length, d⟩).bytes.length = _ := writeSource_length _
      have k6 : (EPkt.repair r).bytes.length = _ := writeRepair_length r
      rw [k5, k6, hids, k2]
      simp only
      omega

end Netcode
