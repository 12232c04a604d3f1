import Verif.Proofs.DecCover
import Verif.Proofs.DecTwin
import Verif.Props.Wrap

/-!
# What ordering may change

C46: a decoder with ordering hands over nothing that the same decoder without ordering does not hand over.
C76: with ordering, the datum that has the last identifier is handed over twice.
-/

set_option linter.unusedSectionVars false

namespace Netcode

open OMap

variable {w : Nat}

/-- **C46.** Whatever the packets, each datum that a decoder with ordering hands over, the one without ordering that is given the same
packets hands over too, under the same number and with the same bytes. -/
theorem C46_nothing_more (gf : GF w) (dbg : Bool) (clk : Clock) (acts : List DAct) (d : NDec)
    (h : (NDec.init clk true).after gf dbg clk acts = .ok d) :
    ∃ u, (NDec.init clk false).after gf dbg clk acts = .ok u ∧
      (∀ ev ∈ d.det.log, ∃ ev' ∈ u.det.log, ev'.id = ev.id ∧ ev'.data = ev.data) ∧ ∀ b ∈ d.data, b ∈ u.data := by
  obtain ⟨u, hu, hcov⟩ := cov_after acts (NDec.init clk true) d (NDec.init clk false) (cov_init true) h
  have hdd : d.data = d.det.log.map (·.data) := (twin_after acts _ _ _ (twin_init clk true) h).choose_spec.2.data
  have hud : u.data = u.det.log.map (·.data) := (twin_after acts _ _ _ (twin_init clk false) hu).choose_spec.2.data
  refine ⟨u, hu, hcov.log, ?_⟩
  intro b hb
  rw [hdd] at hb
  obtain ⟨ev, h1, h2⟩ := List.mem_map.1 hb
  obtain ⟨ev', g1, -, g2⟩ := hcov.log ev h1
  rw [hud]
  exact List.mem_map.2 ⟨ev', g1, by rw [g2, h2]⟩

/-- Source 1 is lost: the decoder with ordering withholds data that the other hands over at once. -/
def coverActs : List DAct :=
  [.packet (EPkt.source ⟨0, [1#8]⟩).bytes, .packet (EPkt.source ⟨2, [3#8]⟩).bytes, .packet (EPkt.source ⟨3, [4#8]⟩).bytes]

example (dbg : Bool) :
    ((NDec.init (cfg8 dbg).clk true).after (cfg8 dbg).gf dbg (cfg8 dbg).clk coverActs).toOption.map (·.data) = some [[1#8]] ∧
    ((NDec.init (cfg8 dbg).clk false).after (cfg8 dbg).gf dbg (cfg8 dbg).clk coverActs).toOption.map (·.data) = some [[1#8], [3#8], [4#8]] := by
  revert dbg; decide +kernel

/-- The last identifier arrives: `m_first_missing_source` goes back to zero, and the source is withheld although it was just handed
over. -/
theorem Calm.last_id {data : Nat → List Byte} {L k : Nat} {d : Dec} (gf : GF w) (dbg : Bool) (h : Calm data true L k d)
    (hk : k + 1 = 2 ^ 32) :
    d.onSource gf dbg ⟨k, data k⟩ = .ok { d with
      log := d.log ++ [{ id := k, data := data k, held := d.sources.keys }], firstMissing := 0,
      sources := d.sources.emplace k ⟨k, data k⟩, ordered := [k] } := by
  have hnk : k ∉ d.sources.map (·.1) := fun hx => by have := (h.held.mem k).1 hx; omega
  have hhas : d.sources.has k = false := (has_false_iff _ _).2 hnk
  have hout : ¬ (d.lastId.any (fun l => decide (k < l)) = true) := by
    rcases h.last with hl | hl
    · rw [hl]; simp
    · rw [hl]; have := h.le; simpa using this
  have hgive : d.giveNew dbg ⟨k, data k⟩ = .ok { d with
      log := d.log ++ [{ id := k, data := data k, held := d.sources.keys }], firstMissing := 0 } := by
    unfold Dec.giveNew
    rw [if_neg (by rw [h.mode]; simp), if_pos (by rw [h.first rfl])]
    have hmod : (d.firstMissing + 1) % 2 ^ 32 = 0 := by rw [h.first rfl, hk, Nat.mod_self]
    rw [hmod]
    unfold Dec.flush
    rw [if_neg (by simp only [Dec.callback, h.ordered]; simp)]
    rfl
  have hfuel : d.fuel = 5 + 1 := by unfold Dec.fuel; rw [h.repairs, h.missing]; rfl
  unfold Dec.onSource
  rw [if_neg hout, if_neg (by rw [hhas]; simp), hfuel]
  unfold addSource addSourceHead
  simp only [hgive, bind, Except.bind, h.missing, OMap.get?_nil, pure, Except.pure]
  have hm : OMap.keys ([] : OMap (List Nat)) = [] := rfl
  simp only [hm, List.head?_nil]
  unfold scanMissing addSourceTail
  simp only [bind, Except.bind]
  rw [cassert_ok _ (by rw [hhas]; rfl)]
  simp only [bind, Except.bind, h.mode, h.ordered]
  rw [if_pos (by simp; omega)]
  simp only [pure, Except.pure]
  unfold Dec.fullDecode
  rw [if_pos (by simp [h.repairs])]
  rfl

/-- A repair of the last identifier arrives then. -/
theorem Calm.last_again {data : Nat → List Byte} {L k : Nat} {d : Dec} (gf : GF w) (dbg : Bool) (h : Calm data true L k d)
    (hk : k + 1 = 2 ^ 32) (r : DRepair) (hr : r.ids = [k]) :
    ∃ d1 d2, d.onSource gf dbg ⟨k, data k⟩ = .ok d1 ∧ d1.onRepair gf dbg r = .ok d2 ∧
      d1.log.map (·.data) = d.log.map (·.data) ++ [data k] ∧
      ∃ evs, d2.log = d1.log ++ evs ∧ evs.map (·.id) = [k] ∧ evs.map (·.data) = [data k] := by
  have h1 := h.last_id gf dbg hk
  have hnk : k ∉ d.sources.map (·.1) := fun hx => by have := (h.held.mem k).1 hx; omega
  have hget : (d.sources.emplace k ⟨k, data k⟩).get? k = some ⟨k, data k⟩ := by
    exact get?_emplace_self _ _ _ hnk
  generalize hd1 : ({ d with
      log := d.log ++ [{ id := k, data := data k, held := d.sources.keys }], firstMissing := 0,
      sources := d.sources.emplace k ⟨k, data k⟩, ordered := [k] } : Dec) = d1 at h1
  have hne : r.ids ≠ [] := by rw [hr]; simp
  have hu := onRepair_useless (gf := gf) (dbg := dbg) (s := d1) hne (by rw [hr]; simp [Sorted]) (by rw [← hd1]; simp only [h.repairs]; rfl)
    (by
      intro l hl
      rw [← hd1] at hl
      simp only [hr, List.getLast_singleton]
      have := h.le
      rcases h.last with h2 | h2 <;> rw [h2] at hl
      · cases hl
      · cases hl; omega)
    (by
      intro x hx
      rw [hr, List.mem_singleton] at hx
      subst hx
      rw [← hd1]
      show _ ∈ (d.sources.emplace _ _).map (·.1)
      rw [mem_keys_emplace]
      left; rfl)
  have hhead : r.ids.head hne = k := by simp only [hr, List.head_cons]
  have hdrop : ∃ d2, d1.dropOutdated dbg k = .ok d2 ∧ ∃ evs, d2.log = d1.log ++ evs ∧ evs.map (·.id) = [k] ∧ evs.map (·.data) = [data k] := by
    subst hd1
    unfold Dec.dropOutdated
    simp only [h.repairs, dropRepairs, bind, Except.bind]
    unfold Dec.giveAllOutdated
    rw [if_pos (by simp only; rw [h.mode])]
    simp only [bind, Except.bind]
    rw [show List.takeWhile (fun x => decide (x < k)) [k] = [] by simp]
    simp only [giveOutdated]
    rw [if_pos (by omega)]
    unfold Dec.flush
    rw [if_pos (by simp)]
    rw [show List.dropWhile (fun x => decide (x < k)) [k] = [k] by simp]
    unfold flushLoop
    rw [cassert_ok _ (by simp)]
    simp only [bind, Except.bind, Dec.callbackOrdered, hget, pure, Except.pure]
    exact ⟨_, rfl, _, rfl, rfl, rfl⟩
  obtain ⟨d2, g1, evs, g2, g3, g4⟩ := hdrop
  refine ⟨d1, { d2 with nbUseless := d2.nbUseless + 1 }, h1, by rw [hu, hhead, g1]; rfl, by rw [← hd1]; simp, evs, g2, g3, g4⟩

/-- **C76 fails in another way.** With ordering, fields of any size and any data, over a network that loses, repeats and reorders
nothing: the datum that is committed after `2 ^ 32 - 1` others is sent once and handed over twice. -/
theorem C76_false_twice {c : Cfg w} (hc : c.Ok) (d x : List Byte) (hd : DataOk w d) (hx : DataOk w x) :
    ∃ s s' n, FifoReach c true s ∧ s.hist = List.range n ∧ s.enc.out.length = n ∧
      s.run c [.commit x, .deliver n, .deliver (n + 1)] = .ok s' ∧
      s'.enc.out.length = n + 2 ∧ s'.hist = List.range (n + 2) ∧ s'.errs = 0 ∧
      s'.committed = List.replicate (2 ^ 32 - 1) d ++ [x] ∧ s'.dec.data = List.replicate (2 ^ 32 - 1) d ++ [x, x] := by
  have := fact_of_valid hc.width
  obtain ⟨N, hN⟩ : ∃ N, N + 1 = 2 ^ 32 := ⟨2 ^ 32 - 1, rfl⟩
  obtain ⟨s, h, h1, h2, h3, h4, h5, h6, h7, h8, hF⟩ := keep_all (io := true) hc d hd N (by omega)
  have hN1 : 2 ^ 32 - 1 = N := by omega
  rw [hN1]
  have hlen : s.enc.out.length = N := by rw [h6]; simp
  have hdata := C40_complete hc hF (by rw [h8, hlen]; simp)
  obtain ⟨ems, A, a, L, k, hI⟩ := fifo_inv hc hF (fun i => if i = N then x else d) (by
    intro y e hy
    rw [h1] at hy
    have hy2 := List.getElem?_eq_some_iff.1 hy
    obtain ⟨hlt, -⟩ := hy2
    rw [List.length_replicate] at hlt
    simp only [if_neg (Nat.ne_of_lt hlt)]
    exact (List.eq_of_mem_replicate (List.mem_of_getElem? hy)).symm)
  have hcur : s.enc.curSrc = N := by rw [hI.cur, h1, List.length_replicate]
  have hk : k = N := by
    rw [← hI.arrived]
    unfold Sys.arrivedSources
    rw [h8, List.length_range, ← hlen, List.take_length, h6]
    simp [List.countP_map, Function.comp_def, EPkt.isSource]
  subst hk
  have hcr : s.enc.curRep = 0 := by rw [hI.rep, h7]
  -- the commit of the last identifier
  obtain ⟨r, e1, hr, hcom, f2, f3, f4, f5, f6, f1⟩ := commit_one hc.width c.gf c.dbg s.enc x hx h2 h4 h5 (by rw [h3]; decide)
  rw [hcur] at hr
  rw [hcur, hN, Nat.mod_self, Nat.zero_mod, if_pos rfl] at f1
  have step1 : s.step c (.commit x) = .ok { s with enc := e1, committed := s.committed ++ [x] } := by
    simp only [Sys.step, hcom]; rfl
  have hids : r.ids = [k] := hr.ids
  have hkk : k < 2 ^ 32 := by omega
  have hI1 : Itv k (k + 1) [k] := ⟨by simp [Sorted], by intro y; rw [List.mem_singleton]; omega⟩
  have hsl := (hr.symLen (by simpa using hx)).2.1
  have hrid : r.id = 0 := by rw [hr.id, hcr]
  obtain ⟨det1, det2, q1, q2, q3, evs, q4, q5, q6⟩ := hI.calm.last_again c.gf c.dbg hN ⟨r.id, r.ids, r.encSize,
    r.sym ++ ((writeIds r.ids).flatten ++ beBytes 2 r.encSize.toNat ++ beBytes 2 r.sym.length ++ r.sym),
    r.sym.length⟩ hids
  simp only [if_true] at q1 q3 q6
  -- the source arrives
  have hNs := notify_source c.gf c.dbg c.clk s.dec ⟨k, x⟩ hkk hx.2.1 det1 q1
  generalize hd1 : ({ s.dec with nbSources := s.dec.nbSources + 1, ackPackets := (s.dec.ackPackets + 1) % 2 ^ 16 } : NDec).afterDet c.clk det1 = d1 at hNs
  have hd1det : d1.det = det1 := by rw [← hd1]; unfold NDec.afterDet; rw [(fold_frame _ _ _).1]
  have hl1 := hI.calm.last_id c.gf c.dbg hN
  simp only [if_true] at hl1
  rw [q1] at hl1
  have hlog1 : det1.log = s.dec.det.log ++ [{ id := k, data := x, held := s.dec.det.sources.keys }] := by
    have := Except.ok.inj hl1
    rw [this]
  have hd1data : d1.data = s.dec.data ++ [x] := by
    rw [← hd1]; unfold NDec.afterDet; rw [(fold_frame _ _ _).2, hlog1]; simp
  clear hd1
  have step2 : ({ s with enc := e1, committed := s.committed ++ [x] } : Sys).step c (.deliver k) =
      .ok { enc := e1, dec := d1, committed := s.committed ++ [x], hist := s.hist ++ [k], errs := s.errs + 0 } := by
    have ho : e1.out[k]? = some (.source ⟨k, x⟩) := by rw [f1]; simp [hlen]
    simp only [Sys.step, ho, EPkt.bytes, EPkt.chunks, hNs]
    rfl
  -- the repair arrives
  have hNr := notify_repair c.gf c.dbg c.clk d1 r (by rw [hrid]; decide) (by rw [hids]; exact hI1.wire (by omega) (by simp)) hsl det2
    (by rw [hd1det]; exact q2)
  generalize hd2 : ({ d1 with nbRepairs := d1.nbRepairs + 1, ackPackets := (d1.ackPackets + 1) % 2 ^ 16 } : NDec).afterDet c.clk det2 = d2 at hNr
  have hd2data : d2.data = d1.data ++ [x] := by
    rw [← hd2]; unfold NDec.afterDet; rw [(fold_frame _ _ _).2, q4, hd1det]; simp [q6]
  clear hd2
  have step3 : ({ enc := e1, dec := d1, committed := s.committed ++ [x], hist := s.hist ++ [k], errs := s.errs + 0 } : Sys).step c
      (.deliver (k + 1)) =
      .ok { enc := e1, dec := d2, committed := s.committed ++ [x], hist := s.hist ++ [k] ++ [k + 1], errs := s.errs + 0 + 0 } := by
    have ho : e1.out[k + 1]? = some (.repair r) := by rw [f1]; simp [hlen]
    simp only [Sys.step, ho, EPkt.bytes, EPkt.chunks, hNr]
    rfl
  refine ⟨s, ⟨e1, d2, s.committed ++ [x], s.hist ++ [k] ++ [k + 1], s.errs + 0 + 0⟩, k, hF, h8, hlen, ?_, ?_, ?_, hI.errs, ?_, ?_⟩
  · simp only [Sys.run, List.foldlM_cons, List.foldlM_nil, step1, bind, Except.bind, step2, step3]
    rfl
  · show e1.out.length = _; rw [f1]; simp [hlen]
  · show s.hist ++ [k] ++ [k + 1] = _; rw [h8]; simp [List.range_succ]
  · show s.committed ++ [x] = _; rw [h1]
  · show d2.data = _
    rw [hd2data, hd1data, hdata, h1, List.append_assoc]; rfl

example (dbg : Bool) : ∃ (s s' : Sys) (n : Nat), FifoReach (cfg8 dbg) true s ∧
    s.run (cfg8 dbg) [.commit [2#8, 3#8], .deliver n, .deliver (n + 1)] = .ok s' ∧ s'.committed.length < s'.dec.data.length := by
  obtain ⟨s, s', n, h0, -, -, h1, -, -, -, h2, h3⟩ := C76_false_twice (cfg8_ok dbg) [1#8] [2#8, 3#8] (by decide) (by decide)
  refine ⟨s, s', n, h0, h1, ?_⟩
  rw [h2, h3, List.length_append, List.length_append, List.length_replicate, List.length_singleton, List.length_cons, List.length_singleton]
  omega

end Netcode
