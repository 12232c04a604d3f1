import Verif.Proofs.SysInv
import Verif.Proofs.DecFrame
import Verif.Proofs.DecOld
import Verif.Spec.Observe

/-!
# The invariant holds along every allowed schedule
-/

set_option linter.unusedSectionVars false

namespace Netcode

open OMap

variable {w : Nat} [Fact (0 < w)]
variable {c : Cfg w} {io : Bool} {data : Nat → List Byte} {ems : List Em} {A : Set Nat} {ρ L : Nat}
  {W K : Set Nat} {s : Sys}

theorem EncInv.ems_get {gf : GF w} {n : Nat} {e : Enc} (h : EncInv gf data ems A n e) {i : Nat} {p : EPkt}
    (hp : e.out[i]? = some p) : ∃ em, ems[i]? = some em ∧ em.Renders gf data p := by
  have hi : i < ems.length := by rw [← h.outLen]; exact getElem?_lt hp
  exact ⟨ems[i], List.getElem?_eq_getElem hi, h.rend i _ p (List.getElem?_eq_getElem hi) hp⟩

theorem EncInv.isRep {gf : GF w} {n : Nat} {e : Enc} (h : EncInv gf data ems A n e) {i rid : Nat} {W : List Nat}
    (he : ems[i]? = some (.rep rid W)) : ∃ r, e.out[i]? = some (.repair r) := by
  have hi : i < e.out.length := by rw [h.outLen]; exact getElem?_lt he
  obtain ⟨r, h1, _⟩ := h.rend i _ _ he (List.getElem?_eq_getElem hi)
  exact ⟨r, by rw [List.getElem?_eq_getElem hi, h1]⟩

/-! ## Calls of the encoder -/

theorem SysInv.commit (hc : c.Ok) (h : SysInv c io data ems A ρ L W K s) (d : List Byte)
    (ha : Allowed c s (.commit d)) (hd : data s.committed.length = d) :
    ∃ s' new, s.step c (.commit d) = .ok s' ∧ SysInv c io data (ems ++ new) A ρ L W K s' ∧
      s'.committed = s.committed ++ [d] ∧ s'.dec = s.dec ∧ s'.hist = s.hist := by
  obtain ⟨h1, h2, h3⟩ := ha
  rw [← h.rep] at h3
  subst hd
  obtain ⟨e', new, e1, e2, e3, e4, e5, _, _, _, _, e6, e7, _, _, _⟩ :=
    h.enc.commit hc.width c.dbg h.cur h1 h2 h3 h.rate h.ws
  refine ⟨{ s with enc := e', committed := s.committed ++ [data s.committed.length] }, new, ?_, ?_, rfl, rfl, rfl⟩
  · simp only [Sys.step]
    rw [e1]; rfl
  · apply h.withEnc
    · simp
    · simpa using h2
    · rw [List.length_append]; exact e2
    · rw [e3]; simp
    · rw [e6, e7, h.rep]
    · rw [e4]; exact h.rate
    · rw [e5]; exact h.ws
    · exact h.ackK

theorem SysInv.repair (hc : c.Ok) (h : SysInv c io data ems A ρ L W K s) (ha : Allowed c s .repair) :
    ∃ s' new, s.step c .repair = .ok s' ∧ SysInv c io data (ems ++ new) A ρ L W K s' ∧
      s'.committed = s.committed ∧ s'.dec = s.dec ∧ s'.hist = s.hist := by
  obtain ⟨h1, h2⟩ := ha
  rw [← h.rep] at h2
  have hne : s.enc.sources ≠ [] := by intro hx; apply h1; unfold Enc.window; rw [hx]; rfl
  obtain ⟨r, hr, e1⟩ := h.enc.generateRepair hc.width c.dbg hne h2
  simp only [Sys.step, e1]
  refine ⟨_, [.rep s.enc.curRep s.enc.win], rfl, ?_, rfl, rfl, rfl⟩
  · exact h.withEnc (Nat.le_refl _) h.curLt (h.enc.emitRep r hr hne rfl rfl rfl h2) h.cur
      (by show s.enc.curRep + 1 = s.enc.nbSentRepairs + 1; rw [h.rep]) h.rate h.ws h.ackK

/-- Calls that only change parameters. -/
theorem SysInv.param (h : SysInv c io data ems A ρ L W K s) {e : Enc} (h1 : e.sources = s.enc.sources)
    (h2 : e.out = s.enc.out) (h3 : e.curRep = s.enc.curRep) (h4 : e.curSrc = s.enc.curSrc)
    (h5 : e.nbSentRepairs = s.enc.nbSentRepairs) (h6 : e.rate ≠ 0) (h7 : e.windowSize ≠ 0) :
    SysInv c io data (ems ++ []) A ρ L W K { s with enc := e } :=
  h.withEnc (Nat.le_refl _) h.curLt (by rw [List.append_nil]; exact h.enc.congr h1 h2 h3) (h4.trans h.cur)
    (by rw [h3, h5]; exact h.rep) h6 h7 h.ackK

/-- What `notify` does with an ack that arrives intact. -/
theorem notify_ack (F : F64) (dbg : Bool) (e : Enc) (a : Ack) (hn : a.nbPackets < 2 ^ 16) (hi : WireIds a.ids) :
    e.notify F dbg (writeAck a).flatten = .ok
      ({ e with
         nbAcks := e.nbAcks + 1
         rate := if e.adaptive then
             if e.nbSentPackets > 0 then rateForLoss F (lossRate F e.nbSentPackets a.nbPackets)
             else rateForLoss F 0
           else e.rate
         nbSentPackets := 0
         sources := eraseIds e.sources a.ids }, .ok (writeAck a).flatten.length) := by
  unfold Enc.notify
  rw [cassert_true _ (by simp [writeAck, beBytes])]
  simp only [bind, Except.bind, getPacketType_ack, readAck_writeAck a hn hi]
  rfl

theorem rate_pos {F : F64} (hF : F.Ok) (e : Enc) (nb : Nat) (hr : e.rate ≠ 0) :
    (if e.adaptive then
        if e.nbSentPackets > 0 then rateForLoss F (lossRate F e.nbSentPackets nb) else rateForLoss F 0
      else e.rate) ≠ 0 := by
  split
  · split
    · next h => have := rateForLoss_pos hF _ (lossRate_le_one hF e.nbSentPackets nb h); omega
    · have := rateForLoss_pos hF 0 (by norm_num); omega
  · exact hr

theorem SysInv.ack (hc : c.Ok) (h : SysInv c io data ems A ρ L W K s) (j : Nat) (ha : Allowed c s (.ack j)) :
    ∃ s' A', s.step c (.ack j) = .ok s' ∧ SysInv c io data ems A' ρ L W K s' ∧
      s'.committed = s.committed ∧ s'.dec = s.dec ∧ s'.hist = s.hist := by
  simp only [Sys.step]
  cases hj : s.dec.out[j]? with
  | none => exact ⟨s, A, rfl, h, rfl, rfl, rfl⟩
  | some a =>
    have hw := ha a hj
    have ho := h.acks.out a (List.mem_of_getElem? hj)
    simp only [notify_ack c.F c.dbg s.enc a ho.2.2 hw, bind, Except.bind, pure, Except.pure]
    refine ⟨_, A ∪ {x | x ∈ a.ids}, rfl, ?_, rfl, rfl, rfl⟩
    have hE := h.enc.ack a.ids (e' := { s.enc with
         nbAcks := s.enc.nbAcks + 1
         rate := if s.enc.adaptive then
             if s.enc.nbSentPackets > 0 then rateForLoss c.F (lossRate c.F s.enc.nbSentPackets a.nbPackets)
             else rateForLoss c.F 0
           else s.enc.rate
         nbSentPackets := 0
         sources := eraseIds s.enc.sources a.ids }) (eraseIds_eq _ _ h.enc.srcSorted ho.1) rfl rfl
    generalize hg : ({ s.enc with
         nbAcks := s.enc.nbAcks + 1
         rate := if s.enc.adaptive then
             if s.enc.nbSentPackets > 0 then rateForLoss c.F (lossRate c.F s.enc.nbSentPackets a.nbPackets)
             else rateForLoss c.F 0
           else s.enc.rate
         nbSentPackets := 0
         sources := eraseIds s.enc.sources a.ids } : Enc) = e' at hE
    have := h.withEnc (e := e') (new := []) (Nat.le_refl _) h.curLt (by rw [List.append_nil]; exact hE)
      (by rw [← hg]; exact h.cur) (by rw [← hg]; exact h.rep)
      (by rw [← hg]; exact rate_pos hc.float s.enc a.nbPackets h.rate) (by rw [← hg]; exact h.ws)
      (by rintro x (hx | hx); exacts [h.ackK hx, ho.2.1 x hx])
    rw [List.append_nil] at this
    have he : s.errs + errCount (Except.ok (ε := CppErr) (writeAck a).flatten.length) = s.errs := rfl
    rw [he]
    exact this

/-! ## Arrivals at the decoder -/

theorem notify_source (gf : GF w) (dbg : Bool) (clk : Clock) (d : NDec) (sr : ESource) (hi : sr.id < 2 ^ 32)
    (hl : sr.sym.length < 2 ^ 16) (det' : Dec) (h : d.det.onSource gf dbg ⟨sr.id, sr.sym⟩ = .ok det') :
    d.notify gf dbg clk (writeSource sr).flatten = .ok
      (({ d with nbSources := d.nbSources + 1, ackPackets := (d.ackPackets + 1) % 2 ^ 16 } : NDec).afterDet clk det',
        .ok (writeSource sr).flatten.length) := by
  unfold NDec.notify
  rw [cassert_true _ (by simp [writeSource, beBytes])]
  simp only [bind, Except.bind, getPacketType_source, readSource_writeSource sr hi hl, h]
  rfl

theorem notify_repair (gf : GF w) (dbg : Bool) (clk : Clock) (d : NDec) (r : ERepair) (hi : r.id < 2 ^ 32)
    (hids : WireIds r.ids) (hl : r.sym.length < 2 ^ 16) (det' : Dec)
    (h : d.det.onRepair gf dbg ⟨r.id, r.ids, r.encSize,
        r.sym ++ ((writeIds r.ids).flatten ++ beBytes 2 r.encSize.toNat ++ beBytes 2 r.sym.length ++ r.sym),
        r.sym.length⟩ = .ok det') :
    d.notify gf dbg clk (writeRepair r).flatten = .ok
      (({ d with nbRepairs := d.nbRepairs + 1, ackPackets := (d.ackPackets + 1) % 2 ^ 16 } : NDec).afterDet clk det',
        .ok ((writeRepair r).flatten.length - (2 + r.sym.length))) := by
  unfold NDec.notify
  rw [cassert_true _ (by simp [writeRepair, beBytes])]
  simp only [bind, Except.bind, getPacketType_repair, readRepair_writeRepair r hi hids hl, h]
  rfl

/-- The same for bytes that are read as this repair. -/
theorem notify_repairVia (gf : GF w) (dbg : Bool) (clk : Clock) (d : NDec) (r : DRepair) (q : List Byte) (n : Nat)
    (hq : q ≠ []) (ht : getPacketType q = .ok .repair) (hr : readRepair q = .ok (r, n)) (det' : Dec)
    (h : d.det.onRepair gf dbg r = .ok det') :
    d.notify gf dbg clk q = .ok
      (({ d with nbRepairs := d.nbRepairs + 1, ackPackets := (d.ackPackets + 1) % 2 ^ 16 } : NDec).afterDet clk det', .ok n) := by
  unfold NDec.notify
  rw [cassert_true _ (by simpa using hq)]
  simp only [bind, Except.bind, ht, hr, h]
  rfl

theorem Arrived.mono {hist : List Nat} {rid x : Nat} (i : Nat) (h : Arrived ems hist rid x) :
    Arrived ems (hist ++ [i]) rid x := by
  obtain ⟨j, hj, r⟩ := h
  exact ⟨j, List.mem_append_left _ hj, r⟩

/-- Why an arriving source is harmless. -/
theorem SysInv.inTime (h : SysInv c io data ems A ρ L W K s) {i x : Nat} (hi : ems[i]? = some (.src x))
    (ht : s.InTime c.gf i) :
    x ∈ K ∨ x < L ∨ x ∉ W ∨ (s.dec.det.inOrder = false ∧ s.dec.det.NoClash c.gf x) := by
  have hbefore : ∀ j rid Wj, ems[j]? = some (.rep rid Wj) → x ∈ Wj → i < j := by
    intro j rid Wj hj hx
    rcases Nat.lt_trichotomy i j with hlt | heq | hgt
    · exact hlt
    · subst heq; rw [hi] at hj; cases hj
    · have := h.enc.later j i _ x hgt hj hi x hx; omega
  rcases ht with ht | ht | ⟨hio, ⟨j0, ht⟩ | ht⟩
  · rcases h.seen i ht x hi with h1 | h1
    · exact Or.inl h1
    · exact Or.inr (Or.inl h1)
  · refine Or.inr (Or.inr (Or.inl ?_))
    rcases h.newest with ⟨_, h2, _⟩ | ⟨j, hj, Wl, h1, h2, _⟩
    · rw [h2]; simp
    · intro hx
      rw [h2] at hx
      exact ht j hj (hbefore j _ _ h1 hx) (h.enc.isRep h1)
  · by_cases hx : x ∈ W
    · have hρ : ∀ rid, Arrived ems s.hist rid x → rid = ρ := ?_
      · refine Or.inr (Or.inr (Or.inr ⟨hio, Or.inl ?_⟩))
        intro q hq q' hq' h1 h2 _
        rw [hρ _ ((h.dinv.core.rep q hq).2.2.1 x h1).2.2, hρ _ ((h.dinv.core.rep q' hq').2.2.1 x h2).2.2]
      rcases h.newest with ⟨_, h2, _⟩ | ⟨j, hj, Wl, h1, h2, _⟩
      · rw [h2] at hx; cases hx
      · rw [h2] at hx
        have e1 := ht j hj (hbefore j _ _ h1 hx) (h.enc.isRep h1)
        rintro rid ⟨j', hj', W', h1', hx'⟩
        have e2 := ht j' hj' (hbefore j' _ _ h1' hx') (h.enc.isRep h1')
        rw [e2, ← e1, h1] at h1'
        injection h1' with h1'
        injection h1' with h1' _
        exact h1'.symm
    · exact Or.inr (Or.inr (Or.inl hx))
  · have hlt : i < s.enc.out.length := by rw [h.enc.outLen]; exact getElem?_lt hi
    have hr := h.enc.rend i _ _ hi (List.getElem?_eq_getElem hlt)
    exact Or.inr (Or.inr (Or.inr ⟨hio, ht _ (by rw [List.getElem?_eq_getElem hlt, hr])⟩))

theorem SysInv.W_lt (h : SysInv c io data ems A ρ L W K s) {x : Nat} (hx : x ∈ W) : x < s.committed.length := by
  rcases h.newest with ⟨_, h2, _⟩ | ⟨j, hj, Wl, h1, h2, _⟩
  · rw [h2] at hx; cases hx
  · rw [h2] at hx
    exact h.enc.emLt _ (List.mem_of_getElem? h1) x hx

theorem SysInv.deliverSource (hc : c.Ok) (h : SysInv c io data ems A ρ L W K s) {i : Nat} {sr : ESource}
    (hi : s.enc.out[i]? = some (.source sr)) (ht : s.InTime c.gf i) :
    ∃ s' K' x, s.step c (.deliver i) = .ok s' ∧ SysInv c io data ems A ρ L W K' s' ∧
      s'.committed = s.committed ∧ s'.enc = s.enc ∧ s'.hist = s.hist ++ [i] ∧
      s.dec.det.log <+: s'.dec.det.log ∧ K ⊆ K' ∧ sr = srcOf data x ∧ (L ≤ x → x ∈ K') := by
  obtain ⟨em, hem, hr⟩ := h.enc.ems_get hi
  cases em with
  | rep rid W' => obtain ⟨r, h1, _⟩ := hr; cases h1
  | src x =>
    have hsr : sr = srcOf data x := by injection hr
    subst hsr
    have hxn : x < s.committed.length := h.enc.emLt _ (List.mem_of_getElem? hem) x (by simp [Em.ids])
    have hcur := h.curLt
    have hbnd : x + 1 < 2 ^ 32 := by omega
    obtain ⟨det', K', e1, e2, e3, e4, e5, e6⟩ := onSource_ok c.dbg hc.width h.dinv x hbnd (h.inTime hem ht)
    have hext := onSource_ext e1
    have hN := notify_source c.gf c.dbg c.clk s.dec (srcOf data x) (by show x < 2 ^ 32; omega)
      (h.enc.dataOk x hxn).2.1 det' e1
    have hack : AckInv K' ({ s.dec with nbSources := s.dec.nbSources + 1, ackPackets := (s.dec.ackPackets + 1) % 2 ^ 16 } : NDec) :=
      (h.acks.mono e4).congr rfl (Nat.mod_lt _ (by decide)) rfl
    obtain ⟨a1, a2, a3⟩ := afterDet_ok c.clk _ det' hack hext.log e2.log.held h.dataLog
    generalize hnd : NDec.afterDet c.clk { s.dec with nbSources := s.dec.nbSources + 1, ackPackets := (s.dec.ackPackets + 1) % 2 ^ 16 } det' = nd at *
    refine ⟨{ s with dec := nd, hist := s.hist ++ [i], errs := s.errs + 0 }, K', x, ?_, ?_, rfl, rfl, rfl, ?_, e4, rfl, e6⟩
    · simp only [Sys.step]
      rw [hi]
      simp only [EPkt.bytes, EPkt.chunks, hN]
      rfl
    · exact {
        enc := h.enc, cur := h.cur, curLt := h.curLt, rep := h.rep, rate := h.rate, ws := h.ws
        dinv := by
          show DInv _ _ _ _ _ _ _ nd.det
          rw [a2]; exact e2.mono_P (fun rid x hx => hx.mono i) (fun q _ x hx => by
            obtain ⟨j, hj, W', h1, h2⟩ := hx
            rcases List.mem_append.1 hj with hj | hj
            · exact ⟨j, hj, W', h1, h2⟩
            · rw [List.mem_singleton.1 hj, hem] at h1; cases h1)
        io := by show nd.det.inOrder = io; rw [a2, e3]; exact h.io
        histLt := by
          intro j hj
          rcases List.mem_append.1 hj with hj | hj
          · exact h.histLt j hj
          · rw [List.mem_singleton.1 hj]; exact getElem?_lt hem
        newest := by
          rcases h.newest with ⟨h1, h2⟩ | ⟨j, hj, Wl, h1, h2, h3, h4⟩
          · refine Or.inl ⟨fun j hj rid W' he => ?_, h2⟩
            rcases List.mem_append.1 hj with hj | hj
            · exact h1 j hj rid W' he
            · rw [List.mem_singleton.1 hj, hem] at he; cases he
          · refine Or.inr ⟨j, List.mem_append_left _ hj, Wl, h1, h2, h3, ?_⟩
            intro j' hj' rid W' he
            rcases List.mem_append.1 hj' with hj' | hj'
            · exact h4 j' hj' rid W' he
            · rw [List.mem_singleton.1 hj', hem] at he; cases he
        seen := by
          intro j hj y hy
          rcases List.mem_append.1 hj with hj | hj
          · rcases h.seen j hj y hy with hk | hk
            · exact Or.inl (e4 hk)
            · exact Or.inr hk
          · rw [List.mem_singleton.1 hj, hem] at hy
            cases hy
            rcases Nat.lt_or_ge x L with hl | hl
            · exact Or.inr hl
            · exact Or.inl (e6 hl)
        ackK := h.ackK.trans e4
        knownLt := by
          intro y hy
          rcases e5 hy with (rfl | hy) | hy
          · exact hxn
          · exact h.knownLt y hy
          · exact h.W_lt hy
        dataLog := by show nd.data = nd.det.log.map _; rw [a2, a3]
        acks := a1
        errs := h.errs }
    · show _ <+: nd.det.log
      rw [a2]; exact hext.log

theorem SysInv.deliverRepairAny (hc : c.Ok) (h : SysInv c io data ems A ρ L W K s)
    (hag : ∀ x < s.committed.length, s.committed.getD x [] = data x) {i : Nat} {r : ERepair}
    (hi : s.enc.out[i]? = some (.repair r)) (hnew : ∀ j ∈ s.hist, s.isRepair j → j ≤ i) (hwire : WireIds r.ids)
    (hfit : ∀ x ∈ r.ids, SizeFits c.gf (coefficient w r.id x) (BitVec.ofNat 16 (s.committed.getD x []).length))
    (X : Out (NDec × Except CppErr Nat)) (tail : List Byte) (n : Nat)
    (hX : r.id < 2 ^ 32 → r.sym.length < 2 ^ 16 → ∀ det',
      s.dec.det.onRepair c.gf c.dbg ⟨r.id, r.ids, r.encSize, r.sym ++ tail, r.sym.length⟩ = .ok det' →
      X = .ok (({ s.dec with nbRepairs := s.dec.nbRepairs + 1, ackPackets := (s.dec.ackPackets + 1) % 2 ^ 16 } : NDec).afterDet c.clk det', .ok n)) :
    ∃ s' K' f, ((do
      let (d, x) ← X
      return { s with dec := d, hist := s.hist ++ [i], errs := s.errs + errCount x } : Out Sys) = .ok s') ∧ SysInv c io data ems A r.id f {x | x ∈ r.ids} K' s' ∧
      s'.committed = s.committed ∧ s'.enc = s.enc ∧ s'.hist = s.hist ++ [i] ∧
      s.dec.det.log <+: s'.dec.det.log ∧ (K' = K ∨ K' = K ∪ {x | x ∈ r.ids}) ∧ L ≤ f ∧ r.ids.head? = some f ∧
      (∀ x, i ∉ s.hist → (∀ y ∈ r.ids, y ∉ K → y = x) → K' = K ∪ {x | x ∈ r.ids}) ∧
      (∀ U, i ∉ s.hist → Sorted U → (∀ x, x ∈ U ↔ x ∈ r.ids ∧ x ∉ K) →
        (rowsFor f s.dec.det.repairs r.id r.ids).length = U.length →
        Independent c.gf (rowsFor f s.dec.det.repairs r.id r.ids) U → K' = K ∪ {x | x ∈ r.ids}) ∧
      (∀ U, i ∉ s.hist → Sorted U → (∀ x, x ∈ U ↔ x ∈ r.ids ∧ x ∉ K) → 2 ≤ U.length →
        (rowsFor f s.dec.det.repairs r.id r.ids).length ≤ U.length ∧
        ((rowsFor f s.dec.det.repairs r.id r.ids).length = U.length →
          ¬ Independent c.gf (rowsFor f s.dec.det.repairs r.id r.ids) U →
          K' = K ∧ s'.dec.det.repairs = s.dec.det.repairs.filter (fun q => decide (∀ x ∈ q.2.ids, f ≤ x))) ∧
        ((rowsFor f s.dec.det.repairs r.id r.ids).length < U.length →
          K' = K ∧ ∃ rr, rr.ids = U ∧
            s'.dec.det.repairs = s.dec.det.repairs.filter (fun q => decide (∀ x ∈ q.2.ids, f ≤ x)) ++ [(r.id, rr)])) := by
  obtain ⟨em, hem, hr⟩ := h.enc.ems_get hi
  cases em with
  | src x => cases hr
  | rep rid Wi =>
    obtain ⟨r', h1, hEnc, hne, hso⟩ := hr
    obtain rfl : r = r' := by injection h1
    have hids : r.ids = Wi := by rw [hEnc.ids, List.map_map]; exact List.map_id Wi
    have hrid := hEnc.id
    have hWn : ∀ x ∈ Wi, x < s.committed.length := fun x hx => h.enc.emLt _ (List.mem_of_getElem? hem) x hx
    have hWd : ∀ x ∈ Wi, DataOk w (data x) := fun x hx => h.enc.dataOk x (hWn x hx)
    have hcur := h.curLt
    have hrl : rid < 2 ^ 32 := lt_trans (h.enc.repLt rid Wi (List.mem_of_getElem? hem)) h.enc.repBound
    have hsl := (hEnc.symLen (fun x hx => by obtain ⟨y, hy, rfl⟩ := List.mem_map.1 hx; exact hWd y hy)).2.1
    have hrep := repOk_of_wire c.gf hc.width data rid Wi r hEnc hso hWd
      (fun x hx => by have := hfit x (by rw [hids]; exact hx); rwa [hrid, hag x (hWn x hx)] at this)
      tail
    obtain ⟨f, t, hWf⟩ : ∃ f t, Wi = f :: t := by
      cases Wi with
      | nil => exact absurd rfl hne
      | cons a t => exact ⟨a, t, rfl⟩
    have hfW : f ∈ Wi := by rw [hWf]; simp
    have hj_le : ∀ j ∈ s.hist, ∀ rj Wj, ems[j]? = some (.rep rj Wj) → j ≤ i :=
      fun j hj rj Wj he => hnew j hj (h.enc.isRep he)
    -- the newest repair is this one, or an older one
    have hrho : ρ ≤ rid := by
      rcases h.newest with ⟨_, _, _, h4⟩ | ⟨j, hj, Wl, h1, _⟩
      · omega
      · rcases Nat.lt_or_eq_of_le (hj_le j hj _ _ h1) with hlt | heq
        · exact le_of_lt (h.enc.ridMono j i _ _ _ _ hlt h1 hem)
        · rw [heq, hem] at h1; cases h1; exact le_refl _
    have hdup : (∃ rr, (r.id, rr) ∈ s.dec.det.repairs) → i ∈ s.hist ∧ r.id = ρ ∧ {x | x ∈ Wi} = W ∧ f = L := by
      rintro ⟨rr, hrr⟩
      have hq := h.dinv.core.rep _ hrr
      have hcn := h.dinv.cnt.two _ hrr
      obtain ⟨y, hy⟩ : ∃ y, y ∈ rr.ids := List.exists_mem_of_length_pos (by simp only at hcn; omega)
      obtain ⟨j1, hj1, W1, hw1, _⟩ := (hq.2.2.1 y hy).2.2
      simp only [hrid] at hw1
      have hji : j1 = i := by
        rcases Nat.lt_trichotomy j1 i with hlt | heq | hgt
        · have := h.enc.ridMono j1 i _ _ _ _ hlt hw1 hem; omega
        · exact heq
        · have := h.enc.ridMono i j1 _ _ _ _ hgt hem hw1; omega
      rw [hji] at hj1
      refine ⟨hj1, ?_⟩
      rcases h.newest with ⟨h1, _⟩ | ⟨j, hj, Wl, h1, h2, h3, h4⟩
      · exact absurd hem (h1 i hj1 _ _)
      · have hij : j = i := le_antisymm (hj_le j hj _ _ h1) (h4 i hj1 _ _ hem)
        rw [hij, hem] at h1
        cases h1
        refine ⟨hrid, h2.symm, ?_⟩
        rw [hWf] at h3
        simpa using h3
    have hLf : L ≤ f := by
      rcases h.newest with ⟨_, _, h4, _⟩ | ⟨j, hj, Wl, h1, _, h3, _⟩
      · omega
      · obtain ⟨r2, _, _, _, hso2⟩ := h.enc.rend j _ _ h1 (List.getElem?_eq_getElem (by rw [h.enc.outLen]; exact getElem?_lt h1))
        cases Wl with
        | nil => cases h3
        | cons a u =>
          obtain rfl : a = L := by simpa using h3
          rcases Nat.lt_or_eq_of_le (hj_le j hj _ _ h1) with hlt | heq
          · by_contra hc2
            have := h.enc.f2 j i _ _ _ _ hlt h1 hem f hfW a (by simp) (by omega)
            rcases List.mem_cons.1 this with hh | hh
            · omega
            · have := (List.pairwise_cons.1 hso2).1 f hh; omega
          · rw [heq, hem] at h1; cases h1; cases hWf; exact le_refl _
    have hF1 : ∀ x ∈ W, x ∉ K → x ∈ Wi ∨ x < f := by
      intro x hx hxK
      rcases h.newest with ⟨_, h2, _⟩ | ⟨j, hj, Wl, h1, h2, _⟩
      · rw [h2] at hx; cases hx
      · rw [h2] at hx
        rcases Nat.lt_or_eq_of_le (hj_le j hj _ _ h1) with hlt | heq
        · rcases h.enc.f1 j i _ _ _ hlt h1 hem x hx with hg | hg | hg
          · exact Or.inl hg
          · exact absurd (h.ackK hg) hxK
          · exact Or.inr (hg f hfW)
        · rw [heq, hem] at h1; cases h1; exact Or.inl hx
    have hF2 : ∀ x ∈ Wi, ∀ y ∈ W, x ≤ y → x ∈ W := by
      intro x hx y hy hxy
      rcases h.newest with ⟨_, h2, _⟩ | ⟨j, hj, Wl, h1, h2, _⟩
      · rw [h2] at hy; cases hy
      · rw [h2] at hy ⊢
        rcases Nat.lt_or_eq_of_le (hj_le j hj _ _ h1) with hlt | heq
        · exact h.enc.f2 j i _ _ _ _ hlt h1 hem x hx y hy hxy
        · rw [heq, hem] at h1; cases h1; exact hx
    have hD := h.dinv.mono_P (P' := Arrived ems (s.hist ++ [i])) (fun rid x hx => hx.mono i) (by
      rintro ⟨rid', rr⟩ hq x ⟨j, hj, W', h1, h2⟩
      rcases List.mem_append.1 hj with hj | hj
      · exact ⟨j, hj, W', h1, h2⟩
      · rw [List.mem_singleton.1 hj] at h1
        have h3 := h1
        rw [hem] at h3
        cases h3
        exact ⟨i, (hdup ⟨rr, by rw [hrid]; exact hq⟩).1, _, h1, h2⟩)
    obtain ⟨det', K', e1, e2, e3, e4, e5, e6, e7⟩ := onRepair_ok c.dbg hc.width hD _ f
      (by simp only; rw [hids, hWf]; rfl) hrep
      (by intro x hx; simp only at hx; rw [hids] at hx; have := hWn x hx; omega)
      (by intro q hq; have := (h.dinv.core.rep q hq).2.2.2; simp only; rw [hrid]; omega)
      (by simp only; rw [hrid]; exact hrho)
      (by simp only; rw [hids]; exact fun hx => (hdup hx).2) hLf
      (by simp only; rw [hids]; exact hF1)
      (by intro x hx; simp only at hx ⊢; rw [hids] at hx; rw [hrid]; exact ⟨i, by simp, Wi, hem, hx⟩)
      (by simp only; rw [hids]; exact hF2)
      (by
        rintro x ⟨j, hj, W', h1, h2⟩
        simp only at h1 ⊢
        rw [hrid] at h1
        rw [hids]
        have hji : j = i := by
          rcases Nat.lt_trichotomy j i with hlt | heq | hgt
          · have := h.enc.ridMono j i _ _ _ _ hlt h1 hem; omega
          · exact heq
          · have := h.enc.ridMono i j _ _ _ _ hgt hem h1; omega
        rw [hji, hem] at h1
        cases h1
        exact h2)
    simp only at e2 e4 e5 e6 e7
    have hKK : K ⊆ K' := by
      rcases e4 with e4 | e4
      · rw [e4]
      · rw [e4]; exact Set.subset_union_left
    have hext := onRepair_ext e1
    have hN := hX (by rw [hrid]; exact hrl) hsl det' e1
    have hack : AckInv K' ({ s.dec with nbRepairs := s.dec.nbRepairs + 1, ackPackets := (s.dec.ackPackets + 1) % 2 ^ 16 } : NDec) :=
      (h.acks.mono hKK).congr rfl (Nat.mod_lt _ (by decide)) rfl
    obtain ⟨a1, a2, a3⟩ := afterDet_ok c.clk _ det' hack hext.log e2.log.held h.dataLog
    generalize hnd : NDec.afterDet c.clk { s.dec with nbRepairs := s.dec.nbRepairs + 1, ackPackets := (s.dec.ackPackets + 1) % 2 ^ 16 } det' = nd at *
    refine ⟨{ s with dec := nd, hist := s.hist ++ [i], errs := s.errs + 0 }, K', f, ?_, ?_, rfl, rfl, rfl, ?_, e4, hLf,
      by rw [hids, hWf]; rfl, ?_, ?_, ?_⟩
    · simp only [hN]
      rfl
    · exact {
        enc := h.enc, cur := h.cur, curLt := h.curLt, rep := h.rep, rate := h.rate, ws := h.ws
        dinv := by
          show DInv _ _ _ _ _ _ _ nd.det
          rw [a2]; exact e2
        io := by show nd.det.inOrder = io; rw [a2, e3]; exact h.io
        histLt := by
          intro j hj
          rcases List.mem_append.1 hj with hj | hj
          · exact h.histLt j hj
          · rw [List.mem_singleton.1 hj]; exact getElem?_lt hem
        newest := by
          refine Or.inr ⟨i, by simp, Wi, by rw [hrid]; exact hem, by rw [hids], by rw [hWf]; rfl, ?_⟩
          intro j' hj' rid' W' he
          rcases List.mem_append.1 hj' with hj' | hj'
          · exact hj_le j' hj' _ _ he
          · rw [List.mem_singleton.1 hj']
        seen := by
          intro j hj y hy
          rcases List.mem_append.1 hj with hj | hj
          · rcases h.seen j hj y hy with hk | hk
            · exact Or.inl (hKK hk)
            · exact Or.inr (by omega)
          · rw [List.mem_singleton.1 hj, hem] at hy
            cases hy
        ackK := h.ackK.trans hKK
        knownLt := by
          intro y hy
          rcases e4 with e4 | e4
          · rw [e4] at hy; exact h.knownLt y hy
          · rw [e4] at hy
            rcases hy with hy | hy
            · exact h.knownLt y hy
            · exact hWn y (by rw [← hids]; exact hy)
        dataLog := by show nd.data = nd.det.log.map _; rw [a2, a3]
        acks := a1
        errs := h.errs }
    · show _ <+: nd.det.log
      rw [a2]; exact hext.log
    · intro x hih hy
      rcases e5 x hy with e5 | e5
      · exact e5
      · exact absurd (hdup e5).1 hih
    · intro U hih h1 h2 h3 h4
      rcases e6 U h1 h2 h3 h4 with e6 | e6
      · exact e6
      · exact absurd (hdup e6).1 hih
    · intro U hih h1 h2 h3
      have h4 := e7 U h1 h2 h3 (fun hx => hih (hdup hx).1)
      show _ ∧ (_ → _ → _ ∧ nd.det.repairs = _) ∧ (_ → _ ∧ ∃ rr, _ ∧ nd.det.repairs = _)
      rw [a2]
      exact h4

/-- The same for the packet as it was sent. -/
theorem SysInv.deliverRepair (hc : c.Ok) (h : SysInv c io data ems A ρ L W K s)
    (hag : ∀ x < s.committed.length, s.committed.getD x [] = data x) {i : Nat} {r : ERepair}
    (hi : s.enc.out[i]? = some (.repair r)) (hnew : ∀ j ∈ s.hist, s.isRepair j → j ≤ i) (hwire : WireIds r.ids)
    (hfit : ∀ x ∈ r.ids, SizeFits c.gf (coefficient w r.id x) (BitVec.ofNat 16 (s.committed.getD x []).length)) :
    ∃ s' K' f, s.step c (.deliver i) = .ok s' ∧ SysInv c io data ems A r.id f {x | x ∈ r.ids} K' s' ∧
      s'.committed = s.committed ∧ s'.enc = s.enc ∧ s'.hist = s.hist ++ [i] ∧
      s.dec.det.log <+: s'.dec.det.log ∧ (K' = K ∨ K' = K ∪ {x | x ∈ r.ids}) ∧ L ≤ f ∧ r.ids.head? = some f ∧
      (∀ x, i ∉ s.hist → (∀ y ∈ r.ids, y ∉ K → y = x) → K' = K ∪ {x | x ∈ r.ids}) ∧
      (∀ U, i ∉ s.hist → Sorted U → (∀ x, x ∈ U ↔ x ∈ r.ids ∧ x ∉ K) →
        (rowsFor f s.dec.det.repairs r.id r.ids).length = U.length →
        Independent c.gf (rowsFor f s.dec.det.repairs r.id r.ids) U → K' = K ∪ {x | x ∈ r.ids}) ∧
      (∀ U, i ∉ s.hist → Sorted U → (∀ x, x ∈ U ↔ x ∈ r.ids ∧ x ∉ K) → 2 ≤ U.length →
        (rowsFor f s.dec.det.repairs r.id r.ids).length ≤ U.length ∧
        ((rowsFor f s.dec.det.repairs r.id r.ids).length = U.length →
          ¬ Independent c.gf (rowsFor f s.dec.det.repairs r.id r.ids) U →
          K' = K ∧ s'.dec.det.repairs = s.dec.det.repairs.filter (fun q => decide (∀ x ∈ q.2.ids, f ≤ x))) ∧
        ((rowsFor f s.dec.det.repairs r.id r.ids).length < U.length →
          K' = K ∧ ∃ rr, rr.ids = U ∧
            s'.dec.det.repairs = s.dec.det.repairs.filter (fun q => decide (∀ x ∈ q.2.ids, f ≤ x)) ++ [(r.id, rr)])) := by
  have hb : (writeRepair r).flatten ≠ [] := by simp [writeRepair, beBytes]
  have := h.deliverRepairAny hc hag hi hnew hwire hfit (s.dec.notify c.gf c.dbg c.clk (writeRepair r).flatten) _ _
    (fun h1 h2 => notify_repairVia c.gf c.dbg c.clk s.dec _ _ _ hb (getPacketType_repair r) (readRepair_writeRepair r h1 hwire h2))
  simp only [Sys.step]
  rw [hi]
  exact this

/-- A repair that newer ones have overtaken and that does no harm, whatever the call that hands it to the decoder. -/
theorem SysInv.deliverOldAny (hc : c.Ok) (h : SysInv c io data ems A ρ L W K s)
    (hag : ∀ x < s.committed.length, s.committed.getD x [] = data x) {i : Nat} {r : ERepair}
    (hi : s.enc.out[i]? = some (.repair r)) (hold : ¬ ∀ j ∈ s.hist, s.isRepair j → j ≤ i)
    (hharm : s.dec.det.Harmless r.id r.ids)
    (hfit : ∀ x ∈ r.ids, SizeFits c.gf (coefficient w r.id x) (BitVec.ofNat 16 (s.committed.getD x []).length))
    (X : Out (NDec × Except CppErr Nat)) (tail : List Byte) (n : Nat)
    (hX : r.id < 2 ^ 32 → r.sym.length < 2 ^ 16 → ∀ det',
      s.dec.det.onRepair c.gf c.dbg ⟨r.id, r.ids, r.encSize, r.sym ++ tail, r.sym.length⟩ = .ok det' →
      X = .ok (({ s.dec with nbRepairs := s.dec.nbRepairs + 1, ackPackets := (s.dec.ackPackets + 1) % 2 ^ 16 } : NDec).afterDet c.clk det', .ok n)) :
    ∃ s' K', ((do
      let (d, x) ← X
      return { s with dec := d, hist := s.hist ++ [i], errs := s.errs + errCount x } : Out Sys) = .ok s') ∧ SysInv c io data ems A ρ L W K' s' ∧
      s'.committed = s.committed ∧ s'.enc = s.enc ∧ s'.hist = s.hist ++ [i] ∧
      s.dec.det.log <+: s'.dec.det.log ∧ K ⊆ K' ∧ K' ⊆ K ∪ W ∧
      (∀ x, (∀ y ∈ r.ids, y ∉ K → y = x) → ∀ y ∈ r.ids, y ∈ K' ∨ y < L) ∧
      ((∃ l, s.dec.det.lastId = some l ∧ r.ids.head? = some l) → i ∉ s.hist →
        (∃ y ∈ r.ids, ∃ z ∈ r.ids, y ≠ z ∧ y ∉ K ∧ z ∉ K) → s.dec.det.repairs.length + 1 = s.dec.det.missing.length →
        Independent c.gf (s.dec.det.repairs.map (fun q => (q.1, q.2.ids)) ++ [(r.id, r.ids)]) s.dec.det.missing.keys → K' = K ∪ W) := by
  obtain ⟨em, hem, hr⟩ := h.enc.ems_get hi
  cases em with
  | src x => cases hr
  | rep rid Wi =>
    obtain ⟨r', h1, hEnc, hne, hso⟩ := hr
    obtain rfl : r = r' := by injection h1
    have hids : r.ids = Wi := by rw [hEnc.ids, List.map_map]; exact List.map_id Wi
    have hrid := hEnc.id
    have hWn : ∀ x ∈ Wi, x < s.committed.length := fun x hx => h.enc.emLt _ (List.mem_of_getElem? hem) x hx
    have hWd : ∀ x ∈ Wi, DataOk w (data x) := fun x hx => h.enc.dataOk x (hWn x hx)
    have hcur := h.curLt
    have hrl : rid < 2 ^ 32 := lt_trans (h.enc.repLt rid Wi (List.mem_of_getElem? hem)) h.enc.repBound
    have hsl := (hEnc.symLen (fun x hx => by obtain ⟨y, hy, rfl⟩ := List.mem_map.1 hx; exact hWd y hy)).2.1
    have hrep := repOk_of_wire c.gf hc.width data rid Wi r hEnc hso hWd
      (fun x hx => by have := hfit x (by rw [hids]; exact hx); rwa [hrid, hag x (hWn x hx)] at this)
      tail
    -- the newest repair is another one
    obtain ⟨j, hj, Wl, hjl, hWl, hhd, hmax, hij⟩ : ∃ j ∈ s.hist, ∃ Wl, ems[j]? = some (.rep ρ Wl) ∧ W = {x | x ∈ Wl} ∧
        Wl.head? = some L ∧ (∀ j' ∈ s.hist, ∀ rid W', ems[j']? = some (.rep rid W') → j' ≤ j) ∧ i < j := by
      push Not at hold
      obtain ⟨j0, g1, ⟨r0, g2⟩, g3⟩ := hold
      obtain ⟨em0, g4, g5⟩ := h.enc.ems_get g2
      have g6 : ∃ rid0 W0, ems[j0]? = some (.rep rid0 W0) := by
        cases em0 with
        | src x => cases g5
        | rep a b => exact ⟨a, b, g4⟩
      obtain ⟨rid0, W0, g6⟩ := g6
      rcases h.newest with ⟨h1, _⟩ | ⟨j, hj, Wl, h1, h2, h3, h4⟩
      · exact absurd g6 (h1 j0 g1 _ _)
      · exact ⟨j, hj, Wl, h1, h2, h3, h4, by have := h4 j0 g1 _ _ g6; omega⟩
    have hlast : s.dec.det.lastId = some L := by
      rcases h.dinv.last with ⟨_, _, h3⟩ | h3
      · exfalso
        have : L ∈ W := by rw [hWl]; exact List.mem_of_mem_head? hhd
        rw [h3] at this; cases this
      · exact h3
    have huniq : ∀ j1 W1, ems[j1]? = some (.rep rid W1) → j1 = i ∧ W1 = Wi := by
      intro j1 W1 hw1
      have hji : j1 = i := by
        rcases Nat.lt_trichotomy j1 i with hlt | heq | hgt
        · have := h.enc.ridMono j1 i _ _ _ _ hlt hw1 hem; omega
        · exact heq
        · have := h.enc.ridMono i j1 _ _ _ _ hgt hem hw1; omega
      refine ⟨hji, ?_⟩
      rw [hji, hem] at hw1
      cases hw1; rfl
    have hheldArr : ∀ rr, (rid, rr) ∈ s.dec.det.repairs → i ∈ s.hist := by
      intro rr hrr
      have hq := h.dinv.core.rep _ hrr
      have hcn := h.dinv.cnt.two _ hrr
      obtain ⟨y, hy⟩ : ∃ y, y ∈ rr.ids := List.exists_mem_of_length_pos (by simp only at hcn; omega)
      obtain ⟨j1, hj1, W1, hw1, _⟩ := (hq.2.2.1 y hy).2.2
      rw [← (huniq j1 W1 hw1).1]; exact hj1
    have hD := h.dinv.mono_P (P' := Arrived ems (s.hist ++ [i])) (fun rid x hx => hx.mono i) (by
      rintro ⟨rid', rr⟩ hq x ⟨j, hj, W', h1, h2⟩
      rcases List.mem_append.1 hj with hj | hj
      · exact ⟨j, hj, W', h1, h2⟩
      · rw [List.mem_singleton.1 hj] at h1
        have h3 := h1
        rw [hem] at h3
        cases h3
        exact ⟨i, hheldArr rr hq, _, h1, h2⟩)
    have hWi : ∀ x ∈ Wi, L ≤ x → x ∉ K → x ∈ W := by
      intro x hx hL hk
      rw [hWl]
      rcases h.enc.f1 i j _ _ _ hij hem hjl x hx with hg | hg | hg
      · exact hg
      · exact absurd (h.ackK hg) hk
      · have := hg L (List.mem_of_mem_head? hhd); omega
    have key : ∃ det' K', s.dec.det.onRepair c.gf c.dbg ⟨r.id, r.ids, r.encSize, r.sym ++ tail, r.sym.length⟩ = .ok det' ∧
        DInv c.gf data (Arrived ems (s.hist ++ [i])) ρ L W K' det' ∧ det'.inOrder = s.dec.det.inOrder ∧ K ⊆ K' ∧ K' ⊆ K ∪ W ∧
        (∀ x, (∀ y ∈ r.ids, y ∉ K → y = x) → ∀ y ∈ r.ids, y ∈ K' ∨ y < L) ∧
      ((∃ l, s.dec.det.lastId = some l ∧ r.ids.head? = some l) → i ∉ s.hist →
        (∃ y ∈ r.ids, ∃ z ∈ r.ids, y ≠ z ∧ y ∉ K ∧ z ∉ K) → s.dec.det.repairs.length + 1 = s.dec.det.missing.length →
        Independent c.gf (s.dec.det.repairs.map (fun q => (q.1, q.2.ids)) ++ [(r.id, r.ids)]) s.dec.det.missing.keys → K' = K ∪ W) := by
      have hne0 : r.ids ≠ [] := by rw [hids]; exact hne
      have hig : s.dec.det.repairs.has r.id = true → ∀ x, ¬ ∀ y ∈ r.ids, y ∉ K → y = x := by
        intro hhas x hx
        obtain ⟨rr, hv⟩ := (get?_isSome_iff _ _).2 ((has_iff _ _).1 hhas)
        have hrr := mem_of_get? hv
        have hcn := h.dinv.cnt.two _ hrr
        have hq := h.dinv.core.rep _ hrr
        have hs := hq.2.1.sorted
        have h3 : ∀ z ∈ rr.ids, z = x := by
          intro z hz
          obtain ⟨_, d2, j1, hj1, W1, hw1, hz1⟩ := hq.2.2.1 z hz
          simp only [hrid] at hw1
          have := (huniq j1 W1 hw1).2
          exact hx z (by rw [hids, ← this]; exact hz1) d2
        match hids : rr.ids, hcn with
        | a :: b :: u, _ =>
          simp only at hs
          rw [hids] at hs h3
          have := (List.pairwise_cons.1 hs).1 b (by simp)
          have := h3 a (by simp)
          have := h3 b (by simp)
          omega
      by_cases hhas : s.dec.det.repairs.has r.id = true
      · refine ⟨_, K, onRepair_stays c.dbg _ hne0 (Or.inr hhas), hD, rfl, subset_rfl, Set.subset_union_left,
          fun x hx => absurd hx (hig hhas x), fun _ hn => ?_⟩
        exfalso
        obtain ⟨rr, hv⟩ := (get?_isSome_iff _ _).2 ((has_iff _ _).1 hhas)
        exact hn (hheldArr rr (by rw [← hrid]; exact mem_of_get? hv))
      · rcases hharm with ⟨l, h1, h2⟩ | h1 | ⟨h1, h2⟩
        · refine ⟨_, K, onRepair_stays c.dbg _ hne0 (Or.inl ⟨l, h1, h2⟩), hD, rfl, subset_rfl, Set.subset_union_left, ?_, ?_⟩
          · rw [hlast] at h1
            intro _ _ y hy
            have := h2 y hy
            exact Or.inr (by cases h1; exact this)
          · rintro ⟨l', g1, g2⟩
            rw [h1] at g1
            cases g1
            have := h2 l (List.mem_of_mem_head? g2)
            omega
        · exact absurd h1 hhas
        · rw [hlast] at h1
          have hge : ∀ x ∈ Wi, L ≤ x := by
            intro x hx
            rw [hids] at h1
            cases hh : Wi with
            | nil => exact absurd hh hne
            | cons a t =>
              rw [hh] at h1 hx hso
              simp only [List.head?_cons, Option.some.injEq] at h1
              rcases List.mem_cons.1 hx with rfl | hx
              · omega
              · have := (List.pairwise_cons.1 hso).1 x hx; omega
          obtain ⟨det', K', e1, e2, e3, e4, e5, e6, e7⟩ := onRepair_old c.dbg hc.width hD
            ⟨r.id, r.ids, r.encSize, r.sym ++ tail, r.sym.length⟩ h1.symm hrep (by simpa using hhas)
            (by simp only; rw [hrid]; exact h.enc.ridMono i j _ _ _ _ hij hem hjl)
            (by intro x hx hk; simp only at hx; rw [hids] at hx; exact hWi x hx (hge x hx) hk)
            (by intro x hx; simp only at hx; rw [hids] at hx; have := hWn x hx; omega)
            (by
              intro y hy x hx hxy
              simp only at hy ⊢
              rw [hids] at hy ⊢
              rw [hWl] at hx
              exact h.enc.f2 i j _ _ _ _ hij hem hjl x hx y hy hxy)
            (by
              intro p hp hle x hx
              simp only at hle ⊢
              obtain ⟨d1, d2, j1, hj1, W1, hw1, hx1⟩ := (h.dinv.core.rep p hp).2.2.1 x hx
              rw [hrid] at hle
              rw [hids]
              rcases Nat.lt_trichotomy j1 i with hlt | heq | hgt
              · rcases h.enc.f1 j1 i _ _ _ hlt hw1 hem x hx1 with hg | hg | hg
                · exact hg
                · exact absurd (h.ackK hg) d2
                · have g1 := h.dinv.core.lo x d1
                  rw [hids] at h1
                  have g2 := hg L (List.mem_of_mem_head? h1.symm)
                  omega
              · rw [heq, hem] at hw1; cases hw1; exact hx1
              · have := h.enc.ridMono i j1 _ _ _ _ hgt hem hw1; omega)
            (by
              intro p hp hle x hx hk
              simp only at hle hx
              rw [hrid] at hle
              rw [hids] at hx
              have hcn := h.dinv.cnt.two p hp
              obtain ⟨y, hy⟩ : ∃ y, y ∈ p.2.ids := List.exists_mem_of_length_pos (by omega)
              obtain ⟨d1, d2, j1, hj1, W1, hw1, hx1⟩ := (h.dinv.core.rep p hp).2.2.1 y hy
              refine h.dinv.core.full p hp x ⟨j1, hj1, W1, hw1, ?_⟩ hk
              rcases Nat.lt_trichotomy j1 i with hlt | heq | hgt
              · have := h.enc.ridMono j1 i _ _ _ _ hlt hw1 hem; omega
              · rw [heq, hem] at hw1; cases hw1; exact hx
              · rcases h.enc.f1 i j1 _ _ _ hgt hem hw1 x hx with hg | hg | hg
                · exact hg
                · exact absurd (h.ackK hg) hk
                · have g1 := hg y hx1
                  -- the window of the newest repair reaches further back
                  have hxW := hWi x hx (hge x hx) hk
                  have hym : y ∈ s.dec.det.missing.map (·.1) := (h.dinv.core.misKeys y).2 ⟨d1, d2⟩
                  have hxm : x ∈ s.dec.det.missing.map (·.1) := (h.dinv.core.misKeys x).2 ⟨hxW, hk⟩
                  obtain ⟨_, _, j2, _, W2, hw2, hx2⟩ := (h.dinv.core.rep p hp).2.2.1 x (h.dinv.cnt.seg p hp y hy x hxm (by omega))
                  have : j2 = j1 := by
                    rcases Nat.lt_trichotomy j2 j1 with hlt | heq | hgt
                    · have := h.enc.ridMono _ _ _ _ _ _ hlt hw2 hw1; omega
                    · exact heq
                    · have := h.enc.ridMono _ _ _ _ _ _ hgt hw1 hw2; omega
                  rw [this, hw1] at hw2
                  cases hw2; exact hx2)
            (by intro x hx; simp only at hx ⊢; rw [hids] at hx; rw [hrid]; exact ⟨i, by simp, Wi, hem, hx⟩)
            (by
              rintro x ⟨j, hj, W', h1, h2⟩
              simp only at h1 ⊢
              rw [hrid] at h1
              rw [hids, ← (huniq j W' h1).2]
              exact h2)
            (by simpa using h2)
          exact ⟨det', K', e1, e2, e3, e4, e5, fun x hx y hy => Or.inl (e6 x hx y hy), fun _ _ => e7⟩
    obtain ⟨det', K', e1, e2, e3, e4, e5, e6, e7⟩ := key
    have hext := onRepair_ext e1
    have hN := hX (by rw [hrid]; exact hrl) hsl det' e1
    have hack : AckInv K' ({ s.dec with nbRepairs := s.dec.nbRepairs + 1, ackPackets := (s.dec.ackPackets + 1) % 2 ^ 16 } : NDec) :=
      (h.acks.mono e4).congr rfl (Nat.mod_lt _ (by decide)) rfl
    obtain ⟨a1, a2, a3⟩ := afterDet_ok c.clk _ det' hack hext.log e2.log.held h.dataLog
    generalize hnd : NDec.afterDet c.clk { s.dec with nbRepairs := s.dec.nbRepairs + 1, ackPackets := (s.dec.ackPackets + 1) % 2 ^ 16 } det' = nd at *
    refine ⟨{ s with dec := nd, hist := s.hist ++ [i], errs := s.errs + 0 }, K', ?_, ?_, rfl, rfl, rfl, ?_, e4, e5, e6, e7⟩
    · simp only [hN]
      rfl
    · exact {
        enc := h.enc, cur := h.cur, curLt := h.curLt, rep := h.rep, rate := h.rate, ws := h.ws
        dinv := by
          show DInv _ _ _ _ _ _ _ nd.det
          rw [a2]; exact e2
        io := by show nd.det.inOrder = io; rw [a2, e3]; exact h.io
        histLt := by
          intro j hj
          rcases List.mem_append.1 hj with hj | hj
          · exact h.histLt j hj
          · rw [List.mem_singleton.1 hj]; exact getElem?_lt hem
        newest := by
          refine Or.inr ⟨j, List.mem_append_left _ hj, Wl, hjl, hWl, hhd, ?_⟩
          intro j' hj' rid' W' he
          rcases List.mem_append.1 hj' with hj' | hj'
          · exact hmax j' hj' _ _ he
          · rw [List.mem_singleton.1 hj']; omega
        seen := by
          intro j hj y hy
          rcases List.mem_append.1 hj with hj | hj
          · rcases h.seen j hj y hy with hk | hk
            · exact Or.inl (e4 hk)
            · exact Or.inr hk
          · rw [List.mem_singleton.1 hj, hem] at hy
            cases hy
        ackK := h.ackK.trans e4
        knownLt := by
          intro y hy
          rcases e5 hy with hy | hy
          · exact h.knownLt y hy
          · exact h.W_lt hy
        dataLog := by show nd.data = nd.det.log.map _; rw [a2, a3]
        acks := a1
        errs := h.errs }
    · show _ <+: nd.det.log
      rw [a2]; exact hext.log

/-- The same for the packet as it was sent. -/
theorem SysInv.deliverOld (hc : c.Ok) (h : SysInv c io data ems A ρ L W K s)
    (hag : ∀ x < s.committed.length, s.committed.getD x [] = data x) {i : Nat} {r : ERepair}
    (hi : s.enc.out[i]? = some (.repair r)) (hold : ¬ ∀ j ∈ s.hist, s.isRepair j → j ≤ i)
    (hharm : s.dec.det.Harmless r.id r.ids) (hwire : WireIds r.ids)
    (hfit : ∀ x ∈ r.ids, SizeFits c.gf (coefficient w r.id x) (BitVec.ofNat 16 (s.committed.getD x []).length)) :
    ∃ s' K', s.step c (.deliver i) = .ok s' ∧ SysInv c io data ems A ρ L W K' s' ∧
      s'.committed = s.committed ∧ s'.enc = s.enc ∧ s'.hist = s.hist ++ [i] ∧
      s.dec.det.log <+: s'.dec.det.log ∧ K ⊆ K' ∧ K' ⊆ K ∪ W ∧
      (∀ x, (∀ y ∈ r.ids, y ∉ K → y = x) → ∀ y ∈ r.ids, y ∈ K' ∨ y < L) ∧
      ((∃ l, s.dec.det.lastId = some l ∧ r.ids.head? = some l) → i ∉ s.hist →
        (∃ y ∈ r.ids, ∃ z ∈ r.ids, y ≠ z ∧ y ∉ K ∧ z ∉ K) → s.dec.det.repairs.length + 1 = s.dec.det.missing.length →
        Independent c.gf (s.dec.det.repairs.map (fun q => (q.1, q.2.ids)) ++ [(r.id, r.ids)]) s.dec.det.missing.keys → K' = K ∪ W) := by
  have hb : (writeRepair r).flatten ≠ [] := by simp [writeRepair, beBytes]
  have := h.deliverOldAny hc hag hi hold hharm hfit (s.dec.notify c.gf c.dbg c.clk (writeRepair r).flatten) _ _
    (fun h1 h2 => notify_repairVia c.gf c.dbg c.clk s.dec _ _ _ hb (getPacketType_repair r) (readRepair_writeRepair r h1 hwire h2))
  simp only [Sys.step]
  rw [hi]
  exact this

omit [Fact (0 < w)] in
theorem first_le {l : List Nat} {f x : Nat} (hs : Sorted l) (hf : l.head? = some f) (hx : x ∈ l) : f ≤ x := by
  cases l with
  | nil => cases hx
  | cons a t =>
    obtain rfl : a = f := by simpa using hf
    rcases List.mem_cons.1 hx with rfl | hx
    · exact Nat.le_refl _
    · exact Nat.le_of_lt ((List.pairwise_cons.1 hs).1 _ hx)

/-- Sources older than the start of the window are outdated. -/
theorem SysInv.outdated (h : SysInv c io data ems A ρ L W K s) {y : Nat} (hy : y < L) : s.dec.det.Outdated y := by
  rcases h.dinv.last with ⟨_, h2, _⟩ | h2
  · omega
  · exact ⟨L, h2, hy⟩

theorem SysInv.outdated_iff (h : SysInv c io data ems A ρ L W K s) (x : Nat) : s.dec.det.Outdated x ↔ x < L := by
  unfold Dec.Outdated
  rcases h.dinv.last with ⟨h1, h2, _⟩ | h1
  · rw [h1, h2]; simp
  · rw [h1]; simp

/-- A repair newer than all that arrived lists nothing that is outdated. -/
theorem SysInv.newest_current (h : SysInv c io data ems A ρ L W K s) {i : Nat} {r : ERepair}
    (hi : s.enc.out[i]? = some (.repair r)) (hnew : ∀ j ∈ s.hist, s.isRepair j → j ≤ i) :
    ∀ y ∈ r.ids, ¬ s.dec.det.Outdated y := by
  intro y hy ho
  rw [h.outdated_iff] at ho
  obtain ⟨em, hem, hr⟩ := h.enc.ems_get hi
  cases em with
  | src x => cases hr
  | rep rid Wi =>
    obtain ⟨r', h1, hEnc, hne, hso⟩ := hr
    obtain rfl : r = r' := by injection h1
    have hids : r.ids = Wi := by rw [hEnc.ids, List.map_map]; exact List.map_id Wi
    rw [hids] at hy
    rcases h.newest with ⟨_, _, h4, _⟩ | ⟨j, hj, Wl, h1, _, h3, _⟩
    · omega
    · obtain ⟨r2, _, _, _, hso2⟩ := h.enc.rend j _ _ h1 (List.getElem?_eq_getElem (by rw [h.enc.outLen]; exact getElem?_lt h1))
      rcases Nat.lt_or_eq_of_le (hnew j hj (h.enc.isRep h1)) with hlt | heq
      · have := h.enc.f2 j i _ _ _ _ hlt h1 hem y hy L (List.mem_of_mem_head? h3) (by omega)
        have := first_le hso2 h3 this
        omega
      · rw [heq, hem] at h1
        cases h1
        have := first_le hso h3 hy
        omega

/-- Any repair that may arrive, whatever the call that hands it to the decoder. -/
theorem SysInv.mayArriveAny (hc : c.Ok) (h : SysInv c io data ems A ρ L W K s)
    (hag : ∀ x < s.committed.length, s.committed.getD x [] = data x) {i : Nat} {r : ERepair}
    (hi : s.enc.out[i]? = some (.repair r)) (hmay : s.MayArrive i r) (hwire : WireIds r.ids)
    (hfit : ∀ x ∈ r.ids, SizeFits c.gf (coefficient w r.id x) (BitVec.ofNat 16 (s.committed.getD x []).length))
    (X : Out (NDec × Except CppErr Nat)) (tail : List Byte) (n : Nat)
    (hX : r.id < 2 ^ 32 → r.sym.length < 2 ^ 16 → ∀ det',
      s.dec.det.onRepair c.gf c.dbg ⟨r.id, r.ids, r.encSize, r.sym ++ tail, r.sym.length⟩ = .ok det' →
      X = .ok (({ s.dec with nbRepairs := s.dec.nbRepairs + 1, ackPackets := (s.dec.ackPackets + 1) % 2 ^ 16 } : NDec).afterDet c.clk det', .ok n)) :
    ∃ s' ρ' L' W' K', ((do
      let (d, x) ← X
      return { s with dec := d, hist := s.hist ++ [i], errs := s.errs + errCount x } : Out Sys) = .ok s') ∧ SysInv c io data ems A ρ' L' W' K' s' ∧
      s'.committed = s.committed ∧ s'.enc = s.enc ∧ s'.hist = s.hist ++ [i] ∧
      s.dec.det.log <+: s'.dec.det.log ∧ K ⊆ K' ∧ L ≤ L' ∧
      (∀ x, i ∉ s.hist → (∀ y ∈ r.ids, y ∉ K → y = x) → ∀ y ∈ r.ids, (y ∈ K' ∧ L' ≤ y) ∨ y < L) := by
  by_cases hnew : ∀ j ∈ s.hist, s.isRepair j → j ≤ i
  · obtain ⟨s', K', f, h1, h2, h3, h4, h5, h6, h7, h8, hf, h9, _⟩ := h.deliverRepairAny hc hag hi hnew hwire hfit X tail n hX
    refine ⟨s', _, _, _, K', h1, h2, h3, h4, h5, h6, ?_, h8, fun x hx hy y hyr => Or.inl ⟨?_, ?_⟩⟩
    · rcases h7 with h7 | h7
      · rw [h7]
      · rw [h7]; exact Set.subset_union_left
    · rw [h9 x hx hy]; exact Or.inr hyr
    · exact first_le hwire.1 hf hyr
  · obtain ⟨s', K', h1, h2, h3, h4, h5, h6, h7, _, h9, _⟩ := h.deliverOldAny hc hag hi hnew (hmay.resolve_left hnew) hfit X tail n hX
    refine ⟨s', _, _, _, K', h1, h2, h3, h4, h5, h6, h7, Nat.le_refl _, fun x _ hy y hyr => ?_⟩
    rcases Nat.lt_or_ge y L with h10 | h10
    · exact Or.inr h10
    · exact Or.inl ⟨(h9 x hy y hyr).resolve_right (by omega), h10⟩

/-- The same, received as any bytes that are read as this repair. -/
theorem SysInv.mayArriveVia (hc : c.Ok) (h : SysInv c io data ems A ρ L W K s)
    (hag : ∀ x < s.committed.length, s.committed.getD x [] = data x) {i : Nat} {r : ERepair}
    (hi : s.enc.out[i]? = some (.repair r)) (hmay : s.MayArrive i r) (hwire : WireIds r.ids)
    (hfit : ∀ x ∈ r.ids, SizeFits c.gf (coefficient w r.id x) (BitVec.ofNat 16 (s.committed.getD x []).length))
    (q tail : List Byte) (n : Nat) (hq : q ≠ []) (hqt : getPacketType q = .ok .repair)
    (hqr : r.id < 2 ^ 32 → r.sym.length < 2 ^ 16 → readRepair q = .ok (⟨r.id, r.ids, r.encSize, r.sym ++ tail, r.sym.length⟩, n)) :
    ∃ s' ρ' L' W' K', ((do
      let (d, x) ← s.dec.notify c.gf c.dbg c.clk q
      return { s with dec := d, hist := s.hist ++ [i], errs := s.errs + errCount x } : Out Sys) = .ok s') ∧ SysInv c io data ems A ρ' L' W' K' s' ∧
      s'.committed = s.committed ∧ s'.enc = s.enc ∧ s'.hist = s.hist ++ [i] ∧
      s.dec.det.log <+: s'.dec.det.log ∧ K ⊆ K' ∧ L ≤ L' ∧
      (∀ x, i ∉ s.hist → (∀ y ∈ r.ids, y ∉ K → y = x) → ∀ y ∈ r.ids, (y ∈ K' ∧ L' ≤ y) ∨ y < L) :=
  h.mayArriveAny hc hag hi hmay hwire hfit (s.dec.notify c.gf c.dbg c.clk q) tail n
    (fun h1 h2 => notify_repairVia c.gf c.dbg c.clk s.dec _ q n hq hqt (hqr h1 h2))

/-- The same for the packet as it was sent. -/
theorem SysInv.mayArrive (hc : c.Ok) (h : SysInv c io data ems A ρ L W K s)
    (hag : ∀ x < s.committed.length, s.committed.getD x [] = data x) {i : Nat} {r : ERepair}
    (hi : s.enc.out[i]? = some (.repair r)) (hmay : s.MayArrive i r) (hwire : WireIds r.ids)
    (hfit : ∀ x ∈ r.ids, SizeFits c.gf (coefficient w r.id x) (BitVec.ofNat 16 (s.committed.getD x []).length)) :
    ∃ s' ρ' L' W' K', s.step c (.deliver i) = .ok s' ∧ SysInv c io data ems A ρ' L' W' K' s' ∧
      s'.committed = s.committed ∧ s'.enc = s.enc ∧ s'.hist = s.hist ++ [i] ∧
      s.dec.det.log <+: s'.dec.det.log ∧ K ⊆ K' ∧ L ≤ L' ∧
      (∀ x, i ∉ s.hist → (∀ y ∈ r.ids, y ∉ K → y = x) → ∀ y ∈ r.ids, (y ∈ K' ∧ L' ≤ y) ∨ y < L) := by
  have hb : (writeRepair r).flatten ≠ [] := by simp [writeRepair, beBytes]
  have := h.mayArriveVia hc hag hi hmay hwire hfit (writeRepair r).flatten _ _ hb (getPacketType_repair r)
    (fun h1 h2 => readRepair_writeRepair r h1 hwire h2)
  simp only [Sys.step]
  rw [hi]
  exact this

/-! ## All steps -/

/-- The data of the identifiers. -/
def Agree (data : Nat → List Byte) (com : List (List Byte)) : Prop := ∀ x d, com[x]? = some d → data x = d

theorem Agree.getD {com : List (List Byte)} (h : Agree data com) : ∀ x < com.length, com.getD x [] = data x := by
  intro x hx
  have h1 := List.getElem?_eq_getElem hx
  rw [List.getD_eq_getElem?_getD, h1, h x _ h1]
  rfl

theorem Agree.prefix {com t : List (List Byte)} (h : Agree data (com ++ t)) : Agree data com := by
  intro x d hx
  exact h x d (by rw [List.getElem?_append_left (getElem?_lt hx)]; exact hx)

/-- The data a step commits. -/
def Act.commits : Act → List (List Byte)
  | .commit d => [d]
  | _ => []

theorem step_committed {a : Act} {s' : Sys} (hst : s.step c a = .ok s') :
    s'.committed = s.committed ++ a.commits := by
  cases a with
  | commit d => simp only [Sys.step] at hst; rw [bind_ok_iff] at hst; obtain ⟨e, _, hst⟩ := hst; cases hst; rfl
  | repair => simp only [Sys.step] at hst; rw [bind_ok_iff] at hst; obtain ⟨e, _, hst⟩ := hst; cases hst; simp [Act.commits]
  | setRate n => simp only [Sys.step] at hst; rw [bind_ok_iff] at hst; obtain ⟨e, _, hst⟩ := hst; cases hst; simp [Act.commits]
  | setWindow n => simp only [Sys.step] at hst; rw [bind_ok_iff] at hst; obtain ⟨e, _, hst⟩ := hst; cases hst; simp [Act.commits]
  | setAckNb n => simp only [Sys.step] at hst; rw [bind_ok_iff] at hst; obtain ⟨e, _, hst⟩ := hst; cases hst; simp [Act.commits]
  | setAdaptive b => cases hst; simp [Act.commits]
  | setSystematic b => cases hst; simp [Act.commits]
  | genAck => cases hst; simp [Act.commits]
  | maybeAck => cases hst; simp [Act.commits]
  | setAckPeriod ms => cases hst; simp [Act.commits]
  | deliver i =>
    simp only [Sys.step] at hst
    split at hst
    · cases hst; simp [Act.commits]
    · rw [bind_ok_iff] at hst; obtain ⟨e, _, hst⟩ := hst; cases hst; simp [Act.commits]
  | ack i =>
    simp only [Sys.step] at hst
    split at hst
    · cases hst; simp [Act.commits]
    · rw [bind_ok_iff] at hst; obtain ⟨e, _, hst⟩ := hst; cases hst; simp [Act.commits]

/-- Every step keeps the invariant. `com` is what will have been committed after the step. -/
theorem SysInv.step (hc : c.Ok) (h : SysInv c io data ems A ρ L W K s) (hag : Agree data s.committed) (a : Act)
    (ha : Allowed c s a) (hd : ∀ d, a = .commit d → data s.committed.length = d) :
    ∃ s' new A' ρ' L' W' K', s.step c a = .ok s' ∧ SysInv c io data (ems ++ new) A' ρ' L' W' K' s' ∧
      s.dec.det.log <+: s'.dec.det.log ∧ K ⊆ K' := by
  cases a with
  | commit d =>
    obtain ⟨s', new, h1, h2, h3, h4, _⟩ := h.commit hc d ha (hd d rfl)
    exact ⟨s', new, A, ρ, L, W, K, h1, h2, by rw [h4], subset_rfl⟩
  | repair =>
    obtain ⟨s', new, h1, h2, h3, h4, _⟩ := h.repair hc ha
    exact ⟨s', new, A, ρ, L, W, K, h1, h2, by rw [h4], subset_rfl⟩
  | setRate n =>
    refine ⟨{ s with enc := { s.enc with rate := n } }, [], A, ρ, L, W, K, ?_, ?_, List.prefix_refl _, subset_rfl⟩
    · simp only [Sys.step, Enc.setRate]; rw [cassert_true _ (by simpa [Allowed] using ha)]; rfl
    · exact h.param rfl rfl rfl rfl rfl (Nat.pos_iff_ne_zero.1 ha) h.ws
  | setWindow n =>
    refine ⟨{ s with enc := { s.enc with windowSize := n } }, [], A, ρ, L, W, K, ?_, ?_, List.prefix_refl _, subset_rfl⟩
    · simp only [Sys.step, Enc.setWindowSize]; rw [cassert_true _ (by simpa [Allowed] using ha)]; rfl
    · exact h.param rfl rfl rfl rfl rfl h.rate (Nat.pos_iff_ne_zero.1 ha)
  | setAdaptive b =>
    exact ⟨_, [], A, ρ, L, W, K, rfl, h.param rfl rfl rfl rfl rfl h.rate h.ws, List.prefix_refl _, subset_rfl⟩
  | setSystematic b =>
    exact ⟨_, [], A, ρ, L, W, K, rfl, h.param rfl rfl rfl rfl rfl h.rate h.ws, List.prefix_refl _, subset_rfl⟩
  | deliver i =>
    cases hi : s.enc.out[i]? with
    | none =>
      refine ⟨s, [], A, ρ, L, W, K, ?_, by rw [List.append_nil]; exact h, List.prefix_refl _, subset_rfl⟩
      simp only [Sys.step]; rw [hi]; rfl
    | some p =>
      cases p with
      | source sr =>
        have ht : s.InTime c.gf i := by simpa [Allowed, hi] using ha
        obtain ⟨s', K', x, h1, h2, h3, _, _, h4, h5, _⟩ := h.deliverSource hc hi ht
        exact ⟨s', [], A, ρ, L, W, K', h1, by rw [List.append_nil]; exact h2, h4, h5⟩
      | repair r =>
        have ht := ha
        simp only [Allowed, hi] at ht
        obtain ⟨s', ρ', L', W', K', h1, h2, h3, _, _, h4, h5, _⟩ := h.mayArrive hc hag.getD hi ht.1 ht.2.1 ht.2.2
        exact ⟨s', [], A, ρ', L', W', K', h1, by rw [List.append_nil]; exact h2, h4, h5⟩
  | ack j =>
    obtain ⟨s', A', h1, h2, h3, h4, _⟩ := h.ack hc j ha
    exact ⟨s', [], A', ρ, L, W, K, h1, by rw [List.append_nil]; exact h2, by rw [h4], subset_rfl⟩
  | genAck =>
    refine ⟨_, [], A, ρ, L, W, K, rfl, ?_, List.prefix_refl _, subset_rfl⟩
    rw [List.append_nil]
    exact h.withDec rfl rfl (generateAckWith_inv h.acks _ (fun x hx => h.dinv.core.src_keys x hx))
  | maybeAck =>
    have hf := maybeAckWith_frame c.clk s.dec s.dec.det.sources.keys
    refine ⟨_, [], A, ρ, L, W, K, rfl, ?_, ?_, subset_rfl⟩
    · rw [List.append_nil]
      exact h.withDec hf.1 hf.2 (maybeAckWith_inv h.acks _ _ (fun x hx => h.dinv.core.src_keys x hx))
    · show _ <+: (s.dec.maybeAck c.clk).det.log
      unfold NDec.maybeAck; rw [hf.1]
  | setAckNb n =>
    refine ⟨{ s with dec := { s.dec with ackNb := min n 128 } }, [], A, ρ, L, W, K, ?_, ?_, List.prefix_refl _, subset_rfl⟩
    · simp only [Sys.step, NDec.setAckNb]; rw [cassert_true _ (by simpa [Allowed] using ha)]; rfl
    · rw [List.append_nil]; exact h.withDec rfl rfl (h.acks.congr rfl h.acks.packets rfl)
  | setAckPeriod ms =>
    refine ⟨_, [], A, ρ, L, W, K, rfl, ?_, List.prefix_refl _, subset_rfl⟩
    rw [List.append_nil]; exact h.withDec rfl rfl (h.acks.congr rfl h.acks.packets rfl)

/-- Reachable states meet the invariant. -/
theorem reach_inv (hc : c.Ok) (h : Reach c io s) :
    ∀ data, Agree data s.committed → ∃ ems A ρ L W K, SysInv c io data ems A ρ L W K s := by
  induction h with
  | init => exact fun data _ => ⟨[], ∅, 0, 0, ∅, ∅, sysInv_init c io data⟩
  | @step s s' a hr ha hst ih =>
    intro data hag
    have hcom := step_committed hst
    rw [hcom] at hag
    have hD : ∀ d, a = .commit d → data s.committed.length = d := by
      rintro d rfl
      exact hag _ d (by simp [Act.commits])
    obtain ⟨ems, A, ρ, L, W, K, hI⟩ := ih data hag.prefix
    obtain ⟨s2, new, A', ρ', L', W', K', h1, h2, _⟩ := hI.step hc hag.prefix a ha hD
    rw [hst] at h1
    cases h1
    exact ⟨_, _, _, _, _, _, h2⟩

end Netcode
