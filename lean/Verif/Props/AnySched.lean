import Verif.Proofs.AnySched
import Verif.Proofs.Check
import Verif.Proofs.Via
import Verif.Props.Keep
import Verif.Props.Sync
import Verif.Props.Defects

/-!
# C24 and C61 for all schedules

Here the network may do anything with the packets: lose them, repeat them, reorder them without limits.
-/

namespace Netcode

variable {w : Nat} {c : Cfg w} {io : Bool} {s : Sys}

/-- The lists of sources of all repairs emitted so far fit in the wire format. -/
def RepairsFit (s : Sys) : Prop := ∀ r, EPkt.repair r ∈ s.enc.out → WireIds r.ids

/-- With less than 2^16 data they all do. -/
theorem repairsFit_short (hc : c.Ok) (h : AnyReach c io s) (hn : s.committed.length < 2 ^ 16) : RepairsFit s := by
  have := fact_of_valid hc.width
  obtain ⟨ems, A, hI⟩ := anyReach_enc hc h _ (agree_own s.committed)
  intro r hr
  obtain ⟨i, hi⟩ := List.getElem?_of_mem hr
  obtain ⟨em, h1, h2⟩ := hI.enc.ems_get hi
  cases em with
  | src x => cases h2
  | rep rid W =>
    obtain ⟨r', e, h3, -, h4⟩ := h2
    cases e
    have e : r.ids = W := by rw [h3.ids, List.map_map]; simp [srcOf, Function.comp_def]
    rw [e]
    exact wireIds_small h4 (fun x hx => hI.enc.emLt _ (List.mem_of_getElem? h1) x hx) hn

/-- What the packets of an encoder say: they name committed sources, and none of them passes a source of the window. -/
theorem emitted_says (hc : c.Ok) (h : AnyReach c io s) (hf : RepairsFit s) {q : EPkt} (hq : q ∈ s.enc.out) (x : Nat) :
    (NamedBy q.bytes x → x < s.committed.length) ∧ (Passes q.bytes x → x ∉ s.enc.win) := by
  have := fact_of_valid hc.width
  obtain ⟨ems, A, hI⟩ := anyReach_enc hc h _ (agree_own s.committed)
  obtain ⟨i, hi⟩ := List.getElem?_of_mem hq
  obtain ⟨em, h1, h2⟩ := hI.enc.ems_get hi
  have hlt := hI.enc.emLt _ (List.mem_of_getElem? h1)
  cases em with
  | src y =>
    cases h2
    have hy : y < s.committed.length := hlt y (by simp [Em.ids])
    have hd := hI.enc.dataOk y hy
    have hr := readSource_writeSource (srcOf (fun x => s.committed.getD x []) y)
      (by have := hI.curLt; show y < 2 ^ 32; omega) hd.2.1
    have hb : (EPkt.source (srcOf (fun x => s.committed.getD x []) y)).bytes.head? = some 2#8 := rfl
    refine ⟨?_, ?_⟩
    · rintro (⟨-, sr, n, h3, rfl⟩ | ⟨h3, -⟩)
      · replace h3 := hr.symm.trans h3
        cases h3
        exact hy
      · rw [hb] at h3; cases h3
    · rintro ⟨h3, -⟩
      rw [hb] at h3; cases h3
  | rep rid W =>
    obtain ⟨r, rfl, h3, hne, h4⟩ := h2
    have e : r.ids = W := by rw [h3.ids, List.map_map]; simp [srcOf, Function.comp_def]
    have hw := hf r hq
    have hl : r.sym.length < 2 ^ 16 := by
      obtain ⟨sr, hs, hl⟩ := h3.lenEx
      obtain ⟨y, hy, rfl⟩ := List.mem_map.1 hs
      rw [hl]
      exact (hI.enc.dataOk y (hlt y hy)).2.1
    have hid : r.id < 2 ^ 32 := by
      have a := hI.enc.repLt rid W (List.mem_of_getElem? h1)
      have b := hI.enc.repBound
      rw [h3.id]; omega
    have hr := readRepair_writeRepair r hid hw hl
    have hb : (EPkt.repair r).bytes.head? = some 1#8 := rfl
    refine ⟨?_, ?_⟩
    · rintro (⟨h5, -⟩ | ⟨-, r', n, h5, hx⟩)
      · rw [hb] at h5; cases h5
      · replace h5 := hr.symm.trans h5
        cases h5
        rw [e] at hx
        exact hlt x hx
    · rintro ⟨-, r', n, h5, -, h6⟩ hx
      replace h5 := hr.symm.trans h5
      cases h5
      simp only [e] at h6
      obtain ⟨z, hz⟩ := List.exists_mem_of_ne_nil _ hne
      have hin := hI.enc.f2w rid W (List.mem_of_getElem? h1) x hx z hz (Nat.le_of_lt (h6 z hz))
      exact Nat.lt_irrefl _ (h6 x hin)

/-- **C24** for all schedules: acks name committed sources only. -/
theorem C24_acks_committed_any_partial (hc : c.Ok) (h : AnyReach c io s) (hf : RepairsFit s) :
    ∀ a ∈ s.dec.out, ∀ x ∈ a.ids, x < s.committed.length := by
  intro a ha x hx
  obtain ⟨acts, h1, h2⟩ := anyReach_dec h
  obtain ⟨p, hp, hn⟩ := C89_named c.gf c.dbg c.clk io acts s.dec h1 x (.inr (.inr ⟨a, ha, hx⟩))
  obtain ⟨q, hq, rfl⟩ := h2 p hp
  exact (emitted_says hc h hf hq x).1 hn

/-- **C61** for all schedules: as long as a source is in the window of the encoder, the decoder acknowledges it if it knows it. -/
theorem C61_known_named_any_partial (hc : c.Ok) (h : AnyReach c io s) (hf : RepairsFit s) (x : Nat) (hx : x ∈ s.enc.win)
    (hk : s.dec.det.Knows x) : s.dec.det.Holds x := by
  rcases hk with hk | hk
  · obtain ⟨acts, h1, h2⟩ := anyReach_dec h
    rcases C88_handed c.gf c.dbg c.clk io acts s.dec h1 x hk with ⟨a, h3, h4⟩ | ⟨p, hp, hn⟩
    · obtain ⟨a', h5, h6⟩ := C24_names_all_held c.gf c.dbg c.clk io acts s.dec h1
      rw [h3] at h5
      cases List.append_cancel_left h5
      exact (h6 x).1 h4
    · obtain ⟨q, hq, rfl⟩ := h2 p hp
      exact absurd hx ((emitted_says hc h hf hq x).2 hn)
  · exact hk

/-- **C61** for all schedules: when the decoder sends an ack and this ack arrives, what is left in the window are exactly the sources
that the decoder does not know. -/
theorem C61_ack_round_trip_any_partial (hc : c.Ok) (h : AnyReach c io s) (hf : RepairsFit s) (s1 : Sys)
    (h1 : s.step c .genAck = .ok s1) (ha : ∀ a, s1.dec.out[s.dec.out.length]? = some a → WireIds a.ids) :
    ∃ s2, s1.step c (.ack s.dec.out.length) = .ok s2 ∧
      s2.enc.sources = s.enc.sources.filter (fun x => decide (¬ s.dec.det.Knows x.id)) ∧
      s2.dec = s1.dec ∧ s2.enc.out = s.enc.out := by
  have := fact_of_valid hc.width
  obtain ⟨ems, A, hI⟩ := anyReach_enc hc h _ (agree_own s.committed)
  obtain ⟨acts, g1, g2⟩ := anyReach_dec h
  cases h1
  obtain ⟨a, hout, hids⟩ := C24_names_all_held c.gf c.dbg c.clk io acts s.dec g1
  have hget : s.dec.generateAck.out[s.dec.out.length]? = some a := by rw [hout]; simp
  have hw := ha a hget
  obtain ⟨acts2, g3, -⟩ := anyReach_dec (s := { s with dec := s.dec.generateAck }) (.step (a := .genAck) h trivial rfl)
  have ho := (past_after (past_init c.gf c.dbg c.clk io) acts2 _ g3).acks.out a (by show a ∈ s.dec.generateAck.out; rw [hout]; simp)
  refine ⟨{ s with enc := s.enc.gotAck.applyAck c.F a, dec := s.dec.generateAck, errs := s.errs }, ?_, ?_, rfl, rfl⟩
  · simp only [Sys.step, hget]
    rw [Enc.notify_of_ack c.F c.dbg s.enc (getPacketType_ack a), readAck_writeAck a ho.2.2 hw]
    rfl
  · show eraseIds s.enc.sources a.ids = _
    rw [eraseIds_eq _ _ hI.enc.srcSorted ho.1]
    refine List.filter_congr (fun x hx => ?_)
    have hx' : x.id ∈ s.enc.win := List.mem_map_of_mem hx
    have : x.id ∈ a.ids ↔ s.dec.det.Knows x.id := by
      rw [hids]
      exact ⟨Or.inr, C61_known_named_any_partial hc h hf x.id hx'⟩
    simp only [this]

/-- **C61** for all schedules of less than 2^16 data, without conditions. -/
theorem C61_short_any_partial (hc : c.Ok) (h : AnyReach c io s) (hn : s.committed.length < 2 ^ 16) :
    ∃ s1 s2, s.step c .genAck = .ok s1 ∧ s1.step c (.ack s.dec.out.length) = .ok s2 ∧
      s2.enc.sources = s.enc.sources.filter (fun x => decide (¬ s.dec.det.Knows x.id)) := by
  have hr : AnyReach c io { s with dec := s.dec.generateAck } := .step (a := .genAck) h trivial rfl
  obtain ⟨s2, h2, h3, -⟩ := C61_ack_round_trip_any_partial hc h (repairsFit_short hc h hn) _ rfl (fun a ha => by
    obtain ⟨acts2, g3, -⟩ := anyReach_dec hr
    have hm := List.mem_of_getElem? ha
    have ho := (past_after (past_init c.gf c.dbg c.clk io) acts2 _ g3).acks.out a hm
    exact wireIds_small ho.1 (C24_acks_committed_any_partial hc hr (repairsFit_short hc hr hn) a hm) hn)
  exact ⟨_, s2, rfl, h2, h3⟩

/-- The repairs arrive in the wrong order (C02_false): outside the schedules of Spec/Schedule.lean. Sources 1 and 2 are in the
window, and the ack names both. -/
example : AnyReach (cfg8 true) false (anyReached (cfg8 true) false twiceActs) ∧ RepairsFit (anyReached (cfg8 true) false twiceActs) ∧
    (anyReached (cfg8 true) false twiceActs).enc.win = [1, 2] ∧
    (anyReached (cfg8 true) false (twiceActs ++ [.genAck])).dec.out = [⟨[0, 1, 2], 5⟩] ∧
    (anyReached (cfg8 true) false (twiceActs ++ [.genAck, .ack 0])).enc.win = [] := by
  have h : AnyReach (cfg8 true) false (anyReached (cfg8 true) false twiceActs) := anyReached_reach (by decide +kernel)
  exact ⟨h, repairsFit_short (cfg8_ok true) h (by decide +kernel), by decide +kernel, by decide +kernel, by decide +kernel⟩

/-- Source 0 arrives, then the two repairs in the wrong order: the ack does not name 0, which left the window, and 1 and 2 stay. -/
example : (anyReached (cfg8 true) false (twiceActs.take 7 ++ [.deliver 4, .deliver 2])).dec.det.handed = [0] ∧
    (anyReached (cfg8 true) false (twiceActs.take 7 ++ [.deliver 4, .deliver 2, .genAck])).dec.out = [⟨[], 3⟩] ∧
    (anyReached (cfg8 true) false (twiceActs.take 7 ++ [.deliver 4, .deliver 2, .genAck, .ack 0])).enc.win = [1, 2] := by
  refine ⟨?_, ?_, ?_⟩ <;> decide +kernel

end Netcode
