import Verif.Spec.OneWay
import Verif.Proofs.Via
import Verif.Proofs.Tunnel

/-!
# The one-way accelerator: proofs
-/

namespace Netcode

/-- What holds of the programs. -/
structure OneInv (c : Cfg 8) (late : Bool) (t : OneWay) : Prop where
  reach : ReachVia c late true t.sys
  ws : t.enc.windowSize = 256
  sysm : t.enc.systematic = true
  win : t.enc.sources.length ≤ 256
  small : ∀ d ∈ t.sent, d.length ≤ 3316
  pkts : ∀ p ∈ t.enc.out, p.Enough (p.bytes.take smallBuffer) ∧ p.bytes.length ≤ maxDatagram
  acks : ∀ a ∈ t.dec.out, (writeAck a).flatten.length ≤ smallBuffer

/-- The state of the closed system that it looks like. -/
theorem via_view {c : Cfg 8} {late : Bool} (hc : c.Ok) {S : Sys} (h : ReachVia c late true S) :
    ∃ s R, Reaches c late true s ∧ s.enc = S.enc ∧ s.committed = S.committed ∧ s.hist = S.hist ∧ s.dec.withR R = S.dec ∧
      keyIds R = keyIds s.dec.det.repairs := by
  obtain ⟨s, m, R, R', hA⟩ := alike_reach hc h
  refine ⟨s, R', hA.reach, ?_, ?_, ?_, ?_, ?_⟩
  · rw [hA.eqs, hA.eqS]
  · rw [hA.eqs, hA.eqS]
  · rw [hA.eqs, hA.eqS]
  · rw [hA.eqs, hA.eqS]; rfl
  · rw [hA.eqs]
    exact hA.snd.keyIds.trans hA.fst.keyIds.symm

/-- A step of the encoder and the decoder. -/
theorem via_step {c : Cfg 8} {late : Bool} (hc : c.Ok) {S : Sys} (h : ReachVia c late true S) {a : Act} {q : List Byte} (ha : AllowedVia c late S a q) :
    ∃ S', S.stepVia c a q = .ok S' ∧ ReachVia c late true S' ∧ S'.errs = 0 := by
  obtain ⟨s, m, R, R', hA⟩ := alike_reach hc h
  obtain ⟨s', S', m', R1, R1', h1, h2, h3⟩ := alike_step hc hA ha
  refine ⟨S', h1, h.step ha h1, ?_⟩
  have := inv_errs hc h3.inv
  rw [h3.eqS]
  exact this

theorem notify_systematic {F : F64} {dbg : Bool} {e e' : Enc} {p : List Byte} {r : Except CppErr Nat} (h : e.notify F dbg p = .ok (e', r)) :
    e'.systematic = e.systematic := by
  unfold Enc.notify at h
  obtain ⟨_, _, h⟩ := bind_ok_iff.1 h
  cases ht : getPacketType p with
  | error x => rw [ht] at h; cases x <;> cases h; rfl
  | ok t =>
    rw [ht] at h
    cases t with
    | ack =>
      simp only at h
      cases hr : readAck p with
      | error x => rw [hr] at h; cases x <;> cases h; rfl
      | ok x => rw [hr] at h; cases h; rfl
    | _ => cases h; rfl

theorem take_prefix {α : Type} {l t : List α} {n : Nat} (h : l.length ≤ n) : l <+: l.take n ++ t := by
  rw [List.take_of_length_le h]; exact List.prefix_append _ _

theorem source_enough {x : ESource} (h : x.sym.length ≤ 4089) :
    (EPkt.source x).Enough ((EPkt.source x).bytes.take smallBuffer) ∧ (EPkt.source x).bytes.length ≤ maxDatagram := by
  have hl : (EPkt.source x).bytes.length = 7 + x.sym.length := writeSource_length x
  refine ⟨.inl ?_, by unfold maxDatagram; omega⟩
  rw [List.take_of_length_le (by unfold smallBuffer; omega)]

theorem repair_enough {r : ERepair} (h1 : r.ids.length ≤ 256) (h2 : r.sym.length ≤ 3316) :
    (EPkt.repair r).Enough ((EPkt.repair r).bytes.take smallBuffer) ∧ (EPkt.repair r).bytes.length ≤ maxDatagram := by
  have hl : (EPkt.repair r).bytes.length = 11 + 2 * r.sym.length + (writeIds r.ids).flatten.length := writeRepair_length r
  have h3 := writeIds_length r.ids
  refine ⟨.inr ⟨r, rfl, List.take_prefix _ _, ?_⟩, by unfold maxDatagram; omega⟩
  rw [List.length_take]
  unfold smallBuffer
  omega

/-- The packets of a commit. -/
theorem one_commit {c : Cfg 8} {late : Bool} (hc : c.Ok) {t : OneWay} (h : OneInv c late t) {d : List Byte} {e : Enc} (hd : d.length ≤ 3316)
    (hr : ReachVia c late true { t.sys with enc := e, committed := t.sent ++ [d] }) (h1 : t.enc.commit c.gf c.dbg d = .ok e) :
    OneInv c late { t with enc := e, sent := t.sent ++ [d] } := by
  have hsrc := (commit_sources h1).1
  have hlen : e.sources.length ≤ 256 := by
    rw [hsrc, List.length_append, List.length_singleton]
    have := h.win
    have hw := h.ws
    unfold Enc.room
    split <;> (simp_all; try omega)
  obtain ⟨s, R, k1, k2, k3, -⟩ := via_view hc hr
  have k2 : s.enc = e := k2
  have k3 : s.committed = t.sent ++ [d] := k3
  obtain ⟨n1, n2⟩ := reach_sources hc k1.toLate
  rw [k2] at n1 n2
  rw [k3] at n2
  have hS : ∀ x ∈ e.sources, x.sym.length ≤ 3316 := by
    intro x hx
    rcases List.mem_append.1 (n2 x hx).2 with q | q
    · exact h.small _ q
    · rw [List.mem_singleton.1 q]; exact hd
  have hrep : ∀ id r, encodeRepair c.gf c.dbg id e.sources = .ok r →
      (EPkt.repair r).Enough ((EPkt.repair r).bytes.take smallBuffer) ∧ (EPkt.repair r).bytes.length ≤ maxDatagram := by
    intro id r he
    obtain ⟨q1, -, x, hx, q2⟩ := repair_size he (by rw [hsrc]; simp) (fun x hx => (n2 x hx).1) n1
    exact repair_enough (by omega) (by have := hS x hx; omega)
  refine ⟨hr, ?_, ?_, hlen, ?_, ?_, h.acks⟩
  · have hw := h.ws
    obtain ⟨e1, e2, rfl, h2, -, h4⟩ := commit_inv h1
    rcases h2 with ⟨-, rfl⟩ | ⟨-, r1, -, rfl⟩ <;> rcases h4 with ⟨-, rfl⟩ | ⟨-, r2, -, rfl⟩ <;> exact hw
  · have hw := h.sysm
    obtain ⟨e1, e2, rfl, h2, -, h4⟩ := commit_inv h1
    rcases h2 with ⟨-, rfl⟩ | ⟨-, r1, -, rfl⟩ <;> rcases h4 with ⟨-, rfl⟩ | ⟨-, r2, -, rfl⟩ <;> exact hw
  · intro x hx
    rcases List.mem_append.1 hx with q | q
    · exact h.small _ q
    · rw [List.mem_singleton.1 q]; exact hd
  · have hp := h.pkts
    have hsl := source_enough (x := ⟨t.enc.curSrc, d⟩) (by simp only; omega)
    obtain ⟨e1, e2, rfl, h2, -, h4⟩ := commit_inv h1
    rw [hsrc] at hrep
    rcases h2 with ⟨-, rfl⟩ | ⟨-, r1, g1, rfl⟩ <;> rcases h4 with ⟨-, rfl⟩ | ⟨-, r2, g2, rfl⟩ <;> intro p hpp <;>
      simp only [Enc.sentSource, Enc.sentRepair, List.mem_append, List.mem_singleton] at hpp
    · rcases hpp with q | rfl
      · exact hp _ q
      · exact hsl
    · rcases hpp with (q | rfl) | rfl
      · exact hp _ q
      · exact hsl
      · exact hrep _ _ g2
    · rcases hpp with q | rfl
      · exact hp _ q
      · exact hrep _ _ g1
    · rcases hpp with (q | rfl) | rfl
      · exact hp _ q
      · exact hrep _ _ g1
      · exact hrep _ _ g2

theorem OneInv.data {c : Cfg 8} {late : Bool} (hc : c.Ok) {t : OneWay} (h : OneInv c late t) : ∀ d ∈ t.dec.data, d.length ≤ 3316 := by
  obtain ⟨s, R, h1, -, h3, -, h5, -⟩ := via_view hc h.reach
  intro d hd
  refine h.small d ?_
  have e1 : s.dec.data = t.dec.data := by have q := congrArg NDec.data h5; exact q
  have e2 : s.committed = t.sent := h3
  exact e2 ▸ C01_integrity_late_partial hc h1.toLate d (e1 ▸ hd)

theorem OneInv.fits {c : Cfg 8} {late : Bool} (hc : c.Ok) {t t' : OneWay} (h : OneInv c late t') : t.fits t' = true := by
  unfold OneWay.fits
  simp only [Bool.and_eq_true, List.all_eq_true, decide_eq_true_eq]
  refine ⟨⟨fun p hp => (h.pkts p (List.mem_of_mem_drop hp)).2, fun a ha => ?_⟩, fun d hd => ?_⟩
  · exact Nat.le_trans (h.acks a (List.mem_of_mem_drop ha)) (by decide)
  · exact Nat.le_trans (h.data hc d (List.mem_of_mem_drop hd)) (by decide)

/-- An arrival at the receiver. -/
theorem one_packet {c : Cfg 8} {late : Bool} (hc : c.Ok) {t : OneWay} (h : OneInv c late t) {i : Nat} (ha : Permits c late t.sys (.deliver i)) :
    ∃ t', t.act c (.packet i) = .ok t' ∧ ReachVia c late true t'.sys ∧ t'.enc = t.enc ∧ t'.sent = t.sent ∧ t.dec.out <+: t'.dec.out := by
  cases hp : t.enc.out[i]? with
  | none => exact ⟨t, by simp only [OneWay.act, hp], h.reach, rfl, rfl, List.prefix_refl _⟩
  | some p =>
    have hp' : t.sys.enc.out[i]? = some p := hp
    obtain ⟨S', k1, k2, k3⟩ := via_step hc h.reach (a := .deliver i) (q := p.bytes.take smallBuffer)
      ⟨ha, by
        intro i' p' e hq
        cases e
        rw [hp'] at hq
        cases hq
        exact (h.pkts p (List.mem_of_getElem? hp)).1, by intro j k e; cases e⟩
    simp only [Sys.stepVia, hp'] at k1
    obtain ⟨⟨d, r⟩, g1, g2⟩ := bind_ok_iff.1 k1
    cases g2
    have g1 : t.dec.notify c.gf c.dbg c.clk (p.bytes.take smallBuffer) = .ok (d, r) := g1
    cases r with
    | error x => simp only [errCount] at k3; omega
    | ok n =>
      refine ⟨{ t with dec := d, up := true, hist := t.hist ++ [i] }, ?_, k2, rfl, rfl, notify_keeps_out g1⟩
      simp only [OneWay.act, hp]
      unfold OneWay.arrive
      rw [g1]

/-- One allowed step. -/
theorem one_step {c : Cfg 8} {late : Bool} (hc : c.Ok) {t : OneWay} (h : OneInv c late t) (a : OneAct) (ha : t.Allowed c late a) :
    ∃ t', t.step c a = .ok t' ∧ OneInv c late t' := by
  suffices ∃ t', t.act c a = .ok t' ∧ OneInv c late t' by
    obtain ⟨t', h1, h2⟩ := this
    refine ⟨t', ?_, h2⟩
    unfold OneWay.step
    rw [h1]
    simp only [bind, Except.bind]
    rw [h2.fits hc]
    rfl
  cases a with
  | app d =>
    obtain ⟨h1, h2, h3⟩ := ha
    show ∃ t', t.app c d = .ok t' ∧ _
    by_cases hd : d.length > 0
    · have htk : d.take smallBuffer = d := List.take_of_length_le (by unfold smallBuffer; omega)
      have hal : AllowedVia c late t.sys (.commit d) [] :=
        ⟨permits_other ⟨⟨hd, by omega, by omega⟩, h2, h3⟩, by intro i p e; (cases e), by intro i p e; (cases e)⟩
      obtain ⟨S', k1, k2, k3⟩ := via_step hc h.reach hal
      have k1' : t.sys.step c (.commit d) = .ok S' := k1
      simp only [Sys.step] at k1'
      obtain ⟨e, q1, q2⟩ := bind_ok_iff.1 k1'
      cases q2
      have q1 : t.enc.commit c.gf c.dbg d = .ok e := q1
      refine ⟨{ t with enc := e, sent := t.sent ++ [d] }, ?_, one_commit hc h h1 k2 q1⟩
      unfold OneWay.app
      rw [if_pos hd, htk, q1]
    · exact ⟨t, by unfold OneWay.app; rw [if_neg hd], h⟩
  | packet i =>
    obtain ⟨hal, hfit⟩ := ha
    obtain ⟨t', h1, h2, h3, h4, h5⟩ := one_packet hc h hal
    refine ⟨t', h1, h2, h3 ▸ h.ws, h3 ▸ h.sysm, h3 ▸ h.win, h4 ▸ h.small, h3 ▸ h.pkts, ?_⟩
    intro k hk
    rcases mem_out (w := 8) h5 hk with q | q
    · exact h.acks k q
    · exact hfit _ h1 k q
  | ack j junk =>
    have hal : Permits c late t.sys (.ack j) := ha
    cases hp : t.dec.out[j]? with
    | none => exact ⟨t, by simp only [OneWay.act, hp], h⟩
    | some p =>
      have hp' : t.sys.dec.out[j]? = some p := hp
      obtain ⟨S', k1, k2, k3⟩ := via_step hc h.reach (a := .ack j) (q := receivedAck (writeAck p).flatten junk)
        ⟨hal, by intro i p e; (cases e), by
          intro j' k e hq
          cases e
          rw [hp'] at hq
          cases hq
          exact take_prefix (h.acks p (List.mem_of_getElem? hp))⟩
      simp only [Sys.stepVia, hp'] at k1
      obtain ⟨⟨e, r⟩, g1, g2⟩ := bind_ok_iff.1 k1
      cases g2
      have g1 : t.enc.notify c.F c.dbg (receivedAck (writeAck p).flatten junk) = .ok (e, r) := g1
      cases r with
      | error x => simp only [errCount] at k3; omega
      | ok n =>
        obtain ⟨n1, n2, n3⟩ := notify_shrinks g1
        refine ⟨{ t with enc := e }, ?_, k2, n1.trans h.ws, (notify_systematic g1).trans h.sysm, Nat.le_trans n2 h.win, h.small, ?_, h.acks⟩
        · simp only [OneWay.act, hp]
          unfold OneWay.arriveAck
          rw [g1]
        · show ∀ p ∈ e.out, _
          rw [n3]
          exact h.pkts
  | timer =>
    refine ⟨t.timer, rfl, ?_⟩
    have hfit := ha _ rfl
    unfold OneWay.timer at hfit ⊢
    split
    · rename_i hs
      rw [if_pos hs] at hfit
      obtain ⟨S', k1, k2, k3⟩ := via_step hc h.reach (a := .genAck) (q := [])
        ⟨permits_other trivial, by intro i p e; (cases e), by intro i p e; (cases e)⟩
      cases k1
      refine ⟨k2, h.ws, h.sysm, h.win, h.small, h.pkts, ?_⟩
      intro k hk
      have hpre : t.dec.out <+: t.dec.generateAck.out := List.prefix_append _ _
      rcases mem_out (w := 8) hpre hk with q | q
      · exact h.acks k q
      · exact hfit k q
    · exact h

theorem one_init {c : Cfg 8} {late : Bool} : OneInv c late (OneWay.init c.clk) := by
  have hno : ∀ {s : Sys} {a : Act}, Netcode.Allowed c s a → (∀ i, a ≠ .deliver i) → (∀ i, a ≠ .ack i) → AllowedVia c late s a [] :=
    fun h1 h2 h3 => ⟨permits_other h1, fun i p e => absurd e (h2 i), fun i p e => absurd e (h3 i)⟩
  have h1 : (Sys.init c.clk true).stepVia c (.setWindow 256) [] =
      .ok { Sys.init c.clk true with enc := { Enc.init with windowSize := 256 } } := by
    simp only [Sys.stepVia, Sys.step, Enc.setWindowSize]
    rw [cassert_true _ (by decide)]
    rfl
  have r1 := ReachVia.step ReachVia.init (hno (by show 0 < 256; decide) (by simp) (by simp)) h1
  have r2 := ReachVia.step (s' := { Sys.init c.clk true with enc := { Enc.init with windowSize := 256, adaptive := true } }) r1
    (hno (a := .setAdaptive true) trivial (by simp) (by simp)) rfl
  have r3 := ReachVia.step (s' := ⟨{ Enc.init with windowSize := 256, adaptive := true }, (NDec.init c.clk true).setAckPeriod 5, [], [], 0⟩) r2
    (hno (a := .setAckPeriod 5) trivial (by simp) (by simp)) rfl
  have h4 : Sys.stepVia c ⟨{ Enc.init with windowSize := 256, adaptive := true }, (NDec.init c.clk true).setAckPeriod 5, [], [], 0⟩ (.setAckNb 64) [] = .ok (OneWay.init c.clk).sys := by
    simp only [Sys.stepVia, Sys.step, NDec.setAckNb]
    rw [cassert_true _ (by decide)]
    rfl
  have r4 := ReachVia.step r3 (hno (by show 0 < 64; decide) (by simp) (by simp)) h4
  exact ⟨r4, rfl, rfl, Nat.zero_le _, by simp [OneWay.init], by simp [OneWay.init, Enc.init],
    by simp [OneWay.init, NDec.init, NDec.setAckPeriod]⟩

theorem one_reach {c : Cfg 8} {late : Bool} (hc : c.Ok) {t : OneWay} (h : OneReach c late t) : OneInv c late t := by
  induction h with
  | init => exact one_init
  | step _ ha hst ih =>
    obtain ⟨t', h1, h2⟩ := one_step hc ih _ ha
    rw [hst] at h1
    cases h1
    exact h2

end Netcode
