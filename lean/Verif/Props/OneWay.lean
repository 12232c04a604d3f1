import Verif.Proofs.OneWay
import Verif.Props.Wire

/-!
# C67: the one-way accelerator of the example carries the data of the application
-/

namespace Netcode

/-- **C67, in part.** The application of the receiver gets datagrams that the one of the sender sent, in the same order, each at most as
often as it was sent. -/
theorem C67_data_partial {c : Cfg 8} {late : Bool} (hc : c.Ok) {t : OneWay} (h : OneReach c late t) : t.dec.data.Sublist t.sent := by
  obtain ⟨s, R, h1, -, h3, -, h5, -⟩ := via_view hc (one_reach hc h).reach
  have e1 : s.dec.data = t.dec.data := by have q := congrArg NDec.data h5; exact q
  have e2 : s.committed = t.sent := h3
  rw [← e1, ← e2]
  exact C03_in_order_late_partial hc h1.toLate

/-- **C67, in part.** The two programs look like a state of one encoder and one decoder, so all that is proved of those holds
(`C01` to `C05` and all others on `Reach`, or the ones on `ReachLate` if sources may be late), although their buffers cut long repairs. -/
theorem C67_link_partial {c : Cfg 8} {late : Bool} (hc : c.Ok) {t : OneWay} (h : OneReach c late t) :
    ∃ s, Reaches c late true s ∧ t.enc = s.enc ∧ t.sent = s.committed ∧ t.hist = s.hist ∧ SameView s.dec t.dec := by
  obtain ⟨s, R, h1, h2, h3, h4, h5, -⟩ := via_view hc (one_reach hc h).reach
  refine ⟨s, h1, h2.symm, h3.symm, h4.symm, ?_⟩
  rw [show t.dec = s.dec.withR R from h5.symm]
  exact withR_same s.dec R

/-- **C67, in part.** Both programs go on: no undefined behaviour, no failed assertion, no exception of the library, no datagram that is too
long. -/
theorem C67_no_stop_partial {c : Cfg 8} {late : Bool} (hc : c.Ok) {t : OneWay} (h : OneReach c late t) (a : OneAct) (ha : t.Allowed c late a) :
    ∃ t', t.step c a = .ok t' := by
  obtain ⟨t', h1, -⟩ := one_step hc (one_reach hc h) a ha
  exact ⟨t', h1⟩

/-- The receiver knows the endpoint of the sender as soon as a packet has arrived. -/
theorem one_up {c : Cfg 8} {late : Bool} {t : OneWay} (h : OneReach c late t) : t.up = true ↔ t.hist ≠ [] := by
  induction h with
  | init => simp [OneWay.init]
  | @step t t' a _ _ hst ih =>
    unfold OneWay.step at hst
    cases hact : t.act c a with
    | error f => rw [hact] at hst; cases hst
    | ok t1 =>
      rw [hact] at hst
      simp only [bind, Except.bind, pure, Except.pure] at hst
      split at hst
      · cases hst
        cases a with
        | app d =>
          simp only [OneWay.act, OneWay.app] at hact
          split at hact
          · split at hact
            · cases hact
            · cases hact; exact ih
          · cases hact; exact ih
        | packet i =>
          simp only [OneWay.act, OneWay.arrive] at hact
          split at hact
          · cases hact; exact ih
          · split at hact
            · cases hact
            · cases hact
            · cases hact; simp
        | ack j junk =>
          simp only [OneWay.act, OneWay.arriveAck] at hact
          split at hact
          · cases hact; exact ih
          · split at hact
            · cases hact
            · cases hact
            · cases hact; exact ih
        | timer =>
          simp only [OneWay.act, OneWay.timer] at hact
          split at hact
          · cases hact; exact ih
          · cases hact; exact ih
      · cases hst

/-- **C67, in part.** When the timer of the receiver expires, an ack of exactly the sources it holds is sent if a packet has arrived before, and
nothing otherwise; nothing else happens. -/
theorem C67_timer_partial {c : Cfg 8} {late : Bool} (hc : c.Ok) {t : OneWay} (h : OneReach c late t) (ha : t.Allowed c late .timer) :
    ∃ t', t.step c .timer = .ok t' ∧ t'.enc = t.enc ∧ t'.dec.data = t.dec.data ∧ t'.dec.det = t.dec.det ∧
      (t.hist = [] → t'.dec.out = t.dec.out) ∧
      (t.hist ≠ [] → ∃ a, t'.dec.out = t.dec.out ++ [a] ∧ ∀ x, x ∈ a.ids ↔ t.dec.det.Holds x) := by
  obtain ⟨t', h1⟩ := C67_no_stop_partial hc h _ ha
  have h2 : t' = t.timer := by
    unfold OneWay.step at h1
    simp only [OneWay.act, bind, Except.bind, pure, Except.pure] at h1
    split at h1
    · exact (Except.ok.inj h1).symm
    · cases h1
  refine ⟨t', h1, ?_⟩
  rw [h2]
  unfold OneWay.timer
  by_cases hu : t.up = true
  · have hh := (one_up h).1 hu
    rw [if_pos hu]
    refine ⟨rfl, rfl, rfl, fun q => absurd q hh, fun _ => ?_⟩
    obtain ⟨s, R, k1, -, -, -, k5, -⟩ := via_view hc (one_reach hc h).reach
    have k5 : s.dec.withR R = t.dec := k5
    have e1 : t.dec.generateAck.out = s.dec.generateAck.out := by rw [← k5]; rfl
    have e2 : t.dec.out = s.dec.out := by rw [← k5]; rfl
    have e3 : ∀ x, t.dec.det.Holds x ↔ s.dec.det.Holds x := by intro x; rw [← k5]; rfl
    obtain ⟨a, g1, -⟩ := C24_ack_lists_held_late hc k1.toLate 0
    refine ⟨a, ?_, fun x => ?_⟩
    · show t.dec.generateAck.out = _
      rw [e1, e2, g1]
    · obtain ⟨a', g2, g3⟩ := C24_ack_lists_held_late hc k1.toLate x
      rw [g1] at g2
      have : a = a' := by simpa using g2
      rw [e3, this]
      exact g3
  · have hh : t.hist = [] := by
      by_contra q
      exact hu ((one_up h).2 q)
    rw [if_neg hu]
    exact ⟨rfl, rfl, rfl, fun _ => rfl, fun q => absurd hh q⟩

/-- With few data, acks fit in the buffer. -/
theorem via_acks {c : Cfg 8} {late : Bool} (hc : c.Ok) {S : Sys} (h : ReachVia c late true S) (hn : S.committed.length ≤ 1363) :
    ∀ a ∈ S.dec.out, (writeAck a).flatten.length ≤ smallBuffer := by
  have := fact_of_valid hc.width
  obtain ⟨s, R, h1, -, h3, -, h5, -⟩ := via_view hc h
  have e : s.dec.out = S.dec.out := by have q := congrArg NDec.out h5; exact q
  intro a ha
  rw [← e] at ha
  rw [← h3] at hn
  obtain ⟨u', _, _, _, _, _, _, hI⟩ := (ginv_of_late hc h1.toLate _ (comData_agree s)).view
  have ho := hI.acks.out a ha
  have h2 : a.ids.length ≤ s.committed.length := sorted_length ho.1 (fun x hx => hI.knownLt x (ho.2.1 x hx))
  have h3 := writeIds_length a.ids
  have h4 : (writeAck a).flatten.length = 3 + (writeIds a.ids).flatten.length := by
    simp only [writeAck, List.flatten_append, List.length_append, List.flatten_cons, List.flatten_nil, beBytes_length, List.length_nil]
  rw [h4]
  unfold smallBuffer
  omega

/-- **C67, in part.** As long as the application sent at most 1363 datagrams, only the order in which the packets arrive matters. -/
theorem C67_short_partial {c : Cfg 8} {late : Bool} (hc : c.Ok) {t : OneWay} (h : OneReach c late t) (hn : t.sent.length ≤ 1363) :
    t.Allowed c late .timer ∧ (∀ j junk, t.Allowed c late (.ack j junk)) ∧
    (∀ i, (∀ sr, t.enc.out[i]? = some (.source sr) → t.sys.Timely late c.gf i) →
      (∀ r, t.enc.out[i]? = some (.repair r) → t.sys.MayArrive i r) → t.Allowed c late (.packet i)) := by
  have hI := one_reach hc h
  obtain ⟨s, R, k1, k2, k3, k4, k5, k6⟩ := via_view hc hI.reach
  have hs : t.sys = { s with dec := s.dec.withR R } := by
    have he : s.errs = 0 := reach_errs hc k1.toLate
    obtain ⟨e, d, cm, hi, er⟩ := s
    simp only at k2 k3 k4 k5 he
    rw [k2, k3, k4, k5, he]
    rfl
  have hlen : s.committed.length < 2 ^ 16 := by rw [k3]; show t.sent.length < _; omega
  refine ⟨?_, fun j junk => ?_, fun i h1 h2 => ?_⟩
  · intro t' ht k hk
    cases ht
    have hk := List.mem_of_mem_drop hk
    unfold OneWay.timer at hk
    split at hk
    · obtain ⟨S', q1, q2, -⟩ := via_step hc hI.reach (a := .genAck) (q := [])
        ⟨permits_other trivial, by intro i p e; (cases e), by intro i p e; (cases e)⟩
      cases q1
      exact via_acks hc q2 hn k hk
    · exact hI.acks k hk
  · show Permits c late t.sys (.ack j)
    rw [hs]
    exact (permits_withR k6).2 (permits_ack hc k1 hlen j)
  · have hal : Permits c late t.sys (.deliver i) := by
      have h2' : ∀ r, t.sys.enc.out[i]? = some (.repair r) → t.sys.MayArrive i r := h2
      have h1' : ∀ sr, t.sys.enc.out[i]? = some (.source sr) → t.sys.Timely late c.gf i := h1
      rw [hs] at h1' h2' ⊢
      exact (permits_withR k6).2 (permits_of_order hc k1 hlen i (fun sr h => (timely_withR k6).1 (h1' sr h))
        (fun r h => (mayArrive_withR k6).1 (h2' r h)))
    refine ⟨hal, ?_⟩
    intro t' ht k hk
    obtain ⟨t2, g1, g2, -, g4, -⟩ := one_packet hc hI hal
    rw [g1] at ht
    cases ht
    exact via_acks hc g2 (by show List.length _ ≤ _; exact (congrArg List.length g4).le.trans hn) k (List.mem_of_mem_drop hk)

/-- The third datagram is lost and decoded; an ack follows old bytes. -/
def demoOneWay : List OneAct :=
  [.app [1, 2], .app [3], .app [4], .app [5], .app [6, 7], .timer, .packet 0, .packet 1, .packet 3, .packet 4, .packet 5,
   .timer, .ack 0 [8, 8]]
example (dbg : Bool) : (OneWay.run (cfg8 dbg) (OneWay.init (cfg8 dbg).clk) demoOneWay).toOption.map
    (fun t => (t.dec.data, t.enc.window, t.dec.det.nbDecoded)) = some ([[1, 2], [3], [4], [5], [6, 7]], 0, 1) := by
  revert dbg; decide +kernel

/-! ## What the buffers do not carry

The sender reads datagrams of up to 4096 bytes, and the receiver packets of up to 4096. -/

/-- A commit of the sender. -/
theorem one_app {c : Cfg 8} {late : Bool} (hc : c.Ok) {t : OneWay} (h : OneReach c late t) {d : List Byte} (hd : d.length > 0)
    (h1 : t.sent.length + 1 < 2 ^ 32) (h2 : t.enc.nbSentRepairs + 2 < 2 ^ 32) :
    ∃ e, t.enc.commit c.gf c.dbg (d.take smallBuffer) = .ok e ∧
      t.step c (.app d) = .ok { t with enc := e, sent := t.sent ++ [d.take smallBuffer] } ∧
      ReachVia c late true { t.sys with enc := e, committed := t.sent ++ [d.take smallBuffer] } := by
  have hI := one_reach hc h
  have hl : (d.take smallBuffer).length ≤ 4096 := by rw [List.length_take]; exact Nat.min_le_left _ _
  have hl0 : 0 < (d.take smallBuffer).length := by rw [List.length_take]; unfold smallBuffer; omega
  generalize hD : d.take smallBuffer = D at hl hl0 ⊢
  have hal : AllowedVia c late t.sys (.commit D) [] :=
    ⟨permits_other ⟨⟨hl0, by omega, by omega⟩, h1, h2⟩, by intro i p e; (cases e), by intro i p e; (cases e)⟩
  obtain ⟨S', k1, k2, k3⟩ := via_step hc hI.reach hal
  have k1' : t.sys.step c (.commit D) = .ok S' := k1
  simp only [Sys.step] at k1'
  obtain ⟨e, q1, q2⟩ := bind_ok_iff.1 k1'
  cases q2
  have q1 : t.enc.commit c.gf c.dbg D = .ok e := q1
  refine ⟨e, q1, ?_, k2⟩
  have hact : t.act c (.app d) = .ok { t with enc := e, sent := t.sent ++ [D] } := by
    show t.app c d = _
    unfold OneWay.app
    rw [if_pos hd, hD, q1]
  have hfit : t.fits { t with enc := e, sent := t.sent ++ [D] } = true := by
    have hsrc := (commit_sources q1).1
    have hlen : e.sources.length ≤ 256 := by
      rw [hsrc, List.length_append, List.length_singleton]
      have := hI.win
      have hw := hI.ws
      unfold Enc.room
      split <;> (simp_all; try omega)
    obtain ⟨s, R, m1, m2, m3, -, -⟩ := via_view hc k2
    have m2 : s.enc = e := m2
    have m3 : s.committed = t.sent ++ [D] := m3
    obtain ⟨n1, n2⟩ := reach_sources hc m1.toLate
    rw [m2] at n1 n2
    rw [m3] at n2
    have hS : ∀ x ∈ e.sources, x.sym.length ≤ 4096 := by
      intro x hx
      rcases List.mem_append.1 (n2 x hx).2 with q | q
      · exact Nat.le_trans (hI.small _ q) (by decide)
      · rw [List.mem_singleton.1 q]; exact hl
    have hrep : ∀ id r, encodeRepair c.gf c.dbg id e.sources = .ok r → (EPkt.repair r).bytes.length ≤ maxDatagram := by
      intro id r he
      obtain ⟨g1, -, x, hx, g2⟩ := repair_size he (by rw [hsrc]; simp) (fun x hx => (n2 x hx).1) n1
      have g3 : (EPkt.repair r).bytes.length = _ := writeRepair_length r
      have g4 := writeIds_length r.ids
      have := hS x hx
      rw [g3]
      unfold maxDatagram
      omega
    have hso : (EPkt.source ⟨t.enc.curSrc, D⟩).bytes.length ≤ maxDatagram := by
      have g3 : (EPkt.source ⟨t.enc.curSrc, D⟩).bytes.length = _ := writeSource_length _
      rw [g3]
      unfold maxDatagram
      simp only
      omega
    rw [hsrc] at hrep
    unfold OneWay.fits
    simp only [Bool.and_eq_true, List.all_eq_true, decide_eq_true_eq]
    refine ⟨⟨fun p hp => ?_, fun a ha => by simp at ha⟩, fun d hd => by simp at hd⟩
    obtain ⟨e1, e2, rfl, g2, -, g4⟩ := commit_inv q1
    rcases g2 with ⟨-, rfl⟩ | ⟨-, r1, g1, rfl⟩ <;> rcases g4 with ⟨-, rfl⟩ | ⟨-, r2, g2, rfl⟩ <;>
      simp only [Enc.sentSource, Enc.sentRepair, List.append_assoc, List.drop_left, List.mem_append, List.mem_singleton] at hp
    · subst hp; exact hso
    · rcases hp with rfl | rfl
      · exact hso
      · exact hrep _ _ g2
    · subst hp; exact hrep _ _ g1
    · rcases hp with rfl | rfl
      · exact hrep _ _ g1
      · exact hrep _ _ g2
  unfold OneWay.step
  rw [hact]
  show (if t.fits _ then _ else _) = _
  rw [hfit]
  rfl

/-- **C67 fails** for a datagram of more than 4089 bytes: its packet is longer than the buffer of the receiver, and whenever it arrives there,
the exception of the decoder ends the program. -/
theorem C67_false_cut {c : Cfg 8} {late : Bool} (hc : c.Ok) {t : OneWay} (h : OneReach c late t) {d : List Byte} (hd : 4089 < d.length)
    (h1 : t.sent.length + 1 < 2 ^ 32) (h2 : t.enc.nbSentRepairs + 2 < 2 ^ 32) :
    ∃ t', t.step c (.app d) = .ok t' ∧ ∀ u : OneWay, t'.enc.out <+: u.enc.out →
      u.step c (.packet t.enc.out.length) = .error (.exn .overflow) := by
  obtain ⟨e, q1, q2, q3⟩ := one_app hc h (d := d) (by omega) h1 h2
  refine ⟨_, q2, fun u hu => ?_⟩
  have hcur : t.enc.curSrc < 2 ^ 32 := by
    have := fact_of_valid hc.width
    obtain ⟨s, R, k1, k2, k3, -, -⟩ := via_view hc (one_reach hc h).reach
    obtain ⟨u', _, _, _, _, _, _, hI⟩ := (ginv_of_late hc k1.toLate _ (comData_agree s)).view
    have e1 : s.enc.curSrc = s.committed.length := hI.cur
    rw [k2, k3] at e1
    have e1 : t.enc.curSrc = t.sent.length := e1
    omega
  have hl : (d.take smallBuffer).length ≤ 4096 ∧ 4089 < (d.take smallBuffer).length := by
    rw [List.length_take]; unfold smallBuffer; omega
  generalize d.take smallBuffer = D at *
  have hp : u.enc.out[t.enc.out.length]? = some (.source ⟨t.enc.curSrc, D⟩) := by
    obtain ⟨x, hx⟩ := hu
    have hx : e.out ++ x = u.enc.out := hx
    rw [← hx]
    have hs := (one_reach hc h).sysm
    obtain ⟨e1, e2, rfl, g2, -, g4⟩ := commit_inv q1
    rcases g2 with ⟨-, rfl⟩ | ⟨g, -⟩
    · rcases g4 with ⟨-, rfl⟩ | ⟨-, r2, g2, rfl⟩ <;> simp [Enc.sentSource, Enc.sentRepair, List.append_assoc]
    · rw [hs] at g; cases g
  have hb := writeSource_length ⟨t.enc.curSrc, D⟩
  simp only at hb
  obtain ⟨d', g1, -⟩ := C13_truncated_source c.gf c.dbg c.clk u.dec ⟨t.enc.curSrc, D⟩ hcur (by simp only; omega) smallBuffer
    (by decide) (by rw [hb]; unfold smallBuffer; omega)
  have hact : u.act c (.packet t.enc.out.length) = .error (.exn .overflow) := by
    simp only [OneWay.act, hp]
    unfold OneWay.arrive
    rw [show (EPkt.source ⟨t.enc.curSrc, D⟩).bytes = (writeSource ⟨t.enc.curSrc, D⟩).flatten from rfl, g1]
  unfold OneWay.step
  rw [hact]
  rfl

/-- **C67 fails** for a datagram of 4082 bytes or more whenever a repair is due after it: the repair is cut before the end of its encoded
size, and whenever it arrives, the exception of the decoder ends the program. -/
theorem C67_false_repair {c : Cfg 8} {late : Bool} (hc : c.Ok) {t : OneWay} (h : OneReach c late t) {d : List Byte} (hd : 4082 ≤ d.length)
    (h1 : t.sent.length + 1 < 2 ^ 16) (h2 : t.enc.nbSentRepairs + 2 < 2 ^ 32) (h3 : t.enc.rate ∣ t.sent.length + 1) :
    ∃ t', t.step c (.app d) = .ok t' ∧ ∀ u : OneWay, t'.enc.out <+: u.enc.out →
      u.step c (.packet (t.enc.out.length + 1)) = .error (.exn .overflow) := by
  have := fact_of_valid hc.width
  obtain ⟨e, q1, q2, q3⟩ := one_app hc h (d := d) (by omega) (by omega) h2
  refine ⟨_, q2, fun u hu => ?_⟩
  have hcur : t.enc.curSrc = t.sent.length ∧ t.enc.curRep < 2 ^ 32 := by
    obtain ⟨s, R, k1, k2, k3, -, -⟩ := via_view hc (one_reach hc h).reach
    obtain ⟨u', _, _, _, _, _, _, hI⟩ := (ginv_of_late hc k1.toLate _ (comData_agree s)).view
    have e1 : s.enc.curSrc = s.committed.length := hI.cur
    rw [k2, k3] at e1
    have e1 : t.enc.curSrc = t.sent.length := e1
    have e2 : s.enc.curRep = s.enc.nbSentRepairs := hI.rep
    rw [k2] at e2
    have e2 : t.enc.curRep = t.enc.nbSentRepairs := e2
    exact ⟨e1, by omega⟩
  have hl : (d.take smallBuffer).length ≤ 4096 ∧ 4082 ≤ (d.take smallBuffer).length := by
    rw [List.length_take]; unfold smallBuffer; omega
  generalize d.take smallBuffer = D at *
  obtain ⟨s, R, m1, m2, m3, -, -⟩ := via_view hc q3
  have m2 : s.enc = e := m2
  have m3 : s.committed = t.sent ++ [D] := m3
  obtain ⟨n1, n2⟩ := reach_sources hc m1.toLate
  rw [m2] at n1 n2
  have hsrc := (commit_sources q1).1
  rw [hsrc] at n1 n2
  have n3 : ∀ x ∈ e.sources.map (·.id), x < t.sent.length + 1 := by
    obtain ⟨u', _, _, _, _, _, _, hI⟩ := (ginv_of_late hc m1.toLate _ (comData_agree s)).view
    intro x hx
    rw [← m2, show s.enc.sources = _ from hI.enc.srcs] at hx
    simp only [List.map_map, List.mem_map] at hx
    obtain ⟨y, hy, rfl⟩ := hx
    have : y < s.committed.length := hI.enc.srcLt y hy
    rw [m3, List.length_append, List.length_singleton] at this
    exact this
  rw [hsrc] at n3
  obtain ⟨r, hp, hr1, hr2, hr3, hr4, hr5⟩ : ∃ r : ERepair, u.enc.out[t.enc.out.length + 1]? = some (.repair r) ∧ r.id < 2 ^ 32 ∧ WireIds r.ids ∧
      r.ids ≠ [] ∧ 4082 ≤ r.sym.length ∧ r.sym.length < 2 ^ 16 := by
    obtain ⟨x, hx⟩ := hu
    have hx : e.out ++ x = u.enc.out := hx
    rw [← hx]
    have hs := (one_reach hc h).sysm
    obtain ⟨e1, e2, rfl, g2, -, g4⟩ := commit_inv q1
    rcases g2 with ⟨-, rfl⟩ | ⟨g, -⟩
    · rcases g4 with ⟨g, -⟩ | ⟨-, r, g3, rfl⟩
      · have hm : (t.enc.curSrc + 1) % 2 ^ 32 = t.sent.length + 1 := by rw [hcur.1]; exact Nat.mod_eq_of_lt (by omega)
        exact absurd (by rw [hm]; exact Nat.mod_eq_zero_of_dvd h3) g
      · have g3 : encodeRepair c.gf c.dbg t.enc.curRep (t.enc.room ++ [⟨t.enc.curSrc, D⟩]) = .ok r := g3
        obtain ⟨r', f1, f2⟩ := encodeRepair_ok c.gf hc.width c.dbg t.enc.curRep _ (by simp) (fun y hy => (n2 y hy).1) n1
        rw [g3] at f1
        cases f1
        refine ⟨r, by simp [Enc.sentSource, Enc.sentRepair, List.append_assoc], by rw [f2.id]; exact hcur.2, ?_, ?_, ?_, ?_⟩
        · rw [f2.ids]; exact wireIds_small n1 n3 h1
        · rw [f2.ids]; simp
        · exact Nat.le_trans hl.2 (f2.len ⟨t.enc.curSrc, D⟩ (by simp))
        · obtain ⟨y, hy, ey⟩ := f2.lenEx
          have := (n2 y hy).1.2.1
          omega
    · rw [hs] at g; cases g
  have hids : 6 ≤ (writeIds r.ids).flatten.length := by
    cases hi : r.ids with
    | nil => exact absurd hi hr3
    | cons a l =>
      simp only [writeIds, List.flatten_append, List.length_append, List.flatten_cons, List.flatten_nil, beBytes_length, List.length_nil]
      omega
  have hb := writeRepair_length r
  obtain ⟨d', g1, -⟩ := C13_truncated_repair c.gf c.dbg c.clk u.dec r hr1 hr2 hr5 smallBuffer (by decide) (by rw [hb]; unfold smallBuffer; omega)
  have hact : u.act c (.packet (t.enc.out.length + 1)) = .error (.exn .overflow) := by
    simp only [OneWay.act, hp]
    unfold OneWay.arrive
    rw [show (EPkt.repair r).bytes = (writeRepair r).flatten from rfl, g1]
  unfold OneWay.step
  rw [hact]
  rfl

/-! Cases that meet the hypotheses. -/

instance (c : Cfg 8) (late : Bool) (t : OneWay) (d : List Byte) : Decidable (t.Allowed c late (.app d)) :=
  inferInstanceAs (Decidable (_ ∧ _ ∧ _))

/-- Runs of the application alone. -/
def oneRun (c : Cfg 8) : OneWay → List (List Byte) → Option OneWay
  | t, [] => some t
  | t, d :: l =>
    if t.Allowed c true (.app d) then
      match t.step c (.app d) with
      | .error _ => none
      | .ok t' => oneRun c t' l
    else none

theorem oneRun_reach {c : Cfg 8} {late : Bool} : ∀ (l : List (List Byte)) {t t' : OneWay}, OneReach c late t → oneRun c t l = some t' → OneReach c late t'
  | [], _, _, h, e => by cases e; exact h
  | d :: l, t, t', h, e => by
    unfold oneRun at e
    split at e
    · next ha =>
      split at e
      · cases e
      · next t2 h2 => exact oneRun_reach l (.step h (show t.Allowed c late (.app d) from ha) h2) e
    · cases e

theorem oneRun_exists {c : Cfg 8} {late : Bool} {l : List (List Byte)} {P : OneWay → Prop} [DecidablePred P]
    (h : ((oneRun c (OneWay.init c.clk) l).any (fun t => decide (P t))) = true) : ∃ t, OneReach c late t ∧ P t := by
  cases e : oneRun c (OneWay.init c.clk) l with
  | none => rw [e] at h; cases h
  | some t => rw [e] at h; exact ⟨t, oneRun_reach l .init e, by simpa using h⟩

/-- Four datagrams were sent: a fifth of 3316 bytes is carried, one of 4085 bytes ends the program when the repair after it arrives, and one of
5000 bytes does when the source arrives. -/
example (dbg : Bool) : ∃ t, OneReach (cfg8 dbg) false t ∧
    t.Allowed (cfg8 dbg) false (.app (List.replicate 3316 0#8)) ∧
    (∃ t', t.step (cfg8 dbg) (.app (List.replicate 4085 0#8)) = .ok t' ∧
      t'.step (cfg8 dbg) (.packet (t.enc.out.length + 1)) = .error (.exn .overflow)) ∧
    (∃ t', t.step (cfg8 dbg) (.app (List.replicate 5000 0#8)) = .ok t' ∧
      t'.step (cfg8 dbg) (.packet t.enc.out.length) = .error (.exn .overflow)) := by
  obtain ⟨t, h1, h2, h3, h4⟩ : ∃ t, OneReach (cfg8 dbg) false t ∧ t.enc.rate = 5 ∧ t.sent.length = 4 ∧ t.enc.nbSentRepairs = 0 :=
    oneRun_exists (l := [[1], [2], [3], [4]]) (by revert dbg; decide +kernel)
  refine ⟨t, h1, ⟨by rw [List.length_replicate], by omega, by omega⟩, ?_, ?_⟩
  · obtain ⟨t', k1, k2⟩ := C67_false_repair (cfg8_ok dbg) h1 (d := List.replicate 4085 0#8) (by rw [List.length_replicate]; decide)
      (by omega) (by omega) ⟨1, by omega⟩
    exact ⟨t', k1, k2 t' (List.prefix_refl _)⟩
  · obtain ⟨t', k1, k2⟩ := C67_false_cut (cfg8_ok dbg) h1 (d := List.replicate 5000 0#8) (by rw [List.length_replicate]; decide)
      (by omega) (by omega)
    exact ⟨t', k1, k2 t' (List.prefix_refl _)⟩

end Netcode
