import Verif.Proofs.Tunnel
import Verif.Props.Wire

/-!
# C59: the tunnel of the example carries the data of both applications
-/

namespace Netcode

/-- **C59, in part.** In both directions at once, whatever bytes the reception buffers held before: the application at one side gets
datagrams that the one at the other side sent, in the same order, each at most as often as it was sent. -/
theorem C59_data_partial {c : Cfg 8} {late : Bool} (hc : c.Ok) {t : Tun} (h : TReach c late t) (x : Bool) :
    (t.side !x).dec.data.Sublist (t.side x).sent := by
  obtain ⟨s, R, h1, -, h3⟩ := (tun_reach hc h x).view
  have e1 : (t.dir x).dec.data = s.dec.data := by rw [h3]; rfl
  have e2 : (t.dir x).committed = s.committed := by rw [h3]
  show (t.dir x).dec.data.Sublist (t.dir x).committed
  rw [e1, e2]
  exact C03_in_order_late_partial hc h1.toLate

/-- **C59, in part.** Each direction looks like a state of one encoder and one decoder, so all that is proved of those holds
(`C01` to `C05` and all others on `Reach`, or the ones on `ReachLate` if sources may be late). -/
theorem C59_direction_partial {c : Cfg 8} {late : Bool} (hc : c.Ok) {t : Tun} (h : TReach c late t) (x : Bool) :
    ∃ s, Reaches c late true s ∧ (t.side x).enc = s.enc ∧ (t.side x).sent = s.committed ∧ (t.side !x).hist = s.hist ∧
      SameView s.dec (t.side !x).dec := by
  obtain ⟨s, R, h1, -, h3⟩ := (tun_reach hc h x).view
  refine ⟨s, h1, ?_, ?_, ?_, ?_⟩
  · exact congrArg Sys.enc h3
  · exact congrArg Sys.committed h3
  · exact congrArg Sys.hist h3
  · rw [show (t.side !x).dec = s.dec.withR R from congrArg Sys.dec h3]
    exact withR_same s.dec R

/-- **C59, in part.** The programs at both sides go on: no undefined behaviour, no failed assertion, no exception of the library, no
datagram that is too long. -/
theorem C59_no_stop_partial {c : Cfg 8} {late : Bool} (hc : c.Ok) {t : Tun} (h : TReach c late t) (a : TunAct) (ha : TAllowed c late t a) :
    ∃ t', t.step c a = .ok t' := by
  obtain ⟨t', h1, -⟩ := tun_step hc (tun_reach hc h) a ha
  exact ⟨t', h1⟩

/-- **C59, in part.** As long as no application sent more than 21832 datagrams, only the order in which the packets arrive matters. -/
theorem C59_short_partial {c : Cfg 8} {late : Bool} (hc : c.Ok) {t : Tun} (h : TReach c late t) (hn : ∀ x, (t.side x).sent.length ≤ 21832) :
    (∀ x, TAllowed c late t (.timer x)) ∧ (∀ x j junk, TAllowed c late t (.ack x j junk)) ∧
    (∀ x i junk, (∀ sr, (t.dir !x).enc.out[i]? = some (.source sr) → (t.dir !x).Timely late c.gf i) →
      (∀ r, (t.dir !x).enc.out[i]? = some (.repair r) → (t.dir !x).MayArrive i r) → TAllowed c late t (.packet x i junk)) := by
  have hI := tun_reach hc h
  refine ⟨fun x => acksFit_timer hc hI (hn _), fun x j junk => ?_, fun x i junk h1 h2 => ?_⟩
  · obtain ⟨s, R, k1, kl, k3⟩ := (hI x).view
    have := hn x
    show Permits c late (t.dir x) (.ack j)
    rw [k3]
    refine (permits_withR kl.keyIds).2 (permits_ack hc k1 ?_ j)
    rw [← show (t.dir x).committed = s.committed from by rw [k3]]
    show (t.side x).sent.length < 2 ^ 16
    omega
  · obtain ⟨s, R, k1, kl, k3⟩ := (hI !x).view
    have := hn !x
    have hal : Permits c late (t.dir !x) (.deliver i) := by
      rw [k3] at h1 h2 ⊢
      refine (permits_withR kl.keyIds).2 (permits_of_order hc k1 ?_ i (fun sr h => (timely_withR kl.keyIds).1 (h1 sr h))
        (fun r h => (mayArrive_withR kl.keyIds).1 (h2 r h)))
      rw [← show (t.dir !x).committed = s.committed from by rw [k3]]
      show (t.side !x).sent.length < 2 ^ 16
      omega
    exact ⟨hal, acksFit_packet hc hI hal (hn _)⟩

/-- Both applications send; the second packet of side `false` is lost and its source decoded; acks cross the data; old bytes follow the
packets. -/
def demoTunnel : List TunAct :=
  [.app false [1, 2], .app false [3], .app false [4], .app true [9, 9], .app false [5], .app false [6, 7],
   .packet true 0 [7, 7, 7], .packet true 2 [], .packet true 3 [1], .packet false 0 [2, 2], .packet true 4 [], .packet true 5 [3, 3, 3],
   .timer true, .timer false, .ack false 0 [8], .ack true 0 [8, 8]]
example : (Tun.run (cfg8 true) (Tun.init (cfg8 true).clk) demoTunnel).toOption.map
    (fun t => (t.b.dec.data, t.a.dec.data, t.a.enc.window, t.b.enc.window, t.b.dec.det.nbDecoded)) =
    some ([[1, 2], [3], [4], [5], [6, 7]], [[9, 9]], 0, 0, 1) := by decide +kernel

/-- The same with the packet of side `false` not lost but late, after the repair from which its source was decoded, as the schedules of
`AllowedLate` permit it. -/
example : (Tun.run (cfg8 true) (Tun.init (cfg8 true).clk) (demoTunnel ++ [.packet true 1 [4]])).toOption.map
    (fun t => (t.b.dec.data, t.a.dec.data, t.b.dec.det.nbDecoded)) =
    some ([[1, 2], [3], [4], [5], [6, 7]], [[9, 9]], 1) := by decide +kernel

/-! ## What the buffers and the network do not carry

The receiver of a datagram has a buffer of 65504 bytes, so an application can send one as long as that.  A repair is twice as long as the
longest source it is made of. -/

/-- **C59 fails** for a datagram of 32749 bytes or more whenever a repair is due after it: the repair is longer than a UDP datagram, and the
exception of `send_to` ends the program. -/
theorem C59_false_long {c : Cfg 8} {late : Bool} (hc : c.Ok) {t : Tun} (h : TReach c late t) (x : Bool) {d : List Byte} (h1 : 32749 ≤ d.length)
    (h2 : d.length ≤ bufferSize) (h3 : (t.side x).sent.length + 1 < 2 ^ 32) (h4 : (t.side x).enc.nbSentRepairs + 2 < 2 ^ 32)
    (h5 : (t.side x).enc.rate ∣ (t.side x).sent.length + 1) :
    t.step c (.app x d) = .error .send := by
  have hal : Permits c late (t.dir x) (.commit d) := permits_other ⟨⟨by omega, by unfold bufferSize at h2; omega, by omega⟩, h3, h4⟩
  obtain ⟨S', k1, -, -, k4⟩ := dir_step hc (tun_reach hc h x) _ hal []
  have k1' : (t.dir x).step c (.commit d) = .ok S' := k1
  simp only [Sys.step] at k1'
  obtain ⟨e, q1, q2⟩ := bind_ok_iff.1 k1'
  cases q2
  have q1' : (t.side x).enc.commit c.gf c.dbg d = .ok e := q1
  have hcur : (t.side x).enc.curSrc = (t.side x).sent.length := dir_curSrc hc (tun_reach hc h x)
  -- the repair
  have hr : ∃ r : ERepair, EPkt.repair r ∈ e.out.drop (t.side x).enc.out.length ∧ d.length ≤ r.sym.length := by
    obtain ⟨s, R, m1, -, m3⟩ := k4
    have e1 : e = s.enc := congrArg Sys.enc m3
    obtain ⟨n1, n2⟩ := reach_sources hc m1.toLate
    rw [← e1] at n1 n2
    have hsrc := (commit_sources q1').1
    rw [hsrc] at n1 n2
    obtain ⟨e1, e2, rfl, g2, -, g4⟩ := commit_inv q1'
    rw [hcur] at g4
    rcases g4 with ⟨g, -⟩ | ⟨-, r, g4, rfl⟩
    · exact absurd (by rw [Nat.mod_eq_of_lt h3]; exact Nat.mod_eq_zero_of_dvd h5) g
    · have hs2 : e2.sources = (t.side x).enc.room ++ [⟨(t.side x).enc.curSrc, d⟩] := by
        rcases g2 with ⟨-, rfl⟩ | ⟨-, r1, -, rfl⟩ <;> rfl
      rw [hs2] at g4
      obtain ⟨-, l2, -⟩ := repair_size g4 (by simp) (fun y hy => (n2 y hy).1) n1
      refine ⟨r, ?_, l2 ⟨(t.side x).enc.curSrc, d⟩ (by simp)⟩
      rcases g2 with ⟨-, rfl⟩ | ⟨-, r1, -, rfl⟩ <;> simp [Enc.sentSource, Enc.sentRepair, List.append_assoc]
  have hact : t.act c (.app x d) = .ok { t.side x with enc := e, sent := (t.side x).sent ++ [d] } := by
    show (t.side x).app c d = _
    unfold Side.app
    rw [if_pos (by omega), List.take_of_length_le h2, q1']
  have hf : (t.side x).fits { t.side x with enc := e, sent := (t.side x).sent ++ [d] } = false := by
    obtain ⟨r, r1, r2⟩ := hr
    have : (e.out.drop (t.side x).enc.out.length).all (fun p => p.bytes.length ≤ maxDatagram) = false := by
      rw [List.all_eq_false]
      refine ⟨_, r1, ?_⟩
      have : (EPkt.repair r).bytes.length = _ := writeRepair_length r
      simp only [this, decide_eq_true_eq]
      unfold maxDatagram
      omega
    unfold Side.fits
    simp only [this, Bool.false_and]
  unfold Tun.step
  rw [hact]
  show (if (t.side x).fits _ then _ else _) = _
  rw [hf]
  rfl

/-- Such a case: the fifth datagram with the rate of a new encoder. -/
example (dbg : Bool) : ∃ t, TReach (cfg8 dbg) false t ∧ t.step (cfg8 dbg) (.app false (List.replicate 40000 0#8)) = .error .send := by
  obtain ⟨t, h1, h2, h3, h4⟩ : ∃ t, TReach (cfg8 dbg) false t ∧ (t.side false).enc.rate = 5 ∧ (t.side false).sent.length = 4 ∧
      (t.side false).enc.nbSentRepairs = 0 :=
    appRun_exists (l := [(false, [1]), (false, [2]), (false, [3]), (false, [4])]) (by revert dbg; decide +kernel)
  exact ⟨t, h1, C59_false_long (cfg8_ok dbg) h1 false (by rw [List.length_replicate]; decide)
    (by rw [List.length_replicate]; decide) (by omega) (by omega) ⟨1, by omega⟩⟩

/-- **C59 fails** for a datagram of more than 65497 bytes: its packet is sent, cut by the buffer of the other side and the exception ends
the program there. -/
theorem C59_false_cut {c : Cfg 8} {d : List Byte} (h1 : 65497 < d.length) (h2 : d.length ≤ 65500) (junk : List Byte) :
    ∃ t, (Tun.init c.clk).step c (.app false d) = .ok t ∧ t.step c (.packet true 0 junk) = .error (.exn .overflow) := by
  obtain ⟨e, hcm, ho⟩ : ∃ e, (Side.init c.clk).enc.commit c.gf c.dbg d = .ok e ∧ e.out = [.source ⟨0, d⟩] := by
    have hl : ¬ d.length = 0 := by omega
    simp [Enc.commit, Side.init, Enc.init, cassert, ensure, Enc.emitNew, Enc.autoRepair, hl, bind, Except.bind, pure, Except.pure]
  have hb : (EPkt.source ⟨0, d⟩).bytes.length = 7 + d.length := writeSource_length ⟨0, d⟩
  have htk : d.take bufferSize = d := List.take_of_length_le (by unfold bufferSize; omega)
  have hact : (Tun.init c.clk).act c (.app false d) = .ok { Side.init c.clk with enc := e, sent := [d] } := by
    show (Side.init c.clk).app c d = _
    unfold Side.app
    rw [if_pos (by omega), htk, hcm]
    rfl
  have hf : (Side.init c.clk).fits { Side.init c.clk with enc := e, sent := [d] } = true := by
    unfold Side.fits
    simp only [Bool.and_eq_true, List.all_eq_true, decide_eq_true_eq, ho]
    refine ⟨⟨fun p hp => ?_, fun p hp => by simp at hp⟩, fun p hp => by simp at hp⟩
    have : p = .source ⟨0, d⟩ := by simpa [Side.init, Enc.init] using hp
    rw [this, hb]
    unfold maxDatagram
    omega
  refine ⟨(Tun.init c.clk).set false { Side.init c.clk with enc := e, sent := [d] }, ?_, ?_⟩
  · unfold Tun.step
    rw [hact]
    show (if (Side.init c.clk).fits _ then _ else _) = _
    rw [hf]
    rfl
  · obtain ⟨d', h3, -⟩ := C13_truncated_source c.gf c.dbg c.clk (Side.init c.clk).dec ⟨0, d⟩ (by simp) (by simp only; omega) bufferSize
      (by decide) (by have := hb; unfold bufferSize; show _ < (EPkt.source ⟨0, d⟩).bytes.length; omega)
    have hrec : received (EPkt.source ⟨0, d⟩).bytes junk = (writeSource ⟨0, d⟩).flatten.take bufferSize := by
      unfold received
      rw [show bufferSize - (EPkt.source ⟨0, d⟩).bytes.length = 0 by rw [hb]; unfold bufferSize; omega]
      simp [EPkt.bytes, EPkt.chunks]
    have hact2 : Tun.act c ((Tun.init c.clk).set false { Side.init c.clk with enc := e, sent := [d] }) (.packet true 0 junk) =
        .error (.exn .overflow) := by
      show (match e.out[0]? with
        | none => (Except.ok (Side.init c.clk) : Except TStop Side)
        | some p => (Side.init c.clk).arrive c p.bytes (some 0) junk) = _
      rw [ho]
      show (Side.init c.clk).arrive c (EPkt.source ⟨0, d⟩).bytes (some 0) junk = _
      unfold Side.arrive
      rw [if_pos (by omega), hrec]
      have hd : dispatch c.gf c.F c.dbg c.clk (Side.init c.clk).enc (Side.init c.clk).dec ((writeSource ⟨0, d⟩).flatten.take bufferSize) =
          .ok (((Side.init c.clk).enc, d'), .error .overflow) := by
        unfold dispatch
        rw [getPacketType_take (by decide), getPacketType_source]
        simp only
        rw [h3]
        rfl
      simp only [hd]
    unfold Tun.step
    rw [hact2]
    rfl

end Netcode
