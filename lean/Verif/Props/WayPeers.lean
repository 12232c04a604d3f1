import Verif.Spec.WayPeers
import Verif.Props.Peers

/-! # To whom the one-way accelerator sends (C101) -/

namespace Netcode

variable {c : Cfg 8} {W : WayWorld}

/-- What a step leaves alone. -/
theorem way_act {t u : OneWay} {a : OneAct} (h : t.act c a = .ok u) :
    t.enc.out <+: u.enc.out ∧ t.dec.out <+: u.dec.out ∧ t.dec.data <+: u.dec.data ∧
    ((∀ i, a ≠ .packet i) → u.up = t.up ∧ u.dec.data = t.dec.data ∧ (t.up = false → u.dec.out = t.dec.out)) ∧
    (∀ i, a = .packet i → t.enc.out[i]? = none → u = t) := by
  cases a with
  | app d =>
    simp only [OneWay.act, OneWay.app] at h
    split at h
    · split at h
      · cases h
      · rename_i e he
        cases h
        refine ⟨?_, List.prefix_refl _, List.prefix_refl _, fun _ => ⟨rfl, rfl, fun _ => rfl⟩, by simp⟩
        obtain ⟨e1, e2, rfl, g2, g3, g4⟩ := commit_inv he
        rcases g2 with ⟨-, rfl⟩ | ⟨-, r, -, rfl⟩ <;> rcases g4 with ⟨-, rfl⟩ | ⟨-, r2, -, rfl⟩ <;>
          simp [Enc.sentSource, Enc.sentRepair]
    · cases h
      exact ⟨List.prefix_refl _, List.prefix_refl _, List.prefix_refl _, fun _ => ⟨rfl, rfl, fun _ => rfl⟩, by simp⟩
  | packet i =>
    simp only [OneWay.act] at h
    cases hi : t.enc.out[i]? with
    | none =>
      rw [hi] at h
      cases h
      exact ⟨List.prefix_refl _, List.prefix_refl _, List.prefix_refl _, fun _ => ⟨rfl, rfl, fun _ => rfl⟩, fun _ _ _ => rfl⟩
    | some p =>
      rw [hi] at h
      simp only [OneWay.arrive] at h
      split at h
      · cases h
      · cases h
      · rename_i d n hd
        cases h
        refine ⟨List.prefix_refl _, notify_keeps_out hd, notify_keeps_data hd, fun hn => absurd rfl (hn i), ?_⟩
        intro j hj hx
        cases hj
        rw [hi] at hx
        cases hx
  | ack j junk =>
    simp only [OneWay.act] at h
    split at h
    · cases h
      exact ⟨List.prefix_refl _, List.prefix_refl _, List.prefix_refl _, fun _ => ⟨rfl, rfl, fun _ => rfl⟩, by simp⟩
    · simp only [OneWay.arriveAck] at h
      split at h
      · cases h
      · cases h
      · rename_i e n he
        cases h
        refine ⟨?_, List.prefix_refl _, List.prefix_refl _, fun _ => ⟨rfl, rfl, fun _ => rfl⟩, by simp⟩
        show t.enc.out <+: e.out
        rw [(notify_shrinks he).2.2]
  | timer =>
    simp only [OneWay.act, OneWay.timer, Except.ok.injEq] at h
    subst h
    split
    · next hu =>
      exact ⟨List.prefix_refl _, List.prefix_append _ _, List.prefix_refl _, fun _ => ⟨rfl, rfl, fun hx => by rw [hu] at hx; cases hx⟩, by simp⟩
    · exact ⟨List.prefix_refl _, List.prefix_refl _, List.prefix_refl _, fun _ => ⟨rfl, rfl, fun _ => rfl⟩, by simp⟩

theorem wayHears_way (t : WayNet) (a : WayAct) : (t.hears W a).way = t.way ∧ (t.hears W a).log = t.log := by
  cases a with
  | own a => cases a <;> unfold WayNet.hears <;> dsimp only <;> (try split) <;> exact ⟨rfl, rfl⟩
  | _ => exact ⟨rfl, rfl⟩

/-- The parts of a step. -/
theorem wayStep_iff {t t' : WayNet} {a : WayAct} : t.step c W a = .ok t' ↔
    ∃ u, (t.hears W a).does c a = .ok u ∧ t.way.fits u = true ∧
      (∀ m ∈ mailBetween (t.hears W a).toReceiver (t.hears W a).toSender W.app t.way u, m.to.port ≠ 0) ∧
      t' = { t.hears W a with way := u, log := t.log ++ mailBetween (t.hears W a).toReceiver (t.hears W a).toSender W.app t.way u } := by
  obtain ⟨e1, e2⟩ := wayHears_way (W := W) t a
  unfold WayNet.step
  simp only [e1, e2]
  cases hd : (t.hears W a).does c a with
  | error f =>
    constructor
    · intro h; cases h
    · rintro ⟨u, h, -⟩; cases h
  | ok u =>
    simp only [bind, Except.bind]
    constructor
    · intro h
      split at h
      · next hb =>
        rw [Bool.and_eq_true, List.all_eq_true] at hb
        cases h
        exact ⟨u, rfl, hb.1, fun m hm => by simpa using hb.2 m hm, rfl⟩
      · cases h
    · rintro ⟨v, hv, h1, h2, rfl⟩
      cases hv
      rw [if_pos (by rw [Bool.and_eq_true, List.all_eq_true]; exact ⟨h1, fun m hm => by simpa using h2 m hm⟩)]
      rfl

/-- What both programs know, and what is sent next. -/
def WayInv (W : WayWorld) (t : WayNet) : Prop := t.toReceiver = W.receiver ∧ (t.toSender = W.sender ∨ t.way.up = false)

theorem way_next {t : WayNet} (hi : WayInv W t) {a : OneAct} {u : OneWay} (h : t.way.act c a = .ok u) :
    (∀ m ∈ mailBetween (t.hears W (.own a)).toReceiver (t.hears W (.own a)).toSender W.app t.way u, m.to = W.right m.kind) ∧
    ∀ log, WayInv W { t.hears W (.own a) with way := u, log := log } := by
  obtain ⟨-, -, -, h4, h5⟩ := way_act h
  have hr : (t.hears W (.own a)).toReceiver = W.receiver := by
    cases a <;> simp only [WayNet.hears] <;> (try split) <;> first | exact hi.1 | rfl
  have hs : (t.hears W (.own a)).toSender = W.sender ∨ (u.up = false ∧ u.dec.out = t.way.dec.out) := by
    by_cases hp : ∃ i, a = .packet i
    · obtain ⟨i, rfl⟩ := hp
      cases ho : t.way.enc.out[i]? with
      | none =>
        have := h5 i rfl ho
        subst this
        rcases hi.2 with g | g
        · left; simp only [WayNet.hears, ho]; exact g
        · exact .inr ⟨g, rfl⟩
      | some p => left; simp [WayNet.hears, ho]
    · obtain ⟨k1, k2, k3⟩ := h4 (fun i hx => hp ⟨i, hx⟩)
      rcases hi.2 with g | g
      · left
        cases a <;> simp only [WayNet.hears] <;> (try split) <;> first | exact g | rfl
      · exact .inr ⟨by rw [k1]; exact g, k3 g⟩
  refine ⟨fun m hm => ?_, fun log => ⟨hr, hs.imp id And.left⟩⟩
  unfold mailBetween at hm
  rw [List.mem_append, List.mem_append] at hm
  rcases hm with (hm | hm) | hm
  · obtain ⟨p, -, rfl⟩ := List.mem_map.1 hm
    exact hr
  · obtain ⟨p, hp, rfl⟩ := List.mem_map.1 hm
    rcases hs with g | g
    · exact g
    · rw [g.2, List.drop_length] at hp
      cases hp
  · obtain ⟨p, -, rfl⟩ := List.mem_map.1 hm
    rfl

theorem way_reach {t : WayNet} (h : WayReach c W t) : WayInv W t ∧ ∀ m ∈ t.log, m.to = W.right m.kind := by
  induction h with
  | init => exact ⟨⟨rfl, .inr rfl⟩, by intro m hm; cases hm⟩
  | @step t t' a h1 h2 ih =>
    obtain ⟨u, g1, -, -, rfl⟩ := wayStep_iff.1 h2
    simp only [WayNet.does, (wayHears_way (W := W) t (.own a)).1] at g1
    obtain ⟨k1, k2⟩ := way_next ih.1 g1
    refine ⟨k2 _, fun m hm => ?_⟩
    rcases List.mem_append.1 hm with hm | hm
    · exact ih.2 m hm
    · exact k1 m hm

/-- **C101.** Whatever the network does and whenever things happen: every packet goes to the receiver, every ack to the sender, and every datum to the
application of the receiver. -/
theorem C101_right_partial {t : WayNet} (h : WayReach c W t) :
    ∀ m ∈ t.log, m.to = match m.kind with | .packet => W.receiver | .ack => W.sender | .datum => W.app := by
  intro m hm
  rw [(way_reach h).2 m hm]
  cases m.kind <;> rfl

theorem mail_kinds (r s a : Addr) (t u : OneWay) (k : WayKind) :
    ((mailBetween r s a t u).filter (fun m => m.kind = k)).map (·.bytes) =
      match k with
      | .packet => (u.enc.out.drop t.enc.out.length).map EPkt.bytes
      | .ack => (u.dec.out.drop t.dec.out.length).map (fun a => (writeAck a).flatten)
      | .datum => u.dec.data.drop t.dec.data.length := by
  unfold mailBetween
  rw [List.filter_append, List.filter_append, List.filter_map, List.filter_map, List.filter_map]
  cases k <;> simp [Function.comp_def]

theorem prefix_drop {α : Type} {l m : List α} (h : l <+: m) : l ++ m.drop l.length = m := by
  obtain ⟨z, rfl⟩ := h
  rw [List.drop_left]

/-- **C101.** Nothing else is sent, and nothing is left out: the packets of the encoder, the acks of the decoder and what it handed over, in order
(`C67_data_partial`: that is what the application of the sender sent). -/
theorem C101_all_partial {t : WayNet} (h : WayReach c W t) :
    t.sent .packet = t.way.enc.out.map EPkt.bytes ∧ t.sent .ack = t.way.dec.out.map (fun a => (writeAck a).flatten) ∧
    t.sent .datum = t.way.dec.data := by
  induction h with
  | init => exact ⟨rfl, rfl, rfl⟩
  | @step t t' a h1 h2 ih =>
    obtain ⟨u, g1, -, -, rfl⟩ := wayStep_iff.1 h2
    simp only [WayNet.does, (wayHears_way (W := W) t (.own a)).1] at g1
    obtain ⟨k1, k2, k3, -, -⟩ := way_act g1
    simp only [WayNet.sent, List.filter_append, List.map_append, mail_kinds] at ih ⊢
    rw [ih.1, ih.2.1, ih.2.2, ← List.map_append, ← List.map_append, prefix_drop k1, prefix_drop k2, prefix_drop k3]
    exact ⟨rfl, rfl, rfl⟩

/-- **C101.** So addresses stop nothing: with them the two programs do exactly what they do in C67. -/
theorem C101_runs_partial (hW : W.Ok) {t : WayNet} (h : WayReach c W t) (a : OneAct) (u : OneWay) :
    (∃ t', t.step c W (.own a) = .ok t' ∧ t'.way = u) ↔ t.way.step c a = .ok u := by
  have hi := (way_reach h).1
  have e1 := (wayHears_way (W := W) t (.own a)).1
  have hstep : t.way.step c a = .ok u ↔ t.way.act c a = .ok u ∧ t.way.fits u = true := by
    unfold OneWay.step
    cases t.way.act c a with
    | error f => simp [bind, Except.bind]
    | ok v =>
      simp only [bind, Except.bind]
      constructor
      · intro h
        split at h
        · next hb => cases h; exact ⟨rfl, hb⟩
        · cases h
      · rintro ⟨h1, h2⟩
        cases h1
        rw [if_pos h2]
        rfl
  rw [hstep]
  constructor
  · rintro ⟨t', h1, rfl⟩
    obtain ⟨v, g1, g2, -, rfl⟩ := wayStep_iff.1 h1
    simp only [WayNet.does, e1] at g1
    exact ⟨g1, g2⟩
  · rintro ⟨h1, h2⟩
    refine ⟨_, wayStep_iff.2 ⟨u, by simpa only [WayNet.does, e1] using h1, h2, fun m hm => ?_, rfl⟩, rfl⟩
    rw [(way_next hi h1).1 m hm]
    cases m.kind
    · exact hW.2.1
    · exact hW.1
    · exact hW.2.2

/-- **C101, the other way**: one empty datagram from anybody at the socket of the sender: the packets of all data that follow go to its sender, until an ack
arrives. -/
theorem C101_false_sender (t : WayNet) (who : Addr) (junk : List Byte) :
    ∃ t', t.step c W (.atSender who [] junk) = .ok t' ∧ t'.log = t.log ∧ t'.way = t.way ∧
      ∀ d t'', t'.step c W (.own (.app d)) = .ok t'' → ∀ m ∈ t''.log.drop t'.log.length, m.kind = .packet → m.to = who := by
  refine ⟨{ t with toReceiver := who }, wayStep_iff.2 ⟨t.way, rfl, ?_, ?_, ?_⟩, rfl, rfl, ?_⟩
  · simp [OneWay.fits]
  · simp [mailBetween]
  · simp [mailBetween, WayNet.hears]
  · intro d t'' h m hm hk
    obtain ⟨u, -, -, -, rfl⟩ := wayStep_iff.1 h
    simp only [WayNet.hears, List.drop_left] at hm
    unfold mailBetween at hm
    rw [List.mem_append, List.mem_append] at hm
    rcases hm with (hm | hm) | hm <;> obtain ⟨p, -, rfl⟩ := List.mem_map.1 hm
    · rfl
    · cases hk
    · cases hk

/-- **C101, the other way**: one empty datagram from anybody at the socket of the receiver: the acks go to its sender, until a packet arrives. -/
theorem C101_false_receiver (t : WayNet) (who : Addr) :
    ∃ t', t.step c W (.atReceiver who []) = .ok t' ∧ t'.log = t.log ∧ t'.way = t.way ∧
      ∀ t'', t'.step c W (.own .timer) = .ok t'' → ∀ m ∈ t''.log.drop t'.log.length, m.to = who := by
  refine ⟨{ t with toSender := who }, wayStep_iff.2 ⟨t.way, rfl, ?_, ?_, ?_⟩, rfl, rfl, ?_⟩
  · simp [OneWay.fits]
  · simp [mailBetween]
  · simp [mailBetween, WayNet.hears]
  · intro t'' h m hm
    obtain ⟨u, hu, -, -, rfl⟩ := wayStep_iff.1 h
    simp only [WayNet.hears, List.drop_left] at hm
    have hu' : t.way.timer = u := Except.ok.inj hu
    have e1 : u.enc.out = t.way.enc.out := by rw [← hu']; unfold OneWay.timer; split <;> rfl
    have e2 : u.dec.data = t.way.dec.data := by rw [← hu']; unfold OneWay.timer; split <;> rfl
    unfold mailBetween at hm
    rw [List.mem_append, List.mem_append, e1, e2, List.drop_length, List.drop_length] at hm
    rcases hm with (hm | hm) | hm <;> obtain ⟨p, hp, rfl⟩ := List.mem_map.1 hm
    · cases hp
    · rfl
    · cases hp

/-! ## An example -/

/-- Sender, receiver and application on three hosts. -/
def demoWay : WayWorld := ⟨⟨1, 7000⟩, ⟨2, 7001⟩, ⟨3, 80⟩⟩

/-- Two data, of which the second arrives first; acks. -/
def demoWayActs : List OneAct := [.timer, .app [1], .app [2], .packet 1, .timer, .ack 0 [], .packet 0, .timer]

/-- The run, if no step stops. -/
def wayRun (c : Cfg 8) (W : WayWorld) : WayNet → List OneAct → Option WayNet
  | t, [] => some t
  | t, a :: l =>
    match t.step c W (.own a) with
    | .ok t' => wayRun c W t' l
    | .error _ => none

theorem wayRun_reach (l : List OneAct) {t t' : WayNet} (h : WayReach c W t) (e : wayRun c W t l = some t') : WayReach c W t' := by
  induction l generalizing t with
  | nil => cases e; exact h
  | cons a l ih =>
    rw [wayRun] at e
    split at e
    · next t1 h1 => exact ih (.step h h1) e
    · cases e

example : ∃ t, WayReach (cfg8 true) demoWay t ∧
    t.log.map (fun m => (m.kind, m.to.host)) = [(.packet, 2), (.packet, 2), (.ack, 1), (.datum, 3), (.datum, 3), (.ack, 1)] := by
  have h : (wayRun (cfg8 true) demoWay (WayNet.init (cfg8 true).clk demoWay) demoWayActs).map (·.log.map (fun m => (m.kind, m.to.host))) =
      some [(.packet, 2), (.packet, 2), (.ack, 1), (.datum, 3), (.datum, 3), (.ack, 1)] := by decide +kernel
  cases hr : wayRun (cfg8 true) demoWay (WayNet.init (cfg8 true).clk demoWay) demoWayActs with
  | none => rw [hr] at h; cases h
  | some t =>
    rw [hr] at h
    exact ⟨t, wayRun_reach _ .init hr, by simpa using h⟩

example : demoWay.Ok := by unfold WayWorld.Ok; decide

end Netcode
