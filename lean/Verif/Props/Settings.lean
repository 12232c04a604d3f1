import Verif.Proofs.Settings
import Verif.Props.Encoder

/-!
# Settings and the adaptive rate

`systematicSet acts`, `windowSet acts`, … (`Verif/Spec/Settings.lean`) are the values given by the last call that sets
them, or the documented default.  `ieee` is arithmetic on doubles (`Verif/Model/Float.lean`).
-/

namespace Netcode

variable {w : Nat} {gf : GF w} {F : F64} {dbg : Bool}

/-! ## C50 -/

/-- **C50.** The code type, the window size and the adaptive mode are the last ones set, whatever was committed, emitted
or received in between. -/
theorem C50_encoder {acts : List EAct} {e : Enc} (h : Enc.init.after gf F dbg acts = .ok e) :
    e.systematic = systematicSet acts ∧ e.windowSize = windowSet acts ∧ e.adaptive = adaptiveSet acts :=
  settings_after h

/-- **C50.** The rate is the last one set, as long as no ack is accepted in between or the adaptive mode is off. -/
theorem C50_rate {pre mid : List EAct} {r : Nat} {e : Enc}
    (h : Enc.init.after gf F dbg (pre ++ .setRate r :: mid) = .ok e) (hs : ∀ n, EAct.setRate n ∉ mid)
    (hr : (∀ p, EAct.packet p ∈ mid → accepts p = false) ∨ (adaptiveSet pre = false ∧ EAct.setAdaptive true ∉ mid)) :
    e.rate = r := by
  obtain ⟨e1, h1, h2⟩ := after_append h
  have h2' := h2
  unfold Enc.after at h2
  rw [List.foldlM_cons] at h2
  obtain ⟨e2, h3, h4⟩ := (bind_ok_iff).1 h2
  simp only [Enc.act, Enc.setRate, bind_ok_iff, pure_ok_iff] at h3
  obtain ⟨_, _, rfl⟩ := h3
  refine (rate_after hs ?_ h4).trans rfl
  rcases hr with hr | ⟨hr, hr'⟩
  · exact .inl hr
  · refine .inr ⟨?_, hr'⟩
    show e1.adaptive = false
    rw [(settings_after h1).2.2]; exact hr

/-- **C50.** Without any call that sets it the rate is 5. -/
theorem C50_rate_default {acts : List EAct} {e : Enc} (h : Enc.init.after gf F dbg acts = .ok e)
    (hs : ∀ n, EAct.setRate n ∉ acts)
    (hr : (∀ p, EAct.packet p ∈ acts → accepts p = false) ∨ EAct.setAdaptive true ∉ acts) : e.rate = 5 :=
  (rate_after hs (hr.imp id fun h => ⟨rfl, h⟩) h).trans rfl

/-- **C50.** The ack period of a decoder is the last one set; the number of packets between acks as well, limited to
128. -/
theorem C50_decoder {clk : Clock} {io : Bool} {acts : List DAct} {d : NDec}
    (h : (NDec.init clk io).after gf dbg clk acts = .ok d) :
    d.ackPeriod = periodSet acts ∧ d.ackNb = min (countSet acts) 128 :=
  dec_settings_after h

/-- **C50.** The number of received acks is the number of packets of type ack, readable or not. -/
theorem C50_received_acks {acts : List EAct} {e : Enc} (h : Enc.init.after gf F dbg acts = .ok e) :
    e.nbAcks = nbAcksOf acts :=
  acks_after h

/-- Every setting changed, twice for some, with commits, a rejected packet and an accepted ack in between. -/
def settingsHist : List EAct :=
  [.setRate 3, .commit [1], .setSystematic false, .setWindow 2, .packet [0, 0], .commit [2], .setAdaptive true, .setWindow 7,
   .packet [0, 0, 0, 0, 0], .commit [3], .setAdaptive false]

example : ((Enc.init.after gf8 F0 true settingsHist).map (fun e => (e.systematic, e.windowSize, e.adaptive, e.nbAcks))).toOption =
    some (false, 7, false, 2) ∧ systematicSet settingsHist = false ∧ windowSet settingsHist = 7 ∧
    adaptiveSet settingsHist = false ∧ accepts [0, 0] = false ∧ accepts [0, 0, 0, 0, 0] = true := by decide +kernel

/-- A rejected packet in adaptive mode, and an accepted one outside of it. -/
example : ((Enc.init.after gf8 F0 true [.setAdaptive true, .setRate 3, .commit [1], .packet [0, 0]]).map (·.rate)).toOption = some 3 ∧
    ((Enc.init.after gf8 F0 true [.setRate 3, .commit [1], .packet [0, 0, 0, 0, 0]]).map (·.rate)).toOption = some 3 := by
  decide +kernel

example : (((NDec.init (fun _ => 0) true).after gf8 true (fun _ => 0) [.setAckNb 3, .maybeAck, .setAckPeriod 0, .setAckNb 1000,
    .genAck]).map (fun d => (d.ackPeriod, d.ackNb))).toOption = some (0, 128) := by decide +kernel

/-! ## C51 -/

/-- **C51** (all cases). In adaptive mode, when an ack is accepted the rate becomes the one for the number of packets
emitted since the previous accepted ack and the number the ack reports — except that it is 50 instead of 49 if one
packet out of 98 is lost, and that the number emitted is only known modulo 2^16. -/
theorem C51_adaptive_rate_partial {pre mid : List EAct} {e1 e2 e3 : Enc} {p : List Byte} {n : Nat}
    (hpre : pre = [] ∨ ∃ q a, pre = q ++ [.packet a] ∧ accepts a = true)
    (h1 : Enc.init.after gf ieee dbg pre = .ok e1) (hmid : ∀ a, EAct.packet a ∈ mid → accepts a = false)
    (h2 : e1.after gf ieee dbg mid = .ok e2) (had : adaptiveSet (pre ++ mid) = true)
    (h3 : e2.notify ieee dbg p = .ok (e3, .ok n)) (hlt : e2.out.length - e1.out.length < 2 ^ 16)
    (h98 : e2.out.length - e1.out.length ≠ 98 * (e2.out.length - e1.out.length - reportedBy p)) :
    e3.rate = adaptiveRate (e2.out.length - e1.out.length) (reportedBy p) := by
  have ha : e2.adaptive = true := by rw [(settings_after (after_append_of h1 h2)).2.2]; exact had
  have hs := (sent_after (sent_zero hpre h1) hmid h2).2
  rw [Nat.mod_eq_of_lt hlt] at hs
  have := ack_rate (dbg := dbg) ha (by rw [hs]; exact hlt) h3
  rw [this, hs]
  split
  · next hc =>
    rcases hc with hc | hc
    · exact absurd hc h98
    · rw [hc]; simp [adaptiveRate]
  · rfl

/-- **C51.** What happens in the excepted case. -/
theorem C51_one_in_98 {pre mid : List EAct} {e1 e2 e3 : Enc} {p : List Byte} {n : Nat}
    (hpre : pre = [] ∨ ∃ q a, pre = q ++ [.packet a] ∧ accepts a = true)
    (h1 : Enc.init.after gf ieee dbg pre = .ok e1) (hmid : ∀ a, EAct.packet a ∈ mid → accepts a = false)
    (h2 : e1.after gf ieee dbg mid = .ok e2) (had : adaptiveSet (pre ++ mid) = true)
    (h3 : e2.notify ieee dbg p = .ok (e3, .ok n)) (hlt : e2.out.length - e1.out.length < 2 ^ 16)
    (h98 : e2.out.length - e1.out.length = 98 * (e2.out.length - e1.out.length - reportedBy p)) :
    e3.rate = 50 := by
  have ha : e2.adaptive = true := by rw [(settings_after (after_append_of h1 h2)).2.2]; exact had
  have hs := (sent_after (sent_zero hpre h1) hmid h2).2
  rw [Nat.mod_eq_of_lt hlt] at hs
  rw [ack_rate (dbg := dbg) ha (by rw [hs]; exact hlt) h3, hs, if_pos (.inl h98)]

/-! ## C28, with the numbers that the encoder has -/

/-- **C28.** In adaptive mode an ack sets the rate to 50 if it reports that less than one in a hundred packets was lost, none or none sent included.
For all states of an encoder; the number of packets sent is a `uint16_t`. -/
theorem C28_low_loss {e e' : Enc} {p : List Byte} {n : Nat} (ha : e.adaptive = true) (hs : e.nbSentPackets < 2 ^ 16)
    (h : e.notify ieee dbg p = .ok (e', .ok n)) (hl : 100 * (e.nbSentPackets - reportedBy p) < e.nbSentPackets ∨ e.nbSentPackets ≤ reportedBy p) :
    e'.rate = 50 := by
  rw [ack_rate (dbg := dbg) ha hs h]
  split
  · rfl
  · rw [adaptiveRate_eq, if_pos (by omega)]

/-- **C28.** Of two acks, the one that reports more packets sets the rate at least as high. For all states of an encoder. -/
theorem C28_more_received (hF : F.Ok) {e e₁ e₂ : Enc} {p q : List Byte} {n m : Nat} (ha : e.adaptive = true)
    (h1 : e.notify F dbg p = .ok (e₁, .ok n)) (h2 : e.notify F dbg q = .ok (e₂, .ok m)) (hpq : reportedBy p ≤ reportedBy q) :
    e₁.rate ≤ e₂.rate := by
  obtain ⟨a, _, -, g1, rfl⟩ := notify_accepts h1
  obtain ⟨b, _, -, g2, rfl⟩ := notify_accepts h2
  rw [← readAck_reported g1, ← readAck_reported g2] at hpq
  simp only [Enc.applyAck, Enc.gotAck, ha, if_true]
  split
  · next hs => exact C28_antitone hF _ _ _ hs hpq
  · exact Nat.le_refl _

/-- 150 packets sent: one lost, or two. -/
example (dbg : Bool) : (Enc.init.after gf8 ieee dbg ([.setAdaptive true, .setRate 1000] ++ List.replicate 150 (.commit [0]))).toOption.map (fun e =>
      (e.adaptive, e.nbSentPackets, (e.notify ieee dbg [0, 0, 149, 0, 0]).toOption.map (fun x => x.1.rate),
        (e.notify ieee dbg [0, 0, 148, 0, 0]).toOption.map (fun x => x.1.rate))) = some (true, 150, some 50, some 38) := by
  revert dbg; decide +kernel

/-- The beginning of a history in adaptive mode: `k` commits and no repair. -/
def quietHist (k : Nat) : List EAct := [.setAdaptive true, .setRate 1000] ++ List.replicate k (.commit [0])

/-- **C51 fails**: 98 packets sent, 97 received, and the rate is 50, not 98 / 2 = 49. -/
theorem C51_false (dbg : Bool) : ∃ e2 e3 : Enc, Enc.init.after gf8 ieee dbg (quietHist 98) = .ok e2 ∧
    (∃ n, e2.notify ieee dbg [0, 0, 97, 0, 0] = .ok (e3, .ok n)) ∧ e2.out.length = 98 ∧ reportedBy [0, 0, 97, 0, 0] = 97 ∧
    adaptiveRate 98 97 = 49 ∧ e3.rate = 50 := by
  obtain ⟨e2, h2, hl⟩ : ∃ e2, Enc.init.after gf8 ieee dbg (quietHist 98) = .ok e2 ∧ e2.out.length = 98 := by
    have h : ((Enc.init.after gf8 ieee dbg (quietHist 98)).map (·.out.length)).toOption = some 98 := by
      revert dbg; decide +kernel
    match hx : Enc.init.after gf8 ieee dbg (quietHist 98), h with
    | .ok e, h => exact ⟨e, rfl, by simpa [Except.map, Except.toOption] using h⟩
    | .error x, h => simp [Except.map, Except.toOption] at h
  obtain ⟨ht, a, n, hr⟩ := (accepts_iff [0, 0, 97, 0, 0]).1 (by decide +kernel)
  have h3 : e2.notify ieee dbg [0, 0, 97, 0, 0] = .ok (e2.gotAck.applyAck ieee a, .ok n) := by
    rw [Enc.notify_of_ack ieee dbg e2 ht, hr]
  have hz : Enc.init.out.length = 0 := rfl
  refine ⟨e2, _, h2, ⟨n, h3⟩, hl, by decide, by decide +kernel, ?_⟩
  refine C51_one_in_98 (pre := []) (.inl rfl) rfl ?_ h2 ?_ h3 ?_ ?_
  · intro a ha
    have hn : EAct.packet a ∉ quietHist 98 := by
      simp [quietHist]
    exact absurd ha hn
  · decide +kernel
  · rw [hl, hz]; decide
  · rw [hl, hz]; decide

/-- Ten packets sent, seven received: a repair every two sources. -/
example (dbg : Bool) (e2 e3 : Enc) (n : Nat) (h2 : Enc.init.after gf8 ieee dbg (quietHist 10) = .ok e2)
    (hl : e2.out.length = 10) (h3 : e2.notify ieee dbg [0, 0, 7, 0, 0] = .ok (e3, .ok n)) : e3.rate = 2 := by
  have hz : Enc.init.out.length = 0 := rfl
  rw [C51_adaptive_rate_partial (pre := []) (.inl rfl) rfl (by
    intro a ha
    have hn : EAct.packet a ∉ quietHist 10 := by simp [quietHist]
    exact absurd ha hn) h2 (by decide +kernel) h3 (by rw [hl, hz]; decide) (by rw [hl, hz]; decide), hl, hz]
  decide +kernel

example : ((Enc.init.after gf8 ieee true (quietHist 10)).map (·.out.length)).toOption = some 10 ∧
    accepts [0, 0, 7, 0, 0] = true := by decide +kernel

/-- One source and `k` repairs. -/
def repairsHist (k : Nat) : List EAct := [.setAdaptive true, .commit [0]] ++ List.replicate k .repair

theorem repairsHist_ok (dbg : Bool) (k : Nat) : ∃ e, Enc.init.after gf8 ieee dbg (repairsHist k) = .ok e ∧
    e.out.length = k + 1 ∧ e.window ≠ 0 := by
  induction k with
  | zero =>
    have h : ((Enc.init.after gf8 ieee dbg (repairsHist 0)).map (fun e => (e.out.length, e.window))).toOption =
        some (1, 1) := by revert dbg; decide +kernel
    match hx : Enc.init.after gf8 ieee dbg (repairsHist 0), h with
    | .ok e, h =>
      have h' : (e.out.length, e.window) = (1, 1) := by simpa [Except.map, Except.toOption] using h
      exact ⟨e, rfl, (Prod.mk.inj h').1, by rw [(Prod.mk.inj h').2]; decide⟩
    | .error x, h => simp [Except.map, Except.toOption] at h
  | succ k ih =>
    obtain ⟨e, h1, h2, h3⟩ := ih
    have hc : commitsOf (repairsHist k) = [[0]] := by
      have : ∀ k, commitsOf (List.replicate k .repair) = [] := by
        intro k
        induction k with
        | zero => rfl
        | succ k ih => rw [List.replicate_succ]; exact ih
      rw [repairsHist, commitsOf_append, this]; rfl
    obtain ⟨e', r, h4, h5, -⟩ := C41_repair_partial (by decide) (by rw [hc]; decide) (by
      rw [hc]; intro d hd; rw [List.mem_singleton.1 hd]; decide) h1 h3
    refine ⟨e', ?_, by rw [h5]; simp [h2], ?_⟩
    · have : repairsHist (k + 1) = repairsHist k ++ [.repair] := by
        simp [repairsHist, List.replicate_succ']
      rw [this]
      apply after_append_of h1
      simp [Enc.after, Enc.act, h4, bind, Except.bind, pure, Except.pure]
    · obtain ⟨r', -, rfl⟩ := generateRepair_inv h4
      exact h3

/-- **C51 fails** as well when 2^16 packets are emitted between two acks: all of them are lost and the rate is 50, the one
for no loss, not 1. -/
theorem C51_wrap_false (dbg : Bool) : ∃ e2 e3 : Enc, Enc.init.after gf8 ieee dbg (repairsHist 65535) = .ok e2 ∧
    (∃ n, e2.notify ieee dbg [0, 0, 0, 0, 0] = .ok (e3, .ok n)) ∧ e2.out.length = 65536 ∧ reportedBy [0, 0, 0, 0, 0] = 0 ∧
    adaptiveRate 65536 0 = 1 ∧ e3.rate = 50 := by
  obtain ⟨e2, h2, hl, -⟩ := repairsHist_ok dbg 65535
  obtain ⟨ht, a, n, hr⟩ := (accepts_iff [0, 0, 0, 0, 0]).1 (by decide +kernel)
  have h3 : e2.notify ieee dbg [0, 0, 0, 0, 0] = .ok (e2.gotAck.applyAck ieee a, .ok n) := by
    rw [Enc.notify_of_ack ieee dbg e2 ht, hr]
  refine ⟨e2, _, h2, ⟨n, h3⟩, hl, by decide, by decide +kernel, ?_⟩
  have hnp : ∀ p, EAct.packet p ∈ repairsHist 65535 → accepts p = false := by
    intro p hp
    rw [repairsHist, List.mem_append, List.mem_replicate] at hp
    rcases hp with hp | ⟨-, hp⟩
    · simp at hp
    · cases hp
  have hs := (sent_after (e1 := Enc.init) rfl hnp h2).2
  rw [hl, show Enc.init.out.length = 0 from rfl] at hs
  have hs0 : e2.nbSentPackets = 0 := by rw [hs]; decide
  have ha : e2.adaptive = true := by
    rw [(settings_after h2).2.2]
    have : ∀ k, adaptiveSet (repairsHist k) = true := by
      intro k
      induction k with
      | zero => rfl
      | succ k ih =>
        rw [← ih, repairsHist, List.replicate_succ', ← List.append_assoc]
        simp only [adaptiveSet, repairsHist, List.filterMap_append]
        simp
    exact this _
  rw [ack_rate (dbg := dbg) ha (by rw [hs0]; decide) h3, if_pos (.inr hs0)]

end Netcode
