import Verif.Spec.Settings
import Verif.Proofs.EncHist
import Verif.Proofs.DecHist
import Verif.Proofs.FloatRate

/-!
# Settings in a history
-/

namespace Netcode

variable {w : Nat} {gf : GF w} {F : F64} {dbg : Bool}

theorem after_append {e0 e : Enc} {a b : List EAct} (h : e0.after gf F dbg (a ++ b) = .ok e) :
    ∃ e1, e0.after gf F dbg a = .ok e1 ∧ e1.after gf F dbg b = .ok e := by
  unfold Enc.after at h
  rw [List.foldlM_append] at h
  exact (bind_ok_iff).1 h

theorem after_append_of {e0 e1 e : Enc} {a b : List EAct} (h1 : e0.after gf F dbg a = .ok e1)
    (h2 : e1.after gf F dbg b = .ok e) : e0.after gf F dbg (a ++ b) = .ok e := by
  unfold Enc.after at h1 ⊢
  rw [List.foldlM_append, h1]
  exact h2

/-- The fields of an encoder that only the setters change. -/
structure SameSet (e e' : Enc) : Prop where
  sys : e'.systematic = e.systematic
  win : e'.windowSize = e.windowSize
  ada : e'.adaptive = e.adaptive

theorem SameSet.refl (e : Enc) : SameSet e e := ⟨rfl, rfl, rfl⟩

theorem commit_same {e e' : Enc} {d : List Byte} (h : e.commit gf dbg d = .ok e') :
    SameSet e e' ∧ e'.rate = e.rate ∧ e'.nbAcks = e.nbAcks ∧
    ∃ k, e'.out.length = e.out.length + k ∧ e'.nbSentPackets = (e.nbSentPackets + k) % 2 ^ 16 := by
  obtain ⟨e1, e2, rfl, h2, h3, h4⟩ := commit_inv h
  rcases h2 with ⟨hs, rfl⟩ | ⟨hs, r, -, rfl⟩ <;> rcases h4 with ⟨-, rfl⟩ | ⟨-, r2, -, rfl⟩ <;>
    refine ⟨⟨rfl, rfl, rfl⟩, rfl, rfl, ?_⟩
  · exact ⟨1, by simp [Enc.sentSource], rfl⟩
  · exact ⟨2, by simp [Enc.sentSource, Enc.sentRepair], by simp [Enc.sentSource, Enc.sentRepair]⟩
  · exact ⟨1, by simp [Enc.sentRepair], rfl⟩
  · exact ⟨2, by simp [Enc.sentRepair], by simp [Enc.sentRepair]⟩

theorem repair_same {e e' : Enc} (h : e.generateRepair gf dbg = .ok e') :
    SameSet e e' ∧ e'.rate = e.rate ∧ e'.nbAcks = e.nbAcks ∧
    ∃ k, e'.out.length = e.out.length + k ∧ e'.nbSentPackets = (e.nbSentPackets + k) % 2 ^ 16 := by
  obtain ⟨r, -, rfl⟩ := generateRepair_inv h
  exact ⟨⟨rfl, rfl, rfl⟩, rfl, rfl, 1, by simp [Enc.sentRepair], rfl⟩

theorem packet_same {e e' : Enc} {p : List Byte} (h : e.act gf F dbg (.packet p) = .ok e') : SameSet e e' := by
  rcases packet_inv h with rfl | ⟨-, rfl⟩ | ⟨a, n, -, -, rfl⟩ <;> exact ⟨rfl, rfl, rfl⟩

/-- The settings after a history. -/
theorem settings_after {acts : List EAct} {e : Enc} (h : Enc.init.after gf F dbg acts = .ok e) :
    e.systematic = systematicSet acts ∧ e.windowSize = windowSet acts ∧ e.adaptive = adaptiveSet acts := by
  refine after_induct (gf := gf) (F := F) (dbg := dbg) (Q := fun acts e =>
    e.systematic = systematicSet acts ∧ e.windowSize = windowSet acts ∧ e.adaptive = adaptiveSet acts) _ ?_ ?_ acts e h
  · exact ⟨rfl, rfl, rfl⟩
  · rintro acts e a e' - ⟨h1, h2, h3⟩ ha
    have keep : SameSet e e' → systematicSet (acts ++ [a]) = systematicSet acts → windowSet (acts ++ [a]) = windowSet acts →
        adaptiveSet (acts ++ [a]) = adaptiveSet acts → e'.systematic = systematicSet (acts ++ [a]) ∧
        e'.windowSize = windowSet (acts ++ [a]) ∧ e'.adaptive = adaptiveSet (acts ++ [a]) := by
      intro hs k1 k2 k3
      rw [k1, k2, k3, hs.sys, hs.win, hs.ada]; exact ⟨h1, h2, h3⟩
    cases a with
    | commit d => exact keep (commit_same ha).1 (by simp [systematicSet]) (by simp [windowSet]) (by simp [adaptiveSet])
    | repair => exact keep (repair_same ha).1 (by simp [systematicSet]) (by simp [windowSet]) (by simp [adaptiveSet])
    | packet p => exact keep (packet_same ha) (by simp [systematicSet]) (by simp [windowSet]) (by simp [adaptiveSet])
    | setRate n =>
      simp only [Enc.act, Enc.setRate, bind_ok_iff, pure_ok_iff] at ha
      obtain ⟨_, _, rfl⟩ := ha
      exact keep ⟨rfl, rfl, rfl⟩ (by simp [systematicSet]) (by simp [windowSet]) (by simp [adaptiveSet])
    | setWindow n =>
      simp only [Enc.act, Enc.setWindowSize, bind_ok_iff, pure_ok_iff] at ha
      obtain ⟨_, _, rfl⟩ := ha
      exact ⟨by simpa [systematicSet] using h1, by simp [windowSet], by simpa [adaptiveSet] using h3⟩
    | setAdaptive b =>
      cases ha
      exact ⟨by simpa [systematicSet, Enc.setAdaptive] using h1, by simpa [windowSet, Enc.setAdaptive] using h2,
        by simp [adaptiveSet, Enc.setAdaptive]⟩
    | setSystematic b =>
      cases ha
      exact ⟨by simp [systematicSet, Enc.setCodeType], by simpa [windowSet, Enc.setCodeType] using h2,
        by simpa [adaptiveSet, Enc.setCodeType] using h3⟩

/-! ## Acks -/

theorem accepts_iff (p : List Byte) : accepts p = true ↔ getPacketType p = .ok .ack ∧ ∃ a n, readAck p = .ok (a, n) := by
  by_cases hp : p = []
  · subst hp
    constructor
    · intro h; simp [accepts, Enc.notify, cassert, bind, Except.bind] at h
    · rintro ⟨h, -⟩; simp [getPacketType] at h
  · by_cases ht : getPacketType p = .ok .ack
    · unfold accepts
      rw [Enc.notify_of_ack ieee true _ ht]
      rcases readAck_total p with ⟨a, n, h1, -⟩ | h1
      · rw [h1]; simp [ht]
      · rw [h1]; simp
    · unfold accepts
      rw [Enc.notify_of_other ieee true _ hp ht]
      simp [ht]

theorem notify_accepts {e e' : Enc} {p : List Byte} {n : Nat} (h : e.notify F dbg p = .ok (e', .ok n)) :
    ∃ a m, getPacketType p = .ok .ack ∧ readAck p = .ok (a, m) ∧ e' = e.gotAck.applyAck F a := by
  have hp : p ≠ [] := by
    rintro rfl
    cases dbg <;> simp [Enc.notify, cassert, getPacketType, bind, Except.bind] at h
  by_cases ht : getPacketType p = .ok .ack
  · rw [Enc.notify_of_ack F dbg e ht] at h
    rcases readAck_total p with ⟨a, m, h1, -⟩ | h1
    · rw [h1] at h
      cases h
      exact ⟨a, _, ht, h1, rfl⟩
    · rw [h1] at h; cases h
  · rw [Enc.notify_of_other F dbg e hp ht] at h; cases h

/-- A packet that is not accepted changes nothing but the number of acks. -/
theorem packet_rejected {e e' : Enc} {p : List Byte} (hr : accepts p = false) (h : e.act gf F dbg (.packet p) = .ok e') :
    e'.rate = e.rate ∧ e'.nbSentPackets = e.nbSentPackets ∧ e'.out = e.out := by
  rcases packet_inv h with rfl | ⟨-, rfl⟩ | ⟨a, n, h1, h2, rfl⟩
  · exact ⟨rfl, rfl, rfl⟩
  · exact ⟨rfl, rfl, rfl⟩
  · rw [(accepts_iff p).2 ⟨h1, a, n, h2⟩] at hr; cases hr

/-- The packets counted since an ack. -/
theorem sent_after {e1 : Enc} (h0 : e1.nbSentPackets = 0) {acts : List EAct} {e : Enc}
    (hr : ∀ p, EAct.packet p ∈ acts → accepts p = false) (h : e1.after gf F dbg acts = .ok e) :
    e1.out.length ≤ e.out.length ∧ e.nbSentPackets = (e.out.length - e1.out.length) % 2 ^ 16 := by
  refine after_induct (gf := gf) (F := F) (dbg := dbg) (Q := fun acts e =>
    (∀ p, EAct.packet p ∈ acts → accepts p = false) → e1.out.length ≤ e.out.length ∧
      e.nbSentPackets = (e.out.length - e1.out.length) % 2 ^ 16) _ ?_ ?_ acts e h hr
  · intro _; simp [h0]
  · intro acts e a e' _ ih ha hr
    obtain ⟨i1, i2⟩ := ih (fun p hp => hr p (List.mem_append_left _ hp))
    have more : (∃ k, e'.out.length = e.out.length + k ∧ e'.nbSentPackets = (e.nbSentPackets + k) % 2 ^ 16) →
        e1.out.length ≤ e'.out.length ∧ e'.nbSentPackets = (e'.out.length - e1.out.length) % 2 ^ 16 := by
      rintro ⟨k, k1, k2⟩
      rw [k2, k1, i2]; omega
    have same : e'.out = e.out → e'.nbSentPackets = e.nbSentPackets →
        e1.out.length ≤ e'.out.length ∧ e'.nbSentPackets = (e'.out.length - e1.out.length) % 2 ^ 16 := by
      intro k1 k2; rw [k2, k1]; exact ⟨i1, i2⟩
    cases a with
    | commit d => exact more (commit_same ha).2.2.2
    | repair => exact more (repair_same ha).2.2.2
    | packet p =>
      obtain ⟨-, k2, k3⟩ := packet_rejected (hr p (by simp)) ha
      exact same k3 k2
    | setRate n =>
      simp only [Enc.act, Enc.setRate, bind_ok_iff, pure_ok_iff] at ha
      obtain ⟨_, _, rfl⟩ := ha
      exact same rfl rfl
    | setWindow n =>
      simp only [Enc.act, Enc.setWindowSize, bind_ok_iff, pure_ok_iff] at ha
      obtain ⟨_, _, rfl⟩ := ha
      exact same rfl rfl
    | setAdaptive b => cases ha; exact same rfl rfl
    | setSystematic b => cases ha; exact same rfl rfl

/-- The counter is zero at the beginning and after an accepted ack. -/
theorem sent_zero {pre : List EAct} {e : Enc} (hpre : pre = [] ∨ ∃ q a, pre = q ++ [.packet a] ∧ accepts a = true)
    (h : Enc.init.after gf F dbg pre = .ok e) : e.nbSentPackets = 0 := by
  rcases hpre with rfl | ⟨q, a, rfl, hacc⟩
  · cases h; rfl
  · obtain ⟨e1, -, h2⟩ := after_append h
    unfold Enc.after at h2
    rw [List.foldlM_cons] at h2
    obtain ⟨e2, h3, h4⟩ := (bind_ok_iff).1 h2
    cases h4
    obtain ⟨k1, ack, n, k2⟩ := (accepts_iff a).1 hacc
    simp only [Enc.act] at h3
    rw [Enc.notify_of_ack F dbg e1 k1, k2] at h3
    cases h3
    rfl

theorem rate_after {acts : List EAct} {e1 e : Enc} (hs : ∀ n, EAct.setRate n ∉ acts)
    (hr : (∀ p, EAct.packet p ∈ acts → accepts p = false) ∨ (e1.adaptive = false ∧ EAct.setAdaptive true ∉ acts))
    (h : e1.after gf F dbg acts = .ok e) : e.rate = e1.rate := by
  refine (after_induct (gf := gf) (F := F) (dbg := dbg) (Q := fun acts e =>
    (∀ n, EAct.setRate n ∉ acts) → ((∀ p, EAct.packet p ∈ acts → accepts p = false) ∨
      (e1.adaptive = false ∧ EAct.setAdaptive true ∉ acts)) → e.rate = e1.rate ∧
      (e1.adaptive = false → EAct.setAdaptive true ∉ acts → e.adaptive = false)) _ ?_ ?_ acts e h hs hr).1
  · intro _ _; exact ⟨rfl, fun h _ => h⟩
  · intro acts e a e' _ ih ha hs hr
    obtain ⟨i1, i2⟩ := ih (fun n hn => hs n (List.mem_append_left _ hn)) (by
      rcases hr with hr | ⟨hr, hr'⟩
      · exact .inl fun p hp => hr p (List.mem_append_left _ hp)
      · exact .inr ⟨hr, fun hh => hr' (List.mem_append_left _ hh)⟩)
    have keep : e'.rate = e.rate → e'.adaptive = e.adaptive → e'.rate = e1.rate ∧
        (e1.adaptive = false → EAct.setAdaptive true ∉ acts ++ [a] → e'.adaptive = false) := by
      intro k1 k2
      refine ⟨by rw [k1, i1], fun h1 h2 => ?_⟩
      rw [k2]; exact i2 h1 fun hh => h2 (List.mem_append_left _ hh)
    cases a with
    | commit d => exact keep (commit_same ha).2.1 (commit_same ha).1.ada
    | repair => exact keep (repair_same ha).2.1 (repair_same ha).1.ada
    | packet p =>
      refine keep ?_ (packet_same ha).ada
      rcases hr with hr | ⟨hr, hr'⟩
      · exact (packet_rejected (hr p (by simp)) ha).1
      · have hf := i2 hr fun hh => hr' (List.mem_append_left _ hh)
        rcases packet_inv ha with rfl | ⟨-, rfl⟩ | ⟨a, n, -, -, rfl⟩
        · rfl
        · rfl
        · simp [Enc.applyAck, Enc.gotAck, hf]
    | setRate n => exact absurd (by simp) (hs n)
    | setWindow n =>
      simp only [Enc.act, Enc.setWindowSize, bind_ok_iff, pure_ok_iff] at ha
      obtain ⟨_, _, rfl⟩ := ha
      exact keep rfl rfl
    | setAdaptive b =>
      cases ha
      refine ⟨i1, fun _ h2 => ?_⟩
      cases b
      · rfl
      · exact absurd (by simp) h2
    | setSystematic b => cases ha; exact keep rfl rfl

theorem acks_after {acts : List EAct} {e : Enc} (h : Enc.init.after gf F dbg acts = .ok e) : e.nbAcks = nbAcksOf acts := by
  have app : ∀ a b : List EAct, nbAcksOf (a ++ b) = nbAcksOf a + nbAcksOf b := by
    intro a b
    induction a with
    | nil => simp [nbAcksOf]
    | cons x t ih => cases x <;> simp [nbAcksOf, ih, Nat.add_assoc]
  refine after_induct (gf := gf) (F := F) (dbg := dbg) (Q := fun acts e => e.nbAcks = nbAcksOf acts) _ rfl ?_ acts e h
  intro acts e a e' _ ih ha
  rw [app]
  cases a with
  | commit d => simpa [nbAcksOf, (commit_same ha).2.2.1] using ih
  | repair => simpa [nbAcksOf, (repair_same ha).2.2.1] using ih
  | packet p =>
    have key : getPacketType p = .ok .ack ↔ p.head? = some 0#8 := by
      cases p with
      | nil => simp [getPacketType]
      | cons b t =>
        simp only [getPacketType, List.head?_cons, Option.some.injEq]
        split
        · simp_all
        · next hb =>
          refine ⟨fun hh => ?_, fun hh => absurd hh hb⟩
          split at hh
          · cases hh
          · split at hh <;> cases hh
    have hstep : e'.nbAcks = e.nbAcks + (if p.head? = some 0#8 then 1 else 0) := by
      simp only [Enc.act] at ha
      by_cases hp : p = []
      · subst hp
        cases dbg <;> simp [Enc.notify, cassert, getPacketType, Except.map, bind, Except.bind] at ha
      · by_cases ht : getPacketType p = .ok .ack
        · rw [if_pos (key.1 ht)]
          rw [Enc.notify_of_ack F dbg e ht] at ha
          rcases readAck_total p with ⟨a, n, h1, -⟩ | h1
          · rw [h1] at ha; cases ha; rfl
          · rw [h1] at ha; cases ha; rfl
        · rw [if_neg (fun hh => ht (key.2 hh))]
          rw [Enc.notify_of_other F dbg e hp ht] at ha
          cases ha; rfl
    rw [hstep, ih]; simp [nbAcksOf]
  | setRate n =>
    simp only [Enc.act, Enc.setRate, bind_ok_iff, pure_ok_iff] at ha
    obtain ⟨_, _, rfl⟩ := ha
    simpa [nbAcksOf] using ih
  | setWindow n =>
    simp only [Enc.act, Enc.setWindowSize, bind_ok_iff, pure_ok_iff] at ha
    obtain ⟨_, _, rfl⟩ := ha
    simpa [nbAcksOf] using ih
  | setAdaptive b => cases ha; simpa [nbAcksOf, Enc.setAdaptive] using ih
  | setSystematic b => cases ha; simpa [nbAcksOf, Enc.setCodeType] using ih

/-- The count of an ack is in its second and third bytes. -/
theorem readAck_reported {p : List Byte} {a : Ack} {n : Nat} (h : readAck p = .ok (a, n)) : a.nbPackets = reportedBy p := by
  rw [readAck_eq] at h
  obtain ⟨⟨a', c⟩, h1, h2⟩ := map_ok_inv h
  cases h2
  unfold ackReader at h1
  obtain ⟨_, c1, k1, h2⟩ := rbind_inv h1
  obtain ⟨nb, c2, k2, h3⟩ := rbind_inv h2
  obtain ⟨ids, _, h4, h5⟩ := rbind_inv h3
  cases h5
  simp only
  unfold readInt whole at k1
  split at k1
  · cases k1
  · cases k1
    · unfold readInt at k2
      split at k2
      · cases k2
      · split at k2
        · cases k2
        · next _ hlen =>
          cases k2
          match p, hlen with
          | b0 :: b1 :: b2 :: t, _ => simp [beNat, reportedBy]; omega
          | [], hl => exact absurd (by simp) hl
          | [_], hl => exact absurd (by simp) hl
          | [_, _], hl => exact absurd (by simp) hl

theorem ceilDiv_eq {a b : Nat} (hb : 0 < b) : ((a : Rat) / b).ceil.toNat = (a + b - 1) / b := by
  have hbq : (0 : Rat) < b := by exact_mod_cast hb
  have hdm := Nat.div_add_mod (a + b - 1) b
  have hml := Nat.mod_lt (a + b - 1) hb
  generalize (a + b - 1) % b = r at hdm hml
  generalize (a + b - 1) / b = c at hdm
  have h : ((a : Rat) / b).ceil = (c : Int) := by
    apply le_antisymm
    · rw [Rat.ceil_le_iff, div_le_iff₀ hbq]
      have : a ≤ c * b := by rw [Nat.mul_comm]; omega
      exact_mod_cast this
    · rcases Nat.eq_zero_or_pos c with h0 | h0
      · rw [h0]
        by_contra hneg
        have h1 : ((a : Rat) / b).ceil ≤ -1 := by push_cast at hneg; omega
        rw [Rat.ceil_le_iff] at h1
        have h2 : (0 : Rat) ≤ (a : Rat) / b := by positivity
        push_cast at h1
        linarith
      · have h1 : ((c - 1 : Nat) : Int) < ((a : Rat) / b).ceil := by
          rw [Rat.lt_ceil_iff, lt_div_iff₀ hbq]
          have : (c - 1) * b < a := by
            have := Nat.le_mul_of_pos_right b h0
            rw [Nat.sub_mul, Nat.one_mul, Nat.mul_comm]; omega
          exact_mod_cast this
        omega
  rw [h]; simp

theorem adaptiveRate_eq (sent nb : Nat) : adaptiveRate sent nb =
    if 100 * (sent - nb) < sent ∨ sent = 0 then 50 else (sent + 2 * (sent - nb) - 1) / (2 * (sent - nb)) := by
  unfold adaptiveRate
  simp only
  split
  · rfl
  · have h := ceilDiv_eq (a := sent) (b := 2 * (sent - nb)) (by omega)
    rw [← h]
    push_cast
    rfl

/-- The rate set by an ack. -/
theorem ack_rate {e e' : Enc} {p : List Byte} {n : Nat} (ha : e.adaptive = true) (hs : e.nbSentPackets < 2 ^ 16)
    (h : e.notify ieee dbg p = .ok (e', .ok n)) :
    e'.rate = if e.nbSentPackets = 98 * (e.nbSentPackets - reportedBy p) ∨ e.nbSentPackets = 0 then 50 else
      adaptiveRate e.nbSentPackets (reportedBy p) := by
  obtain ⟨a, m, -, h2, rfl⟩ := notify_accepts h
  have e1 : (e.gotAck.applyAck ieee a).rate = if e.nbSentPackets > 0 then
      rateForLoss ieee (lossRate ieee e.nbSentPackets a.nbPackets) else rateForLoss ieee 0 := by
    simp [Enc.applyAck, Enc.gotAck, ha]
  rw [e1, readAck_reported h2]
  by_cases h0 : e.nbSentPackets = 0
  · rw [if_neg (by omega), if_pos (.inr h0)]
    unfold rateForLoss
    rw [if_pos]
    have := ieee_ok.cent
    linarith
  · rw [if_pos (by omega), rate_exact hs (by omega), adaptiveRate_eq]
    by_cases h1 : e.nbSentPackets = 98 * (e.nbSentPackets - reportedBy p)
    · rw [if_pos (.inr h1), if_pos (.inl h1)]
    · rw [if_neg (show ¬ (e.nbSentPackets = 98 * (e.nbSentPackets - reportedBy p) ∨ e.nbSentPackets = 0) by omega)]
      simp only [h1, h0, or_false]

theorem reportedBy_lt (p : List Byte) : reportedBy p < 2 ^ 16 := by
  unfold reportedBy
  have h1 := (p.getD 1 0#8).isLt
  have h2 := (p.getD 2 0#8).isLt
  omega

/-! ## Decoders -/

theorem maybeAckWith_set (clk : Clock) (d : NDec) (held : List Nat) :
    (d.maybeAckWith clk held).ackPeriod = d.ackPeriod ∧ (d.maybeAckWith clk held).ackNb = d.ackNb := by
  unfold NDec.maybeAckWith
  split
  · exact ⟨rfl, rfl⟩
  · split
    · simp only
      split <;> exact ⟨rfl, rfl⟩
    · exact ⟨rfl, rfl⟩

theorem afterDet_set (clk : Clock) (d : NDec) (det' : Dec) :
    (d.afterDet clk det').ackPeriod = d.ackPeriod ∧ (d.afterDet clk det').ackNb = d.ackNb := by
  unfold NDec.afterDet
  generalize det'.log.drop d.det.log.length = l
  have : ∀ (l : List Event) (x : NDec), (l.foldl (NDec.handleSource clk) x).ackPeriod = x.ackPeriod ∧
      (l.foldl (NDec.handleSource clk) x).ackNb = x.ackNb := by
    intro l
    induction l with
    | nil => intro x; exact ⟨rfl, rfl⟩
    | cons ev t ih =>
      intro x
      rw [List.foldl_cons, (ih _).1, (ih _).2]
      exact maybeAckWith_set clk _ _
  exact this l _

theorem notify_set {gf : GF w} {dbg : Bool} {clk : Clock} {d d' : NDec} {p : List Byte} {r : Except CppErr Nat}
    (h : d.notify gf dbg clk p = .ok (d', r)) : d'.ackPeriod = d.ackPeriod ∧ d'.ackNb = d.ackNb := by
  cases notify_got h with
  | other => exact ⟨rfl, rfl⟩
  | badSource => exact ⟨rfl, rfl⟩
  | badRepair => exact ⟨rfl, rfl⟩
  | source => exact afterDet_set clk _ _
  | repair => exact afterDet_set clk _ _

theorem dec_settings_after {gf : GF w} {dbg : Bool} {clk : Clock} {io : Bool} {acts : List DAct} {d : NDec}
    (h : (NDec.init clk io).after gf dbg clk acts = .ok d) :
    d.ackPeriod = periodSet acts ∧ d.ackNb = min (countSet acts) 128 := by
  induction acts using List.reverseRecOn generalizing d with
  | nil => cases h; exact ⟨rfl, rfl⟩
  | append_singleton t a ih =>
    unfold NDec.after at h
    rw [List.foldlM_append] at h
    obtain ⟨d1, h1, h2⟩ := (bind_ok_iff).1 h
    rw [List.foldlM_cons] at h2
    obtain ⟨d2, h3, h4⟩ := (bind_ok_iff).1 h2
    cases h4
    obtain ⟨i1, i2⟩ := ih h1
    cases a with
    | packet p =>
      simp only [NDec.act, map_ok_iff] at h3
      obtain ⟨⟨d3, r⟩, h5, rfl⟩ := h3
      obtain ⟨k1, k2⟩ := notify_set h5
      exact ⟨by simpa [periodSet, k1] using i1, by simpa [countSet, k2] using i2⟩
    | genAck => cases h3; exact ⟨by simpa [periodSet, NDec.generateAck, NDec.generateAckWith] using i1,
        by simpa [countSet, NDec.generateAck, NDec.generateAckWith] using i2⟩
    | maybeAck =>
      cases h3
      have := maybeAckWith_set clk d1 d1.det.sources.keys
      refine ⟨?_, ?_⟩
      · show (d1.maybeAckWith clk _).ackPeriod = _
        rw [this.1, i1]; simp [periodSet]
      · show (d1.maybeAckWith clk _).ackNb = _
        rw [this.2, i2]; simp [countSet]
    | setAckNb n =>
      simp only [NDec.act, NDec.setAckNb, bind_ok_iff, pure_ok_iff] at h3
      obtain ⟨_, _, rfl⟩ := h3
      exact ⟨by simpa [periodSet] using i1, by simp [countSet]⟩
    | setAckPeriod ms =>
      cases h3
      exact ⟨by simp [periodSet, NDec.setAckPeriod], by simpa [countSet, NDec.setAckPeriod] using i2⟩

end Netcode
