import Verif.Proofs.Wire
import Verif.Proofs.DecFrame
import Verif.Model.System

/-!
# Packets given to an encoder or a decoder

Equations for `operator()(packet&&)` by type of packet, and what the readers do on arbitrary bytes.
-/

namespace Netcode

variable {w : Nat}

/-! ## Readers on arbitrary bytes -/

theorem good_total {α : Type} {R : Reader α} (hR : GoodReader R) (p : List Byte) :
    (∃ a c, R p (whole p) = .ok (a, c) ∧ c.pos ≤ p.length) ∨ R p (whole p) = .error (.cpp .overflow) := by
  cases h : R p (whole p) with
  | error e => rw [hR.err (safe_whole p) h]; exact Or.inr rfl
  | ok x =>
    obtain ⟨a, c⟩ := x
    have := (hR.safe (safe_whole p) h).1
    unfold Safe at this
    exact Or.inl ⟨a, c, rfl, by omega⟩

theorem good_trunc {α : Type} {R : Reader α} (hR : GoodReader R) {p : List Byte} {a : α} {c : Cur}
    (h : R p (whole p) = .ok (a, c)) {k : Nat} (hk : k < c.pos) :
    R (p.take k) (whole (p.take k)) = .error (.cpp .overflow) := by
  have hs := (hR.safe (safe_whole p) h).1
  unfold Safe at hs
  have := (hR.trunc k (safe_whole p) h (by simp [whole]) (by omega)).2 hk
  rw [show whole (p.take k) = ⟨(whole p).pos, k - (whole p).pos⟩ by
    simp only [whole, List.length_take, Nat.sub_zero, Cur.mk.injEq, true_and]; omega]
  exact this

theorem readSource_total (p : List Byte) :
    (∃ a n, readSource p = .ok (a, n) ∧ n ≤ p.length) ∨ readSource p = .error (.cpp .overflow) := by
  rw [readSource_eq]
  rcases good_total goodHead p with ⟨a, c, h, hc⟩ | h
  · rw [h]; exact Or.inl ⟨_, _, rfl, hc⟩
  · rw [h]; exact Or.inr rfl

theorem readRepair_total (p : List Byte) :
    (∃ a n, readRepair p = .ok (a, n) ∧ n ≤ p.length) ∨ readRepair p = .error (.cpp .overflow) := by
  rw [readRepair_eq]
  rcases good_total goodRepair p with ⟨a, c, h, hc⟩ | h
  · rw [h]; exact Or.inl ⟨_, _, rfl, hc⟩
  · rw [h]; exact Or.inr rfl

theorem readAck_total (p : List Byte) :
    (∃ a n, readAck p = .ok (a, n) ∧ n ≤ p.length) ∨ readAck p = .error (.cpp .overflow) := by
  rw [readAck_eq]
  rcases good_total goodAck p with ⟨a, c, h, hc⟩ | h
  · rw [h]; exact Or.inl ⟨_, _, rfl, hc⟩
  · rw [h]; exact Or.inr rfl

theorem map_ok_inv {α β : Type} {x : PM α} {f : α → β} {b : β} (h : x.map f = .ok b) : ∃ a, x = .ok a ∧ f a = b := by
  cases x with
  | error e => cases h
  | ok a => exact ⟨a, rfl, by simpa [Except.map] using h⟩

theorem rbind_inv {α β : Type} {R : Reader α} {f : α → Reader β} {p : List Byte} {c : Cur} {b : β} {c' : Cur}
    (h : rbind R f p c = .ok (b, c')) : ∃ a c1, R p c = .ok (a, c1) ∧ f a p c1 = .ok (b, c') := by
  unfold rbind at h
  cases hr : R p c with
  | error e => rw [hr] at h; cases h
  | ok x => obtain ⟨a, c1⟩ := x; rw [hr] at h; exact ⟨a, c1, rfl, h⟩

theorem readInt_inv {p : List Byte} {k : Nat} {c c' : Cur} {v : Nat} (h : readInt p k c = .ok (v, c')) :
    v = beNat ((p.drop c.pos).take k) ∧ c'.pos = c.pos + k := by
  unfold readInt at h
  split at h
  · cases h
  · split at h
    · cases h
    · cases h; exact ⟨rfl, rfl⟩

theorem head_inv {p : List Byte} {id sz : Nat} {c : Cur} (h : headReader p (whole p) = .ok ((id, sz), c)) :
    c.pos = 7 + sz ∧ sz = beNat ((p.drop 5).take 2) ∧ 7 + sz ≤ p.length := by
  have hsafe := (goodHead.safe (safe_whole p) h).1
  unfold Safe at hsafe
  unfold headReader at h
  obtain ⟨_, c1, h1, h⟩ := rbind_inv h
  obtain ⟨i, c2, h2, h⟩ := rbind_inv h
  obtain ⟨z, c3, h3, h⟩ := rbind_inv h
  obtain ⟨_, c4, h4, h⟩ := rbind_inv h
  cases h
  have e1 := (readInt_inv h1).2
  have e2 := (readInt_inv h2).2
  have e3 := readInt_inv h3
  have e4 : c.pos = c3.pos + sz := by
    simp only [skip] at h4
    split at h4
    · cases h4
    · cases h4; rfl
  simp only [whole] at e1
  have hp : c2.pos = 5 := by omega
  rw [hp] at e3
  exact ⟨by omega, e3.1, by omega⟩

theorem readSource_trunc {p : List Byte} {a : DSource} {n k : Nat} (h : readSource p = .ok (a, n)) (hk : k < n) :
    readSource (p.take k) = .error (.cpp .overflow) := by
  rw [readSource_eq] at h
  obtain ⟨⟨x, c⟩, h1, h2⟩ := map_ok_inv h
  cases h2
  rw [readSource_eq, good_trunc goodHead h1 hk]; rfl

theorem readRepair_trunc {p : List Byte} {a : DRepair} {n k : Nat} (h : readRepair p = .ok (a, n)) (hk : k < n) :
    readRepair (p.take k) = .error (.cpp .overflow) := by
  rw [readRepair_eq] at h
  obtain ⟨⟨x, c⟩, h1, h2⟩ := map_ok_inv h
  cases h2
  rw [readRepair_eq, good_trunc goodRepair h1 hk]; rfl

theorem readAck_trunc {p : List Byte} {a : Ack} {n k : Nat} (h : readAck p = .ok (a, n)) (hk : k < n) :
    readAck (p.take k) = .error (.cpp .overflow) := by
  rw [readAck_eq] at h
  obtain ⟨⟨x, c⟩, h1, h2⟩ := map_ok_inv h
  cases h2
  rw [readAck_eq, good_trunc goodAck h1 hk]; rfl

theorem getPacketType_take {p : List Byte} {k : Nat} (hk : 0 < k) : getPacketType (p.take k) = getPacketType p := by
  cases p with
  | nil => simp
  | cons a t => cases k with
    | zero => cases hk
    | succ k => rfl

theorem ne_nil_of_type {p : List Byte} {t : PType} (h : getPacketType p = .ok t) : p ≠ [] := by
  rintro rfl; cases h

/-- The type of a non-empty packet. -/
theorem getPacketType_total {p : List Byte} (h : p ≠ []) :
    (∃ t, getPacketType p = .ok t) ∨ getPacketType p = .error (.cpp .packetType) := by
  cases p with
  | nil => exact absurd rfl h
  | cons a t =>
    unfold getPacketType
    simp only
    split
    · exact Or.inl ⟨_, rfl⟩
    · split
      · exact Or.inl ⟨_, rfl⟩
      · split
        · exact Or.inl ⟨_, rfl⟩
        · exact Or.inr rfl

theorem cassert_ok (dbg : Bool) {b : Bool} (h : b = true) : cassert dbg b = .ok () := by
  subst h; cases dbg <;> rfl

theorem len_ne {p : List Byte} (h : p ≠ []) : decide (p.length ≠ 0) = true := by
  simpa using h

/-! ## Encoder -/

/-- The state after an ack was recognized. -/
def Enc.gotAck (e : Enc) : Enc := { e with nbAcks := e.nbAcks + 1 }

/-- The effect of an ack. -/
def Enc.applyAck (F : F64) (e : Enc) (a : Ack) : Enc :=
  { e with
    rate := if e.adaptive then
        if e.nbSentPackets > 0 then rateForLoss F (lossRate F e.nbSentPackets a.nbPackets) else rateForLoss F 0
      else e.rate
    nbSentPackets := 0
    sources := eraseIds e.sources a.ids }

theorem Enc.notify_of_ack (F : F64) (dbg : Bool) (e : Enc) {p : List Byte} (h : getPacketType p = .ok .ack) :
    e.notify F dbg p = match readAck p with
      | .error (.fault f) => .error f
      | .error (.cpp x) => .ok (e.gotAck, .error x)
      | .ok (a, n) => .ok (e.gotAck.applyAck F a, .ok n) := by
  unfold Enc.notify
  rw [cassert_ok _ (len_ne (ne_nil_of_type h)), h]
  simp only [bind, Except.bind]
  rcases readAck p with (_ | _) | ⟨_, _⟩ <;> rfl

theorem Enc.notify_of_other (F : F64) (dbg : Bool) (e : Enc) {p : List Byte} (hp : p ≠ [])
    (h : getPacketType p ≠ .ok .ack) : e.notify F dbg p = .ok (e, .error .packetType) := by
  unfold Enc.notify
  rw [cassert_ok _ (len_ne hp)]
  rcases getPacketType_total hp with ⟨t, ht⟩ | ht
  · rw [ht]
    cases t with
    | ack => exact absurd ht h
    | _ => rfl
  · rw [ht]; rfl

/-! ## Decoder -/

/-- The state after a source was recognized. -/
def NDec.gotSource (d : NDec) : NDec :=
  { d with nbSources := d.nbSources + 1, ackPackets := (d.ackPackets + 1) % 2 ^ 16 }

/-- The state after a repair was recognized. -/
def NDec.gotRepair (d : NDec) : NDec :=
  { d with nbRepairs := d.nbRepairs + 1, ackPackets := (d.ackPackets + 1) % 2 ^ 16 }

theorem NDec.notify_of_source (gf : GF w) (dbg : Bool) (clk : Clock) (d : NDec) {p : List Byte}
    (h : getPacketType p = .ok .source) :
    d.notify gf dbg clk p = match readSource p with
      | .error (.fault f) => .error f
      | .error (.cpp x) => .ok (d.gotSource, .error x)
      | .ok (s, n) => (d.det.onSource gf dbg s).map (fun det' => (d.gotSource.afterDet clk det', .ok n)) := by
  unfold NDec.notify
  rw [cassert_ok _ (len_ne (ne_nil_of_type h)), h]
  simp only [bind, Except.bind]
  rcases readSource p with (_ | _) | ⟨a, n⟩
  · rfl
  · rfl
  · simp only
    cases d.det.onSource gf dbg a <;> rfl

theorem NDec.notify_of_repair (gf : GF w) (dbg : Bool) (clk : Clock) (d : NDec) {p : List Byte}
    (h : getPacketType p = .ok .repair) :
    d.notify gf dbg clk p = match readRepair p with
      | .error (.fault f) => .error f
      | .error (.cpp x) => .ok (d.gotRepair, .error x)
      | .ok (r, n) => (d.det.onRepair gf dbg r).map (fun det' => (d.gotRepair.afterDet clk det', .ok n)) := by
  unfold NDec.notify
  rw [cassert_ok _ (len_ne (ne_nil_of_type h)), h]
  simp only [bind, Except.bind]
  rcases readRepair p with (_ | _) | ⟨a, n⟩
  · rfl
  · rfl
  · simp only
    cases d.det.onRepair gf dbg a <;> rfl

theorem NDec.notify_of_other (gf : GF w) (dbg : Bool) (clk : Clock) (d : NDec) {p : List Byte} (hp : p ≠ [])
    (h1 : getPacketType p ≠ .ok .source) (h2 : getPacketType p ≠ .ok .repair) :
    d.notify gf dbg clk p = .ok (d, .error .packetType) := by
  unfold NDec.notify
  rw [cassert_ok _ (len_ne hp)]
  rcases getPacketType_total hp with ⟨t, ht⟩ | ht
  · rw [ht]
    cases t with
    | ack => rfl
    | source => exact absurd ht h1
    | repair => exact absurd ht h2
  · rw [ht]; rfl

end Netcode
