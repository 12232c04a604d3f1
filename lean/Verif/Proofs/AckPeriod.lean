import Verif.Model.AckPeriod
import Verif.Spec.AckPeriod
import Verif.Proofs.DecHist

/-! # The ack timer calculates exactly when the periods fit -/

namespace Netcode

variable {w : Nat}

/-- The last date is a reading of the clock, and the period fits. -/
structure Timed (clk : Clock) (d : NDec) : Prop where
  date : ∃ j, j < d.ticks ∧ d.lastAck = clk j
  period : -longestPeriod ≤ d.ackPeriod ∧ d.ackPeriod ≤ longestPeriod

theorem timed_init (clk : Clock) (io : Bool) : Timed clk (NDec.init clk io) :=
  ⟨⟨0, Nat.one_pos, rfl⟩, by simp [NDec.init, longestPeriod]⟩

theorem Timed.congr {clk : Clock} {d d' : NDec} (h : Timed clk d) (e1 : d'.ticks = d.ticks) (e2 : d'.lastAck = d.lastAck)
    (e3 : d'.ackPeriod = d.ackPeriod) : Timed clk d' :=
  ⟨by rw [e1, e2]; exact h.date, by rw [e3]; exact h.period⟩

theorem Timed.maybeAck {clk : Clock} {d : NDec} (h : Timed clk d) (held : List Nat) : Timed clk (d.maybeAckWith clk held) := by
  obtain ⟨⟨j, hj, hl⟩, hp⟩ := h
  simp only [NDec.maybeAckWith]
  split
  · exact ⟨⟨d.ticks, Nat.lt_succ_self _, rfl⟩, hp⟩
  · split
    · split
      · exact ⟨⟨d.ticks, Nat.lt_succ_self _, rfl⟩, hp⟩
      · exact ⟨⟨j, Nat.lt_succ_of_lt hj, hl⟩, hp⟩
    · exact ⟨⟨j, hj, hl⟩, hp⟩

theorem int64_ok {x : Int} (h1 : -2 ^ 63 ≤ x) (h2 : x < 2 ^ 63) : int64 x = .ok x := by
  simp only [int64, ensure, h1, h2, and_self, decide_true]; rfl

theorem int64_error {x : Int} (h : x < -2 ^ 63 ∨ 2 ^ 63 ≤ x) : int64 x = .error (.ub .overflow) := by
  have : ¬ (-2 ^ 63 ≤ x ∧ x < 2 ^ 63) := by omega
  simp only [int64, ensure, this, decide_false]; rfl

theorem Timed.elapsed {clk : Clock} (hclk : SteadyClock clk) {d : NDec} (h : Timed clk d) :
    int64 (clk d.ticks - d.lastAck) = .ok (clk d.ticks - d.lastAck) := by
  obtain ⟨⟨j, hj, hl⟩, -⟩ := h
  have h1 := hclk.range j
  have h2 := hclk.range d.ticks
  rw [hl]
  exact int64_ok (by omega) (by omega)

theorem maybeAck64 {clk : Clock} (hclk : SteadyClock clk) {d : NDec} (h : Timed clk d) (held : List Nat) :
    d.maybeAck64With clk held = .ok (d.maybeAckWith clk held) := by
  have hp := h.period
  have he := h.elapsed hclk
  simp only [longestPeriod] at hp
  simp only [NDec.maybeAck64With, NDec.maybeAckWith]
  split
  · rfl
  · split
    · rw [he, int64_ok (x := d.ackPeriod * 1000000) (by omega) (by omega)]
      simp only [bind, Except.bind]
      split <;> rfl
    · rfl

theorem afterDet64 {clk : Clock} (hclk : SteadyClock clk) {d : NDec} (h : Timed clk d) (det' : Dec) :
    d.afterDet64 clk det' = .ok (d.afterDet clk det') ∧ Timed clk (d.afterDet clk det') := by
  simp only [NDec.afterDet64, NDec.afterDet]
  have h' : Timed clk { d with det := det' } := h.congr rfl rfl rfl
  revert h'
  generalize ({ d with det := det' } : NDec) = d0
  generalize det'.log.drop d.det.log.length = l
  intro h'
  induction l generalizing d0 with
  | nil => exact ⟨rfl, h'⟩
  | cons ev t ih =>
    have h1 : Timed clk { d0 with data := d0.data ++ [ev.data] } := h'.congr rfl rfl rfl
    have h2 := ih _ (h1.maybeAck ev.held)
    simp only [List.foldlM_cons, List.foldl_cons, NDec.handleSource64, maybeAck64 hclk h1]
    exact h2

theorem act64 {gf : GF w} {dbg : Bool} {clk : Clock} (hclk : SteadyClock clk) {d : NDec} (h : Timed clk d) (a : DAct)
    (ha : ∀ ms, a = .setAckPeriod ms → -longestPeriod ≤ ms ∧ ms ≤ longestPeriod) :
    d.act64 gf dbg clk a = d.act gf dbg clk a ∧ ∀ d', d.act gf dbg clk a = .ok d' → Timed clk d' := by
  cases a with
  | genAck => exact ⟨rfl, fun d' e => by cases e; exact h.congr rfl rfl rfl⟩
  | maybeAck => exact ⟨maybeAck64 hclk h _, fun d' e => by cases e; exact h.maybeAck _⟩
  | setAckNb n =>
    refine ⟨rfl, fun d' e => ?_⟩
    simp only [NDec.act, NDec.setAckNb, bind_ok_iff, pure_ok_iff] at e
    obtain ⟨_, _, rfl⟩ := e
    exact h.congr rfl rfl rfl
  | setAckPeriod ms => exact ⟨rfl, fun d' e => by cases e; exact ⟨h.date, ha ms rfl⟩⟩
  | packet p =>
    have key : d.notify64 gf dbg clk p = d.notify gf dbg clk p ∧
        ∀ x, d.notify gf dbg clk p = .ok x → Timed clk x.1 := by
      simp only [NDec.notify64, NDec.notify]
      cases cassert dbg (p.length ≠ 0) with
      | error f => exact ⟨rfl, fun x e => by cases e⟩
      | ok _ =>
        simp only [bind, Except.bind]
        cases getPacketType p with
        | error x =>
          cases x with
          | fault f => exact ⟨rfl, fun x e => by cases e⟩
          | cpp y => exact ⟨rfl, fun x e => by cases e; exact h⟩
        | ok ty =>
          cases ty with
          | ack => exact ⟨rfl, fun x e => by cases e; exact h⟩
          | repair =>
            have h1 : Timed clk { d with nbRepairs := d.nbRepairs + 1, ackPackets := (d.ackPackets + 1) % 2 ^ 16 } :=
              h.congr rfl rfl rfl
            cases readRepair p with
            | error x =>
              cases x with
              | fault f => exact ⟨rfl, fun x e => by cases e⟩
              | cpp y => exact ⟨rfl, fun x e => by cases e; exact h1⟩
            | ok r =>
              simp only
              cases d.det.onRepair gf dbg r.1 with
              | error f => exact ⟨rfl, fun x e => by cases e⟩
              | ok det' =>
                obtain ⟨g1, g2⟩ := afterDet64 hclk h1 det'
                simp only [g1]
                exact ⟨trivial, fun x e => by cases e; exact g2⟩
          | source =>
            have h1 : Timed clk { d with nbSources := d.nbSources + 1, ackPackets := (d.ackPackets + 1) % 2 ^ 16 } :=
              h.congr rfl rfl rfl
            cases readSource p with
            | error x =>
              cases x with
              | fault f => exact ⟨rfl, fun x e => by cases e⟩
              | cpp y => exact ⟨rfl, fun x e => by cases e; exact h1⟩
            | ok r =>
              simp only
              cases d.det.onSource gf dbg r.1 with
              | error f => exact ⟨rfl, fun x e => by cases e⟩
              | ok det' =>
                obtain ⟨g1, g2⟩ := afterDet64 hclk h1 det'
                simp only [g1]
                exact ⟨trivial, fun x e => by cases e; exact g2⟩
    refine ⟨by simp only [NDec.act64, NDec.act, key.1], fun d' e => ?_⟩
    simp only [NDec.act, map_ok_iff] at e
    obtain ⟨x, e, rfl⟩ := e
    exact key.2 x e

theorem after64 {gf : GF w} {dbg : Bool} {clk : Clock} (hclk : SteadyClock clk) (acts : List DAct) (hp : PeriodsFit acts) :
    ∀ d, Timed clk d → d.after64 gf dbg clk acts = d.after gf dbg clk acts ∧
      ∀ d', d.after gf dbg clk acts = .ok d' → Timed clk d' := by
  induction acts with
  | nil => exact fun d h => ⟨rfl, fun d' e => by cases e; exact h⟩
  | cons a t ih =>
    intro d h
    obtain ⟨g1, g2⟩ := act64 (gf := gf) (dbg := dbg) hclk h a (fun ms e => hp ms (e ▸ List.mem_cons_self))
    simp only [NDec.after64, NDec.after, List.foldlM_cons, g1]
    cases hd : d.act gf dbg clk a with
    | error f => exact ⟨rfl, fun d' e => by cases e⟩
    | ok d1 => exact ih (fun ms hm => hp ms (List.mem_cons_of_mem _ hm)) d1 (g2 d1 hd)

end Netcode
