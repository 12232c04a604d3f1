import Verif.Proofs.AckPeriod
import Verif.Props.Settings
import Verif.Model.CProg
import Verif.Props.Decoder

/-! # Ack periods of any length (C92) -/

namespace Netcode

variable {w : Nat} {gf : GF w} {dbg : Bool} {clk : Clock}

/-- **C92, in part.** With periods of at most 292 years the timer calculates exactly: a decoder whose clock has 64 bits does, for all calls
and packets, what one that calculates with unbounded integers does.  Missing: longer periods, see `C92_false`. -/
theorem C92_exact_partial (hclk : SteadyClock clk) (io : Bool) (acts : List DAct) (hp : PeriodsFit acts) :
    (NDec.init clk io).after64 gf dbg clk acts = (NDec.init clk io).after gf dbg clk acts :=
  (after64 hclk acts hp _ (timed_init clk io)).1

/-- **C92, in part.** With such periods, a call of `maybe_ack` sends an ack exactly when as many packets as configured have arrived since
the last one, or when the period is not zero and has elapsed since the date of the last ack. -/
theorem C92_when_partial (hclk : SteadyClock clk) {io : Bool} {acts : List DAct} (hp : PeriodsFit acts) {d : NDec}
    (h : (NDec.init clk io).after64 gf dbg clk acts = .ok d) :
    ∃ d', d.act64 gf dbg clk .maybeAck = .ok d' ∧
      d'.out.length = d.out.length +
        if min (countSet acts) 128 ≤ d.ackPackets ∨ (periodSet acts ≠ 0 ∧ periodSet acts * 1000000 ≤ clk d.ticks - d.lastAck) then 1 else 0 := by
  obtain ⟨g1, g2⟩ := after64 (gf := gf) (dbg := dbg) hclk acts hp _ (timed_init clk io)
  rw [g1] at h
  refine ⟨_, maybeAck64 hclk (g2 d h) _, ?_⟩
  obtain ⟨e1, e2⟩ := C50_decoder h
  rw [← e1, ← e2]
  simp only [NDec.maybeAckWith]
  by_cases k1 : d.ackNb ≤ d.ackPackets
  · simp [k1, NDec.generateAckWith]
  · by_cases k2 : d.ackPeriod = 0
    · simp [k1, k2]
    · by_cases k3 : d.ackPeriod * 1000000 ≤ clk d.ticks - d.lastAck
      · simp [k1, k2, k3, NDec.generateAckWith]
      · simp [k1, k2, k3]

/-- **C92 is false.** After a call of `set_ack_period` with more milliseconds than that, in either direction, as
`std::chrono::milliseconds::max()`, the next time that the timer is looked at the behaviour is undefined: for every state of the decoder
and every clock, unless as many packets as configured arrived. -/
theorem C92_false (hclk : SteadyClock clk) {io : Bool} {acts : List DAct} (hp : PeriodsFit acts) {d : NDec}
    (h : (NDec.init clk io).after64 gf dbg clk acts = .ok d) (hn : d.ackPackets < d.ackNb) (ms : Int)
    (hm : ms < -longestPeriod ∨ longestPeriod < ms) :
    d.after64 gf dbg clk [.setAckPeriod ms, .maybeAck] = .error (.ub .overflow) := by
  obtain ⟨g1, g2⟩ := after64 (gf := gf) (dbg := dbg) hclk acts hp _ (timed_init clk io)
  rw [g1] at h
  have he := (g2 d h).elapsed hclk
  have h0 : ms ≠ 0 := by rintro rfl; simp [longestPeriod] at hm
  have hn' : ¬ d.ackPackets ≥ d.ackNb := by omega
  simp only [longestPeriod] at hm
  simp only [NDec.after64, List.foldlM_cons, NDec.act64, NDec.setAckPeriod, bind, Except.bind, NDec.maybeAck64With, hn', if_false, h0,
    ne_eq, not_false_eq_true, if_true, he]
  rw [int64_error (x := ms * 1000000) (by omega)]

/-- **C92 is false of the C interface.** `ntc_decoder_set_ack_period` takes a `size_t`.  The 9223372036854 greatest ones, as `SIZE_MAX`, that
a user may think of as "never", are negative numbers of milliseconds: `maybe_ack` sends an ack each time. -/
theorem C92_false_c (c : Cfg w) (lax alloc : Bool) (hclk : SteadyClock clk) {io : Bool} {acts : List DAct} (hp : PeriodsFit acts) (t : CProg)
    (h : (NDec.init clk io).after64 gf dbg clk acts = .ok t.dec) (n : BitVec 64) (hn : 2 ^ 64 - 9223372036854 ≤ n.toNat) :
    ∃ t' d', t.call c lax alloc (.ackPeriod n) = .ok (t', 0) ∧ t'.dec.act64 gf dbg clk .maybeAck = .ok d' ∧
      d'.out.length = t.dec.out.length + 1 := by
  generalize hd : t.dec = d at h
  have hi : n.toInt = n.toNat - 2 ^ 64 := by
    rw [BitVec.toInt_eq_toNat_cond, if_neg (by omega)]; norm_num
  have hlt := n.isLt
  obtain ⟨g1, g2⟩ := after64 (gf := gf) (dbg := dbg) hclk acts hp _ (timed_init clk io)
  have h' : (NDec.init clk io).after64 gf dbg clk (acts ++ [.setAckPeriod n.toInt]) = .ok (d.setAckPeriod n.toInt) := by
    simp only [NDec.after64, List.foldlM_append] at h ⊢
    rw [h]; rfl
  have hp' : PeriodsFit (acts ++ [.setAckPeriod n.toInt]) := by
    intro ms hm
    rw [List.mem_append, List.mem_singleton] at hm
    rcases hm with hm | hm
    · exact hp ms hm
    · cases hm; simp only [longestPeriod]; omega
  obtain ⟨d', k1, k2⟩ := C92_when_partial hclk hp' h'
  refine ⟨{ t with dec := t.dec.setAckPeriod n.toInt }, d', rfl, by rw [hd]; exact k1, ?_⟩
  rw [g1] at h
  obtain ⟨⟨j, hj, hl⟩, -⟩ := g2 d h
  have hm := hclk.mono j d.ticks hj.le
  have hps : periodSet (acts ++ [.setAckPeriod n.toInt]) = n.toInt := by simp [periodSet]
  rw [k2, hps, if_pos]
  · rfl
  · right
    show n.toInt ≠ 0 ∧ n.toInt * 1000000 ≤ clk d.ticks - d.lastAck
    rw [hl]; omega

/-- A clock that advances by a millisecond each time, and calls with packets for which the timer sends acks, or not. -/
def millis : Clock := fun i => 1000000 * (min i (2 ^ 40) : Nat)

theorem millis_steady : SteadyClock millis := by
  constructor
  · intro i; simp only [millis]; omega
  · intro i j h; simp only [millis]; omega

def periodActs : List DAct :=
  [.setAckPeriod 2, .maybeAck] ++ give [0, 4] ++ [.setAckPeriod longestPeriod] ++ give [1, 2] ++ [.maybeAck, .setAckPeriod (-3), .maybeAck] ++ give [3]

example : PeriodsFit periodActs := by
  intro ms hm
  simp only [periodActs, give, List.mem_append, List.mem_cons, List.not_mem_nil, or_false, List.mem_map, longestPeriod] at hm ⊢
  simp at hm
  omega

example : ((NDec.init millis false).after64 gf8 true millis periodActs).toOption.map (fun d => (d.data.length, d.out.length)) = some (4, 2) := by
  decide +kernel

/-- A datum that arrives at a decoder with the longest period that `std::chrono::milliseconds` has. -/
example : (NDec.init millis false).after64 gf8 true millis ([.setAckPeriod (2 ^ 63 - 1)] ++ give [0]) = .error (.ub .overflow) := by
  decide +kernel

/-- With `SIZE_MAX` an ack follows each of three data. -/
example : ((NDec.init millis false).after64 gf8 true millis ([.setAckPeriod (BitVec.allOnes 64).toInt] ++ give [0, 1, 2])).toOption.map
    (fun d => (d.data.length, d.out.length)) = some (3, 3) := by
  decide +kernel

end Netcode
