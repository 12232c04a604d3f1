import Verif.Spec.Settings

/-!
# Clocks and periods
-/

namespace Netcode

/-- The readings of the clock are a number of nanoseconds of 63 bits, and do not decrease. -/
structure SteadyClock (clk : Clock) : Prop where
  range : ∀ i, 0 ≤ clk i ∧ clk i < 2 ^ 63
  mono : ∀ i j, i ≤ j → clk i ≤ clk j

/-- The greatest number of milliseconds whose number of nanoseconds has 63 bits: about 292 years. -/
def longestPeriod : Int := 9223372036854

/-- The calls set no period longer than that, in one direction or the other. -/
def PeriodsFit (acts : List DAct) : Prop :=
  ∀ ms, DAct.setAckPeriod ms ∈ acts → -longestPeriod ≤ ms ∧ ms ≤ longestPeriod

end Netcode
