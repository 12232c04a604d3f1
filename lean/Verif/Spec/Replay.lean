import Verif.Model.Replay

/-!
# Runs of a recorded decoder
-/

namespace Netcode

variable {w : Nat}

/-- All the calls returned (no exception was thrown), and led from `s` to `t`. -/
def Returned (gf : GF w) (dbg : Bool) (clk : Clock) (s : Recorder) : List RCall → Recorder → Prop
  | [], t => t = s
  | a :: l, t => ∃ m n, s.call gf dbg clk a = .ok (m, .ok n) ∧ Returned gf dbg clk m l t

/-- The two decoders handed over the same data, count the same packets, and the state of their decoding is the same.  (The acks they sent
may differ: they depend on the clock, and on the settings of the program.) -/
structure SameDecoding (d d' : NDec) : Prop where
  data : d'.data = d.data
  sources : d'.nbSources = d.nbSources
  repairs : d'.nbRepairs = d.nbRepairs
  det : d'.det = d.det

end Netcode
