import Verif.Spec.Schedule
import Verif.Model.ByteOrderDec

/-!
# Both peers on machines of the other byte order

What such a pair does is what a pair of little-endian machines does with data in which the bytes of all words are reversed.
-/

namespace Netcode

variable {w : Nat}

/-- The states that allowed calls and arrivals reach, when the encoder (`eb`) and the decoder (`db`) may be on machines of the other byte
order. -/
inductive ReachOrd (eb db : Bool) (c : Cfg w) (inOrder : Bool) : Sys → Prop
  | init : ReachOrd eb db c inOrder (Sys.init c.clk inOrder)
  | step {s s' : Sys} {a : Act} : ReachOrd eb db c inOrder s → Allowed c s a → s.stepOrd eb db c a = .ok s' → ReachOrd eb db c inOrder s'

/-- The packet with the bytes of all words of its symbol reversed. -/
def EPkt.swapped (w : Nat) : EPkt → EPkt
  | .source s => .source { s with sym := Netcode.swapped w s.sym }
  | .repair r => .repair { r with sym := Netcode.swapped w r.sym }

/-- All that can be observed is the same, except that the bytes of all words of data and of symbols are reversed. -/
structure Mirror (w : Nat) (s t : Sys) : Prop where
  committed : s.committed = t.committed.map (swapped w)
  given : s.dec.data = t.dec.data.map (swapped w)
  sent : s.enc.out = t.enc.out.map (EPkt.swapped w)
  acks : s.dec.out = t.dec.out
  arrived : s.hist = t.hist
  errors : s.errs = t.errs
  window : s.enc.sources.map (·.id) = t.enc.sources.map (·.id)
  rate : s.enc.rate = t.enc.rate
  encCounters : s.enc.nbSentRepairs = t.enc.nbSentRepairs ∧ s.enc.nbSentSources = t.enc.nbSentSources ∧ s.enc.nbAcks = t.enc.nbAcks
  decCounters : s.dec.nbRepairs = t.dec.nbRepairs ∧ s.dec.nbSources = t.dec.nbSources ∧ s.dec.nbAcks = t.dec.nbAcks
  detCounters : s.dec.det.nbDecoded = t.dec.det.nbDecoded ∧ s.dec.det.nbFailed = t.dec.det.nbFailed ∧
    s.dec.det.nbUseless = t.dec.det.nbUseless
  missing : s.dec.det.missing = t.dec.det.missing
  held : s.dec.det.sources.keys = t.dec.det.sources.keys

end Netcode
