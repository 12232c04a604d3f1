import Verif.Model.NDecoder

/-!
# What can go wrong in a decoder
-/

namespace Netcode

/-- The faults that a decoder may run into, whatever it is given. Writes out of bounds and reads of matrix entries that were not
written: only without assertions. Regions that are no whole number of elements: only if the elements are longer than a byte. -/
def DecFault (w : Nat) (dbg : Bool) : Fault → Prop
  | .assertion => dbg = true
  | .ub .oobRead => True
  | .ub .dangling => True
  | .ub .derefEnd => True
  | .ub .misaligned => ¬ w ∣ 8
  | .ub .oobWrite => dbg = false
  | .ub .staleRead => dbg = false
  | _ => False

end Netcode
