import Verif.Spec.DecHist

/-!
# What packets say about sources
-/

namespace Netcode

/-- The packet is a whole source packet for source `x`, or a whole repair packet that lists `x`. -/
def NamedBy (p : List Byte) (x : Nat) : Prop :=
  (p.head? = some 2#8 ∧ ∃ s n, readSource p = .ok (s, n) ∧ s.id = x) ∨
  (p.head? = some 1#8 ∧ ∃ r n, readRepair p = .ok (r, n) ∧ x ∈ r.ids)

/-- The packet is a whole repair packet that lists a source, and all sources it lists are later than `x`. -/
def Passes (p : List Byte) (x : Nat) : Prop :=
  p.head? = some 1#8 ∧ ∃ r n, readRepair p = .ok (r, n) ∧ r.ids ≠ [] ∧ ∀ y ∈ r.ids, x < y

end Netcode
