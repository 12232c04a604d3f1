import Verif.Model.Basic

/-! # Numbers as they are typed -/

namespace Netcode

/-- `s` is the number `n` in decimal digits; zeros in front are allowed. -/
def IsDec (s : List Byte) (n : Nat) : Prop :=
  s ≠ [] ∧ (∀ b ∈ s, 48 ≤ b.toNat ∧ b.toNat ≤ 57) ∧ n = s.foldl (fun v b => 10 * v + (b.toNat - 48)) 0

/-- A word of the command line, as it is typed. -/
def word (s : String) : List Byte := s.toList.map fun c => BitVec.ofNat 8 c.toNat

end Netcode
