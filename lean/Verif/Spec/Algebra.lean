import Verif.Model.Matrix

/-!
# Matrices over a field of words

Addition is xor.
-/

namespace Netcode

variable {w : Nat}

/-- `f 0 + f 1 + ... + f (n-1)` -/
def xsum (n : Nat) (f : Nat → BitVec w) : BitVec w :=
  match n with
  | 0 => 0#w
  | n + 1 => xsum n f ^^^ f n

/-- Entry (i, j) of a product of n × n matrices. -/
def prodEntry (gf : GF w) (n : Nat) (A B : Nat → Nat → BitVec w) (i j : Nat) : BitVec w :=
  xsum n (fun k => gf.mul (A i k) (B k j))

/-- `A` and `B` are inverse to each other. -/
def IsInverse (gf : GF w) (n : Nat) (A B : Nat → Nat → BitVec w) : Prop :=
  (∀ i < n, ∀ j < n, prodEntry gf n A B i j = if i = j then 1#w else 0#w) ∧
  (∀ i < n, ∀ j < n, prodEntry gf n B A i j = if i = j then 1#w else 0#w)

end Netcode
