import Verif.Model.GF

/-!
# Vocabulary of the specification

What the wire format and the code support: the conditions under which the properties hold.
-/

namespace Netcode

variable {w : Nat}

/-- Strictly increasing identifiers. -/
abbrev Sorted (l : List Nat) : Prop := l.Pairwise (· < ·)

/-- Consecutive identifiers are less than 2^16 apart. -/
def SmallGaps : List Nat → Prop
  | [] => True
  | [_] => True
  | a :: b :: t => b - a < 2 ^ 16 ∧ SmallGaps (b :: t)

instance decSmallGaps : (l : List Nat) → Decidable (SmallGaps l)
  | [] => isTrue trivial
  | [_] => isTrue trivial
  | _ :: b :: t =>
    match decSmallGaps (b :: t) with
    | isTrue h => if h2 : _ then isTrue ⟨h2, h⟩ else isFalse (fun x => h2 x.1)
    | isFalse h => isFalse (fun x => h x.2)

/-- Number of runs of at most 255 equal differences in a list that goes on after `prev`, when the current run has
the difference `gap` and the length `len`. -/
def runsFrom (prev gap len : Nat) : List Nat → Nat
  | [] => 1
  | x :: t => if x - prev = gap ∧ len < 255 then runsFrom x gap (len + 1) t else 1 + runsFrom x (x - prev) 1 t

/-- Number of runs of at most 255 equal differences between consecutive identifiers. -/
def nbRuns : List Nat → Nat
  | [] => 0
  | [_] => 0
  | a :: b :: t => runsFrom b (b - a) 1 t

/-- An identifier list the wire format can carry: consecutive identifiers less than 2^16 apart, and not too many
runs for the 16-bit counter. -/
def WireIds (ids : List Nat) : Prop :=
  Sorted ids ∧ (∀ x ∈ ids, x < 2 ^ 32) ∧ SmallGaps ids ∧ nbRuns ids + 1 < 2 ^ 16

instance (ids : List Nat) : Decidable (WireIds ids) := inferInstanceAs (Decidable (_ ∧ _ ∧ _ ∧ _))

/-- Data the encoder accepts: at most 65535 bytes, a whole number of field words. -/
def DataOk (w : Nat) (d : List Byte) : Prop := 0 < d.length ∧ d.length < 2 ^ 16 ∧ 8 * d.length % w = 0

instance (w : Nat) (d : List Byte) : Decidable (DataOk w d) := inferInstanceAs (Decidable (_ ∧ _ ∧ _))

/-- The product of a size and a coefficient fits in 16 bits.  Automatic for w ≤ 16. -/
def SizeFits (gf : GF w) (c : BitVec w) (s : BitVec 16) : Prop :=
  w = 32 → (gf.mul (s.setWidth w) c).toNat < 2 ^ 16

instance (gf : GF w) (c : BitVec w) (s : BitVec 16) : Decidable (SizeFits gf c s) :=
  inferInstanceAs (Decidable (_ → _))

end Netcode
