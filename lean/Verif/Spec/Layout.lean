import Verif.Spec.Basic
import Verif.Model.Wire

/-!
# The layout of packets

Written byte by byte, without the functions of `Verif/Model/Wire.lean`.
-/

namespace Netcode

/-- The lower `8 k` bits of `x`, most significant byte first. -/
def bigEndian (k x : Nat) : List Byte := (List.range k).map (fun i => BitVec.ofNat 8 (x / 2 ^ (8 * (k - 1 - i))))

/-- The differences of consecutive identifiers. -/
def gaps (ids : List Nat) : List Nat := List.zipWith (fun a b => b - a) ids ids.tail

/-- The runs of equal gaps: lengths from 1 to 255 and gaps.  A run ends only at another gap or at its largest length. -/
structure Runs (g : List Nat) (runs : List (Nat × Nat)) : Prop where
  all : runs.flatMap (fun r => List.replicate r.1 r.2) = g
  short : ∀ r ∈ runs, 0 < r.1 ∧ r.1 ≤ 255
  greedy : ∀ i r r', runs[i]? = some r → runs[i + 1]? = some r' → r.1 = 255 ∨ r.2 ≠ r'.2

/-- The bytes of a list of identifiers: two zero bytes if it is empty; otherwise the number of runs plus one (2 bytes), the first
identifier (4 bytes), and for each run its length (1 byte) and the gap (2 bytes). -/
inductive IdBytes : List Nat → List Byte → Prop
  | nil : IdBytes [] [0, 0]
  | cons {first : Nat} {rest : List Nat} {runs : List (Nat × Nat)} : Runs (gaps (first :: rest)) runs →
      IdBytes (first :: rest)
        (bigEndian 2 (runs.length + 1) ++ bigEndian 4 first ++ runs.flatMap (fun r => bigEndian 1 r.1 ++ bigEndian 2 r.2))

end Netcode
