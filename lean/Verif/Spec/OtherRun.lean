import Verif.Spec.EncHist
import Verif.Spec.Basic
import Verif.Model.System

/-!
# Data that fit the packets received
-/

namespace Netcode

variable {w : Nat}

/-- The encoder would have emitted this packet if source `x` had been `data x`: a source carries its datum, a repair is
the combination of the data of the sources it lists (and, for w = 32, these have sizes whose products fit in 16 bits). -/
def EPkt.Fits (gf : GF w) (data : Nat → List Byte) : EPkt → Prop
  | .source s => s.sym = data s.id
  | .repair r => IsRepairOf gf r.id (r.ids.map fun x => ⟨x, data x⟩) r ∧
      ∀ x ∈ r.ids, SizeFits gf (coefficient w r.id x) (BitVec.ofNat 16 (data x).length)

/-- Neither of the sources `x` and `y` arrived; each repair that arrived lists both or none of them, and its number is small. -/
def Sys.BothLost (s : Sys) (x y : Nat) : Prop :=
  ∀ i ∈ s.hist,
    match s.enc.out[i]? with
    | none => True
    | some (.source a) => a.id ≠ x ∧ a.id ≠ y
    | some (.repair r) => (x ∈ r.ids ↔ y ∈ r.ids) ∧ (r.id + max x y + 2) * (r.id + 1) < 2 ^ 32

/-- `m` times a repair is asked for, and arrives; `n` packets were emitted before. -/
def repairsArrive (n : Nat) : Nat → List Act
  | 0 => []
  | m + 1 => repairsArrive n m ++ [.repair, .deliver (n + m)]

end Netcode
