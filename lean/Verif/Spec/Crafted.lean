import Verif.Spec.EncHist
import Verif.Spec.DecHist
import Verif.Model.NDecoder

/-!
# Repairs that somebody made up
-/

namespace Netcode

variable {w : Nat}

/-- The sources of a repair that a decoder holds. -/
def DRepair.known (r : DRepair) (sources : OMap DSource) : List DSource := r.ids.filterMap sources.get?

/-- The identifiers of the sources of a repair that a decoder does not hold. -/
def DRepair.unknown (r : DRepair) (sources : OMap DSource) : List Nat := r.ids.filter (fun x => !sources.has x)

/-- A datum of `n` bytes can be taken out of the repair: it is not longer than the symbol (in a release build: than what is left of the
packet from the symbol on), and a whole number of elements of the field. -/
def DRepair.Takes (w : Nat) (dbg : Bool) (r : DRepair) (n : Nat) : Prop :=
  n ≤ (if dbg then r.symSize else r.buf.length) ∧ 8 * n % w = 0

/-- The size of the source `x` according to the repair, if `known` are its other sources. -/
def DRepair.sizeOf (gf : GF w) (r : DRepair) (known : List DSource) (x : Nat) : Nat :=
  (mulSize gf (r.encSize ^^^ sizeSum (known.map fun s => mulSize gf (BitVec.ofNat 16 s.sym.length) (coefficient w r.id s.id)))
    (gf.inv (coefficient w r.id x))).toNat

/-- A repair that does no harm to a decoder that holds no repairs. Unless it brings nothing new, all sources that are held can be taken
out of it, and if there is just one other, the size of that one is not more than what is left of the packet from the symbol on. -/
def DRepair.Harmless (gf : GF w) (dbg : Bool) (last : Option Nat) (sources : OMap DSource) (r : DRepair) : Prop :=
  r.ids ≠ [] ∧
  ((∃ l, last = some l ∧ ∀ x ∈ r.ids, x < l) ∨ r.unknown sources = [] ∨
    (∀ s ∈ r.known sources, r.Takes w dbg s.sym.length) ∧
    ∀ x, r.unknown sources = [x] →
      r.sizeOf gf (r.known sources) x ≤ r.buf.length ∧ 8 * r.sizeOf gf (r.known sources) x % w = 0)

/-- Decoders that got any bytes, but of repairs only harmless ones that they could use at once. -/
inductive AtOnce (gf : GF w) (dbg : Bool) (clk : Clock) (io : Bool) : NDec → Prop
  | init : AtOnce gf dbg clk io (NDec.init clk io)
  | other {d d' : NDec} {a : DAct} : AtOnce gf dbg clk io d →
      (∀ p, a = .packet p → p.head? = some 1#8 → readRepair p = .error (.cpp .overflow)) → d.act gf dbg clk a = .ok d' →
      AtOnce gf dbg clk io d'
  | repair {d d' : NDec} {p : List Byte} {r : DRepair} {n : Nat} : AtOnce gf dbg clk io d → p.head? = some 1#8 →
      readRepair p = .ok (r, n) → (r.unknown d.det.sources).length ≤ 1 → d.act gf dbg clk (.packet p) = .ok d' →
      AtOnce gf dbg clk io d'

end Netcode
