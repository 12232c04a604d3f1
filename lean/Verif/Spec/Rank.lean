import Verif.Model.Decoder
import Verif.Spec.Algebra

/-!
# Independent repairs
-/

namespace Netcode

variable {w : Nat}

/-- Sum of `f x` for `x` in a list. -/
def xorOver (l : List Nat) (f : Nat → BitVec w) : BitVec w := l.foldl (fun acc x => acc ^^^ f x) 0#w

/-- Repairs (identifier, sources listed) that determine the unknown sources `U`: the equations they give, with zero
right-hand sides, have no other solution than zero. -/
def Independent (gf : GF w) (rows : List (Nat × List Nat)) (U : List Nat) : Prop :=
  ∀ v : Nat → BitVec w,
    (∀ q ∈ rows, xorOver (U.filter (fun x => decide (x ∈ q.2))) (fun x => gf.mul (coefficient w q.1 x) (v x)) = 0#w) →
    ∀ x ∈ U, v x = 0#w

/-- The repairs available once a repair `rid` that lists `ids`, of which `f` is the first, has arrived: those held
that list no source older than `f`, and the new one. -/
def rowsFor (f : Nat) (held : OMap DRepair) (rid : Nat) (ids : List Nat) : List (Nat × List Nat) :=
  (held.filter (fun q => decide (∀ x ∈ q.2.ids, f ≤ x))).map (fun q => (q.1, q.2.ids)) ++ [(rid, ids)]

/-- The factor of source `x` in a repair (identifier, sources listed). -/
def factorIn (w : Nat) (q : Nat × List Nat) (x : Nat) : BitVec w := if x ∈ q.2 then coefficient w q.1 x else 0#w

/-- Repairs that depend on each other as far as the unknown sources `U` are concerned: a combination of them, with factors that
are not all zero, has no unknown source left. -/
def Dependent (gf : GF w) (rows : List (Nat × List Nat)) (U : List Nat) : Prop :=
  ∃ a : Nat → BitVec w, (∃ k < rows.length, a k ≠ 0#w) ∧
    ∀ x ∈ U, xsum rows.length (fun k => gf.mul (a k) (factorIn w (rows.getD k (0, [])) x)) = 0#w

end Netcode
