import Verif.Model.System

/-!
# What can be observed of a decoder
-/

namespace Netcode

/-- The identifiers of the data handed to the data handler, in order. -/
def Dec.handed (s : Dec) : List Nat := s.log.map (·.id)

/-- Sources the decoder holds (`detail::decoder::sources()`). -/
def Dec.Holds (s : Dec) (x : Nat) : Prop := x ∈ s.sources.keys

/-- Sources the decoder got, directly or by decoding: handed over, or held. -/
def Dec.Knows (s : Dec) (x : Nat) : Prop := x ∈ s.handed ∨ s.Holds x

/-- Sources older than everything the last repair lists. -/
def Dec.Outdated (s : Dec) (x : Nat) : Prop := ∃ l, s.lastId = some l ∧ x < l

/-- The decoder has datum `d` for source `x`: it handed it over as `x`, or holds it. -/
def Dec.HasData (s : Dec) (x : Nat) (d : List Byte) : Prop :=
  (∃ ev ∈ s.log, ev.id = x ∧ ev.data = d) ∨ s.sources.get? x = some ⟨x, d⟩

instance (s : Dec) (x : Nat) : Decidable (s.Holds x) := inferInstanceAs (Decidable (_ ∈ _))
instance (s : Dec) (x : Nat) : Decidable (s.Knows x) := inferInstanceAs (Decidable (_ ∨ _))
instance (s : Dec) (x : Nat) : Decidable (s.Outdated x) :=
  match h : s.lastId with
  | none => isFalse (by rintro ⟨l, hl, _⟩; rw [h] at hl; cases hl)
  | some l => if hx : x < l then isTrue ⟨l, h, hx⟩ else isFalse (by
      rintro ⟨l', hl, h2⟩; rw [h] at hl; cases hl; exact hx h2)
instance (s : Dec) (x : Nat) (d : List Byte) : Decidable (s.HasData x d) := inferInstanceAs (Decidable (_ ∨ _))

end Netcode
