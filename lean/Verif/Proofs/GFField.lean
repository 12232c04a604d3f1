import Mathlib.Algebra.Field.Basic
import Mathlib.Algebra.Field.MinimalAxioms
import Verif.Model.GF

/-! Every `GF w` (w > 0) is a field in Mathlib's sense, of characteristic two. -/

namespace Netcode

variable {w : Nat}

namespace GF
variable (gf : GF w)

theorem mul_zero (a : BitVec w) : gf.mul a 0#w = 0#w := by
  have h := gf.mul_xor a 0#w 0#w
  simpa using h

theorem zero_mul (a : BitVec w) : gf.mul 0#w a = 0#w := by
  rw [gf.mul_comm, mul_zero]

theorem mul_one (a : BitVec w) : gf.mul a 1#w = a := by rw [gf.mul_comm, gf.one_mul]

theorem xor_mul (a b c : BitVec w) : gf.mul (a ^^^ b) c = gf.mul a c ^^^ gf.mul b c := by
  rw [gf.mul_comm, gf.mul_xor, gf.mul_comm c a, gf.mul_comm c b]

theorem mul_eq_zero {a b : BitVec w} : gf.mul a b = 0#w ↔ a = 0#w ∨ b = 0#w := by
  constructor
  · intro h
    by_cases ha : a = 0#w
    · exact .inl ha
    · right
      have : gf.mul (gf.inv a) (gf.mul a b) = 0#w := by rw [h, mul_zero]
      rw [← gf.mul_assoc, gf.mul_comm (gf.inv a), gf.mul_inv a ha, gf.one_mul] at this
      exact this
  · rintro (h | h) <;> subst h
    · exact gf.zero_mul _
    · exact gf.mul_zero _

end GF

theorem mulScalar_eq (gf : GF w) (x y : BitVec w) : mulScalar gf x y = gf.mul x y := by
  unfold mulScalar
  split
  · next h => exact (gf.mul_eq_zero.2 h).symm
  · rfl

/-- Field elements, as a type on which Mathlib's `+` is xor and `*` the field multiplication. -/
def FE (_ : GF w) := BitVec w

namespace FE
variable {gf : GF w}

/-- inverse, with 0 mapped to 0 -/
def invZ (gf : GF w) (a : BitVec w) : BitVec w := if a = 0#w then 0#w else gf.inv a

theorem invZ_of_ne (gf : GF w) {a : BitVec w} (h : a ≠ 0#w) : invZ gf a = gf.inv a := if_neg h
theorem mul_invZ (gf : GF w) {a : BitVec w} (h : a ≠ 0#w) : gf.mul a (invZ gf a) = 1#w := by
  rw [invZ_of_ne gf h, gf.mul_inv a h]

instance : Add (FE gf) := ⟨BitVec.xor⟩
instance : Mul (FE gf) := ⟨gf.mul⟩
instance : Neg (FE gf) := ⟨fun a => a⟩
instance : Inv (FE gf) := ⟨invZ gf⟩
instance : Zero (FE gf) := ⟨(0#w : BitVec w)⟩
instance : One (FE gf) := ⟨(1#w : BitVec w)⟩

theorem add_def (a b : FE gf) : a + b = BitVec.xor a b := rfl
theorem mul_def (a b : FE gf) : a * b = gf.mul a b := rfl
theorem zero_def : (0 : FE gf) = (0#w : BitVec w) := rfl
theorem one_def : (1 : FE gf) = (1#w : BitVec w) := rfl

instance [Fact (0 < w)] : Field (FE gf) :=
  Field.ofMinimalAxioms (FE gf)
    (fun a b c => BitVec.xor_assoc a b c)
    (fun a => BitVec.zero_xor (x := (a : BitVec w)))
    (fun a => BitVec.xor_self (x := (a : BitVec w)))
    (fun a b c => gf.mul_assoc a b c)
    (fun a b => gf.mul_comm a b)
    (fun a => gf.one_mul a)
    (fun a ha => mul_invZ gf ha)
    (by show invZ gf 0#w = 0#w
        simp [invZ])
    (fun a b c => gf.mul_xor a b c)
    ⟨(0#w : BitVec w), (1#w : BitVec w), by
      have := (Fact.out : 0 < w)
      intro h
      have h' : (0#w).toNat = (1#w).toNat := congrArg BitVec.toNat h
      have : 1 < 2 ^ w := Nat.one_lt_two_pow (by omega)
      simp [Nat.mod_eq_of_lt this] at h'⟩

theorem add_self [Fact (0 < w)] (a : FE gf) : a + a = 0 := BitVec.xor_self (x := (a : BitVec w))
theorem sub_eq_add' [Fact (0 < w)] (a b : FE gf) : a - b = a + b := by
  rw [sub_eq_add_neg]; rfl
theorem inv_def [Fact (0 < w)] (a : FE gf) (h : a ≠ 0) : a⁻¹ = gf.inv a := invZ_of_ne gf h

end FE

/-- A machine word as a field element. -/
def toFE (gf : GF w) (c : BitVec w) : FE gf := c

/-- bit `i` of a field element -/
def FE.bit {gf : GF w} (a : FE gf) (i : Nat) : Bool := BitVec.getLsbD (w := w) a i

section
variable (gf : GF w)
theorem toFE_xor (a b : BitVec w) : toFE gf (a ^^^ b) = toFE gf a + toFE gf b := rfl
theorem toFE_mul (a b : BitVec w) : toFE gf (gf.mul a b) = toFE gf a * toFE gf b := rfl
theorem toFE_zero : toFE gf 0#w = 0 := rfl
theorem toFE_one : toFE gf 1#w = 1 := rfl
theorem toFE_inj {a b : BitVec w} : toFE gf a = toFE gf b ↔ a = b := Iff.rfl
theorem toFE_inv [Fact (0 < w)] {a : BitVec w} (h : a ≠ 0#w) : toFE gf (gf.inv a) = (toFE gf a)⁻¹ :=
  (FE.inv_def (gf := gf) a h).symm
theorem FE.ext_bit {gf : GF w} {a b : FE gf} (h : ∀ i, i < w → a.bit i = b.bit i) : a = b :=
  BitVec.eq_of_getLsbD_eq (x := (a : BitVec w)) (y := b) h
theorem FE.bit_add {gf : GF w} (a b : FE gf) (i : Nat) : (a + b).bit i = (a.bit i ^^ b.bit i) :=
  BitVec.getLsbD_xor (x := (a : BitVec w)) (y := b)
theorem FE.bit_zero {gf : GF w} (i : Nat) : (0 : FE gf).bit i = false := BitVec.getLsbD_zero
theorem FE.bit_toFE (a : BitVec w) (i : Nat) : (toFE gf a).bit i = a.getLsbD i := rfl
end

end Netcode
