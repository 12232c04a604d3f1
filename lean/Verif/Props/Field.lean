import Verif.Proofs.Algebra
import Verif.Proofs.DecPrim
import Verif.Proofs.GFConcrete
import Verif.Proofs.SysFacts

/-!
# Properties of the arithmetic

Coefficients, fields, regions, sizes and matrix inversion.
-/

namespace Netcode

variable {w : Nat}

/-! ## C15 -/

/-- **C15.** Every coefficient is a non-zero number below 2^w, hence a non-zero field element. -/
theorem C15_coefficient_valid (hv : ValidW w) (repairId srcId : Nat) :
    0 < coefficientNat w repairId srcId ∧ coefficientNat w repairId srcId < 2 ^ w ∧
    coefficient w repairId srcId ≠ 0#w := by
  have h : 0 < coefficientNat w repairId srcId ∧ coefficientNat w repairId srcId < 2 ^ w := by
    unfold coefficientNat
    simp only
    rcases hv with rfl | rfl | rfl | rfl
    · simp only [if_neg (show ¬ 4 = 32 by decide)]; omega
    · simp only [if_neg (show ¬ 8 = 32 by decide)]; omega
    · simp only [if_neg (show ¬ 16 = 32 by decide)]; omega
    · simp only [if_true]; split <;> omega
  exact ⟨h.1, h.2, coefficient_ne_zero hv _ _⟩

/-- With w = 32 the product that gives the coefficient may vanish, and is then replaced by 1. -/
example : ((65535 + 1) + (65535 + 1)) % 2 ^ 32 * (65535 + 1) % 2 ^ 32 = 0 ∧ coefficientNat 32 65535 65535 = 1 ∧
    coefficientNat 32 0 65535 = 65537 ∧ coefficientNat 8 2 5 = 28 := by
  decide +kernel

/-! ## C16 -/

/-- The field laws for multiplication `mul`, inversion `inv` and xor. -/
def FieldLaws (mul : BitVec w → BitVec w → BitVec w) (inv : BitVec w → BitVec w) : Prop :=
  (∀ a b, mul a b = mul b a) ∧ (∀ a b c, mul (mul a b) c = mul a (mul b c)) ∧ (∀ a, mul 1#w a = a) ∧
  (∀ a b c, mul a (b ^^^ c) = mul a b ^^^ mul a c) ∧ (∀ a, a ≠ 0#w → mul a (inv a) = 1#w) ∧ 0#w ≠ 1#w

/-- **C16**, fields: shift-and-xor multiplication modulo gf-complete's polynomials, for each field size. -/
theorem C16_field_laws :
    FieldLaws (pmul 0x3#4) (pinv 0x3#4) ∧ FieldLaws (pmul 0x1d#8) (pinv 0x1d#8) ∧
    FieldLaws (pmul 0x100b#16) (pinv 0x100b#16) ∧ FieldLaws (pmul 0x400007#32) (pinv 0x400007#32) := by
  have key : ∀ {v : Nat} (g : GF v), 0 < v → FieldLaws g.mul g.inv := by
    intro v g hv
    refine ⟨g.mul_comm, g.mul_assoc, g.one_mul, g.mul_xor, g.mul_inv, ?_⟩
    intro h
    have := congrArg BitVec.toNat h
    simp at this
    omega
  exact ⟨key gf4 (by decide), key gf8 (by decide), key gf16 (by decide), key gf32 (by decide)⟩

/-- **C16**, regions, w = 8: each byte is multiplied. -/
theorem C16_region_8 (gf : GF 8) (c : BitVec 8) (l : List Byte) : mulRegion gf c l = l.map (gf.mul c) := by
  induction l with
  | nil => rfl
  | cons b t ih =>
    rw [List.map_cons, ← ih]
    unfold mulRegion
    have h1 : 8 * (b :: t).length / 8 = t.length + 1 := by simp
    have h2 : 8 * t.length / 8 = t.length := by omega
    rw [h1, h2]
    simp only [mulWords, leNat, List.length_cons, leBytes]
    have e1 : (b.toNat + 256 * leNat t) / 2 ^ 8 = leNat t := by have := b.isLt; omega
    have e2 : BitVec.ofNat 8 (b.toNat + 256 * leNat t) = b := by
      apply BitVec.eq_of_toNat_eq; have := b.isLt; simp only [BitVec.toNat_ofNat]; omega
    rw [e1, e2]
    have hp := (gf.mul c b).isLt
    congr 1
    · apply BitVec.eq_of_toNat_eq; simp only [BitVec.toNat_ofNat]; omega
    · congr 1; omega

/-- **C16**, regions, w = 4: the two halves of each byte are multiplied. -/
theorem C16_region_4 (gf : GF 4) (c : BitVec 4) (l : List Byte) :
    mulRegion gf c l = l.map (fun b => gf.mul c (b.extractLsb' 4 4) ++ gf.mul c (b.extractLsb' 0 4)) := by
  induction l with
  | nil => rfl
  | cons b t ih =>
    rw [List.map_cons, ← ih]
    unfold mulRegion
    have h1 : 8 * (b :: t).length / 4 = 2 * t.length + 1 + 1 := by simp only [List.length_cons]; omega
    have h2 : 8 * t.length / 4 = 2 * t.length := by omega
    rw [h1, h2]
    simp only [mulWords, leNat, List.length_cons, leBytes]
    have hb := b.isLt
    have e1 : (b.toNat + 256 * leNat t) / 2 ^ 4 / 2 ^ 4 = leNat t := by omega
    have e2 : BitVec.ofNat 4 (b.toNat + 256 * leNat t) = b.extractLsb' 0 4 := by
      apply BitVec.eq_of_toNat_eq
      simp only [BitVec.toNat_ofNat, BitVec.extractLsb'_toNat, Nat.shiftRight_zero]; omega
    have e3 : BitVec.ofNat 4 ((b.toNat + 256 * leNat t) / 2 ^ 4) = b.extractLsb' 4 4 := by
      apply BitVec.eq_of_toNat_eq
      simp only [BitVec.toNat_ofNat, BitVec.extractLsb'_toNat, Nat.shiftRight_eq_div_pow]; omega
    rw [e1, e2, e3]
    have hp := (gf.mul c (b.extractLsb' 0 4)).isLt
    have hq := (gf.mul c (b.extractLsb' 4 4)).isLt
    congr 1
    · apply BitVec.eq_of_toNat_eq
      rw [BitVec.toNat_append, Nat.shiftLeft_eq, BitVec.toNat_ofNat]
      rw [show (gf.mul c (b.extractLsb' 4 4)).toNat * 2 ^ 4 ||| (gf.mul c (b.extractLsb' 0 4)).toNat
        = (gf.mul c (b.extractLsb' 4 4)).toNat * 2 ^ 4 + (gf.mul c (b.extractLsb' 0 4)).toNat by
          rw [Nat.mul_comm, Nat.two_pow_add_eq_or_of_lt hp]]
      omega
    · congr 1; omega

/-- **C16**, regions, w = 16: each little-endian pair of bytes is multiplied. -/
theorem C16_region_16 (gf : GF 16) (c : BitVec 16) (b0 b1 : Byte) (t : List Byte) :
    mulRegion gf c (b0 :: b1 :: t) =
      (gf.mul c (b1 ++ b0)).extractLsb' 0 8 :: (gf.mul c (b1 ++ b0)).extractLsb' 8 8 :: mulRegion gf c t := by
  unfold mulRegion
  have h1 : 8 * (b0 :: b1 :: t).length / 16 = (8 * t.length / 16) + 1 := by simp only [List.length_cons]; omega
  rw [h1]
  simp only [mulWords, leNat, List.length_cons, leBytes]
  have hb0 := b0.isLt
  have hb1 := b1.isLt
  have e1 : (b0.toNat + 256 * (b1.toNat + 256 * leNat t)) / 2 ^ 16 = leNat t := by omega
  have e2 : BitVec.ofNat 16 (b0.toNat + 256 * (b1.toNat + 256 * leNat t)) = b1 ++ b0 := by
    apply BitVec.eq_of_toNat_eq
    rw [BitVec.toNat_append, Nat.shiftLeft_eq, BitVec.toNat_ofNat, Nat.mul_comm _ (2 ^ 8), ← Nat.two_pow_add_eq_or_of_lt hb0]
    omega
  rw [e1, e2]
  have hp := (gf.mul c (b1 ++ b0)).isLt
  congr 1
  · apply BitVec.eq_of_toNat_eq
    simp only [BitVec.toNat_ofNat, BitVec.extractLsb'_toNat, Nat.shiftRight_zero]; omega
  · congr 1
    · apply BitVec.eq_of_toNat_eq
      simp only [BitVec.toNat_ofNat, BitVec.extractLsb'_toNat, Nat.shiftRight_eq_div_pow]; omega
    · congr 1; omega

/-- **C16**, regions, w = 32: each little-endian group of four bytes is multiplied. -/
theorem C16_region_32 (gf : GF 32) (c : BitVec 32) (b0 b1 b2 b3 : Byte) (t : List Byte) :
    mulRegion gf c (b0 :: b1 :: b2 :: b3 :: t) =
      (gf.mul c (b3 ++ b2 ++ b1 ++ b0)).extractLsb' 0 8 :: (gf.mul c (b3 ++ b2 ++ b1 ++ b0)).extractLsb' 8 8 ::
      (gf.mul c (b3 ++ b2 ++ b1 ++ b0)).extractLsb' 16 8 :: (gf.mul c (b3 ++ b2 ++ b1 ++ b0)).extractLsb' 24 8 ::
      mulRegion gf c t := by
  unfold mulRegion
  have h1 : 8 * (b0 :: b1 :: b2 :: b3 :: t).length / 32 = (8 * t.length / 32) + 1 := by
    simp only [List.length_cons]; omega
  rw [h1]
  simp only [mulWords, leNat, List.length_cons, leBytes]
  have hb0 := b0.isLt
  have hb1 := b1.isLt
  have hb2 := b2.isLt
  have hb3 := b3.isLt
  have e1 : (b0.toNat + 256 * (b1.toNat + 256 * (b2.toNat + 256 * (b3.toNat + 256 * leNat t)))) / 2 ^ 32 = leNat t := by
    omega
  have e2 : BitVec.ofNat 32 (b0.toNat + 256 * (b1.toNat + 256 * (b2.toNat + 256 * (b3.toNat + 256 * leNat t))))
      = b3 ++ b2 ++ b1 ++ b0 := by
    apply BitVec.eq_of_toNat_eq
    have s1 : (b3 ++ b2).toNat = 256 * b3.toNat + b2.toNat := by
      rw [BitVec.toNat_append, Nat.shiftLeft_eq, Nat.mul_comm, ← Nat.two_pow_add_eq_or_of_lt hb2]
    have s2 : (b3 ++ b2 ++ b1).toNat = 256 * (256 * b3.toNat + b2.toNat) + b1.toNat := by
      rw [BitVec.toNat_append, Nat.shiftLeft_eq, Nat.mul_comm, ← Nat.two_pow_add_eq_or_of_lt hb1, s1]
    rw [BitVec.toNat_append, Nat.shiftLeft_eq, BitVec.toNat_ofNat, Nat.mul_comm _ (2 ^ 8),
      ← Nat.two_pow_add_eq_or_of_lt hb0, s2]
    omega
  rw [e1, e2]
  have hp := (gf.mul c (b3 ++ b2 ++ b1 ++ b0)).isLt
  congr 1
  · apply BitVec.eq_of_toNat_eq
    simp only [BitVec.toNat_ofNat, BitVec.extractLsb'_toNat, Nat.shiftRight_zero]; omega
  · congr 1
    · apply BitVec.eq_of_toNat_eq
      simp only [BitVec.toNat_ofNat, BitVec.extractLsb'_toNat, Nat.shiftRight_eq_div_pow]; omega
    · congr 1
      · apply BitVec.eq_of_toNat_eq
        simp only [BitVec.toNat_ofNat, BitVec.extractLsb'_toNat, Nat.shiftRight_eq_div_pow]; omega
      · congr 1
        · apply BitVec.eq_of_toNat_eq
          simp only [BitVec.toNat_ofNat, BitVec.extractLsb'_toNat, Nat.shiftRight_eq_div_pow]; omega
        · congr 1; omega

/-- **C16**, dividing undoes multiplying: a region multiplied by `c`, then by the inverse of `c`, is unchanged. -/
theorem C16_divide_undoes (hv : ValidW w) (gf : GF w) (c : BitVec w) (hc : c ≠ 0#w) (l : List Byte)
    (hl : 8 * l.length % w = 0) :
    ∃ m, gfMultiply gf l l.length c = .ok m ∧ gfMultiply gf m l.length (gfInvert gf c) = .ok l := by
  have := fact_of_valid hv
  obtain ⟨m, h1, h2, h3⟩ := gfMultiply_ok gf l l.length c (le_refl _) hl
  obtain ⟨m', h4, h5, h6⟩ := gfMultiply_ok gf m l.length (gfInvert gf c) (by omega) hl
  refine ⟨m, h1, ?_⟩
  rw [h4]
  congr 1
  refine vec_inj gf Fact.out h5 ?_
  rw [h6, List.take_of_length_le (by omega), h3, List.take_length]
  unfold gfInvert
  rw [toFE_inv gf hc, smul_smul, inv_mul_cancel₀ (show toFE gf c ≠ 0 from hc), one_smul]

/-- **C16**, adding a product twice leaves a region unchanged. -/
theorem C16_add_twice (hv : ValidW w) (gf : GF w) (c : BitVec w) (src dst : List Byte)
    (hl : 8 * src.length % w = 0) (hd : src.length ≤ dst.length) :
    ∃ m, gfMultiplyAdd gf src dst src.length c = .ok m ∧ gfMultiplyAdd gf src m src.length c = .ok dst := by
  have := fact_of_valid hv
  obtain ⟨m, h1, h2, h3⟩ := gfMultiplyAdd_ok gf src dst src.length c (le_refl _) hd hl
  obtain ⟨m', h4, h5, h6⟩ := gfMultiplyAdd_ok gf src m src.length c (le_refl _) (by omega) hl
  refine ⟨m, h1, ?_⟩
  rw [h4]
  congr 1
  refine vec_inj gf Fact.out (by omega) ?_
  rw [h6, h3]
  funext j
  simp only [Pi.add_apply]
  rw [add_assoc, FE.add_self, add_zero]

example : mulRegion gf8 0x53 [1, 2, 0xca] = [0x53, 0xa6, 0x8f] := by decide +kernel
example : gfMultiply gf16 [1, 2, 3, 4] 4 7 = .ok [7, 0x0e, 9, 0x1c] := by decide +kernel

/-! ## C21 -/

/-- **C21.** For w = 4, 8, 16 the product of a size by a coefficient determines the size: multiplying by the inverse
gives it back. -/
theorem C21_size_recovered_partial (hv : ValidW w) (gf : GF w) (c : BitVec w) (hc : c ≠ 0#w) (size : BitVec 16)
    (hf : SizeFits gf c size) : mulSize gf (mulSize gf size c) (gfInvert gf c) = size := by
  have := fact_of_valid hv
  have h1 := szVec_mulSize gf hv size c hf
  have h2 := mulSize_trunc gf hv (mulSize gf size c) (gfInvert gf c)
  rw [h1] at h2
  unfold gfInvert at h2 ⊢
  rw [toFE_inv gf hc, smul_smul, inv_mul_cancel₀ (show toFE gf c ≠ 0 from hc), one_smul] at h2
  exact isTrunc_unique h2 (isTrunc_szVec gf size)

theorem C21_size_recovered_small (hv : w = 4 ∨ w = 8 ∨ w = 16) (gf : GF w) (c : BitVec w) (hc : c ≠ 0#w)
    (size : BitVec 16) : mulSize gf (mulSize gf size c) (gfInvert gf c) = size := by
  refine C21_size_recovered_partial ?_ gf c hc size ?_
  · unfold ValidW; tauto
  · intro h; rcases hv with rfl | rfl | rfl <;> cases h

/-- **C21 fails** for w = 32, with the coefficient of source 0 in repair 127 and a datum of 4 bytes. -/
theorem C21_false : coefficient 32 127 0 = 16512#32 ∧
    mulSize gf32 (mulSize gf32 4 (coefficient 32 127 0)) (gfInvert gf32 (coefficient 32 127 0)) ≠ 4 := by
  decide +kernel

example : mulSize gf8 1500 0x53 = 545 ∧ mulSize gf8 545 (gfInvert gf8 0x53) = 1500 := by decide +kernel

/-! ## C17 -/

/-- **C17.** When `invert` succeeds its result is the inverse. -/
theorem C17_inverse (hv : ValidW w) (gf : GF w) (n : Nat) (M inv : Mat w) (h : invert gf n M = .ok inv) :
    IsInverse gf n inv M := by
  have := fact_of_valid hv
  exact invert_inverse n M inv h

/-- **C17.** `invert` succeeds exactly on the matrices that have an inverse. -/
theorem C17_success_iff (hv : ValidW w) (gf : GF w) (n : Nat) (M : Mat w) :
    (∃ inv, invert gf n M = .ok inv) ↔ ∃ N, IsInverse gf n N M := by
  have := fact_of_valid hv
  constructor
  · rintro ⟨inv, h⟩; exact ⟨inv, invert_inverse n M inv h⟩
  · rintro ⟨N, h⟩
    cases hi : invert gf n M with
    | ok inv => exact ⟨inv, rfl⟩
    | error c =>
      obtain ⟨_, v, ⟨k, hk, hne⟩, hz⟩ := invert_fail n M c hi
      exact absurd (no_kernel_of_inverse n M N h v hz k hk) hne

/-- **C17.** When `invert` fails it reports the last column, and a non-zero combination of the columns of the
stored matrix vanishes. -/
theorem C17_failure (hv : ValidW w) (gf : GF w) (n : Nat) (M : Mat w) (c : Nat) (h : invert gf n M = .error c) :
    c = n - 1 ∧ ∃ v : Nat → BitVec w, (∃ k < n, v k ≠ 0#w) ∧ ∀ a < n, xsum n (fun k => gf.mul (M a k) (v k)) = 0#w := by
  have := fact_of_valid hv
  exact invert_fail n M c h

/-- A 3 × 3 matrix that needs a row exchange, and its inverse. -/
def exMat : Mat 8 := fun i j => ([[0, 1, 2], [3, 0, 4], [5, 6, 7]].getD i []).getD j 0
example : ((invert gf8 3 exMat).map (fun m => (List.range 3).map (fun i => (List.range 3).map (m i)))).toOption =
    some [[185, 38, 78], [106, 187, 105], [187, 211, 186]] := by decide +kernel
example : (invert gf8 2 (fun i j => if i = j then 0 else 0)).toOption = none := by decide +kernel

end Netcode
