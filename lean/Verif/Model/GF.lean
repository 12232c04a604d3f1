import Verif.Model.Basic

/-!
# Galois fields

Model of `netcode/detail/galois_field.hh`, which wraps the gf-complete library.
gf-complete itself is external: it is represented by its contract, i.e. multiplication and division
of GF(2^w) with xor as addition (structure `GF`).  `Verif/Model/GFConcrete.lean` builds the fields
for w = 4, 8, 16, 32 with gf-complete's default polynomials and shows that they meet the contract.
-/

namespace Netcode

/-- Contract of a gf-complete field of width `w` (`gf_init_easy(&m_gf, w)`,
galois_field.hh:35-44).  `mul` is `m_gf.multiply.w32`, `inv c` is `m_gf.divide.w32(&m_gf, 1, c)`;
addition is xor. -/
structure GF (w : Nat) where
  mul : BitVec w → BitVec w → BitVec w
  inv : BitVec w → BitVec w
  mul_comm : ∀ a b, mul a b = mul b a
  mul_assoc : ∀ a b c, mul (mul a b) c = mul a (mul b c)
  one_mul : ∀ a, mul 1#w a = a
  mul_xor : ∀ a b c, mul a (b ^^^ c) = mul a b ^^^ mul a c
  mul_inv : ∀ a, a ≠ 0#w → mul a (inv a) = 1#w

/-- The field sizes the constructor accepts: galois_field.hh:35-44 asserts `w` is one of these. -/
def ValidW (w : Nat) : Prop := w = 4 ∨ w = 8 ∨ w = 16 ∨ w = 32

instance (w : Nat) : Decidable (ValidW w) := inferInstanceAs (Decidable (_ ∨ _))

variable {w : Nat}

/-! ## Regions -/

/-- A region of memory read as one little-endian number: bit `i` of the region is bit `i % 8` of
byte `i / 8`. galois_field.hh:66-92, 110-113. -/
def leNat : List Byte → Nat
  | [] => 0
  | b :: t => b.toNat + 256 * leNat t

/-- The first `n` little-endian bytes of a number. How a region of galois_field.hh:66-92 is stored. -/
def leBytes : Nat → Nat → List Byte
  | 0, _ => []
  | n + 1, x => BitVec.ofNat 8 x :: leBytes n (x / 256)

/-- Multiply the first `k` `w`-bit words of a region (given as a number) by `c`. `multiply_region.w32` of galois_field.hh:69-74. -/
def mulWords (gf : GF w) (c : BitVec w) : Nat → Nat → Nat
  | 0, _ => 0
  | k + 1, x => (gf.mul c (BitVec.ofNat w x)).toNat + 2 ^ w * mulWords gf c k (x / 2 ^ w)

/-- gf-complete's `multiply_region.w32(&m_gf, src, dst, c, len, 0)`: each `w`-bit word of the region
is multiplied by `c`.  For w = 4 two words share a byte (low nibble first); for w = 16, 32 words are
little-endian (x86).  The result is what is written to `dst`. galois_field.hh:69-74, 86-91. -/
def mulRegion (gf : GF w) (c : BitVec w) (src : List Byte) : List Byte :=
  leBytes src.length (mulWords gf c (8 * src.length / w) (leNat src))

/-- Bytewise xor of the prefix of `dst` covered by `x`. `multiply_region.w32` with the flag of galois_field.hh:91. -/
def xorPrefix : List Byte → List Byte → List Byte
  | d :: ds, x :: xs => (d ^^^ x) :: xorPrefix ds xs
  | ds, _ => ds

/-- `galois_field::multiply` (galois_field.hh:66-77): `len` bytes are read at `src`; the value
written over the first `len` bytes of the destination is returned. -/
def gfMultiply (gf : GF w) (src : List Byte) (len : Nat) (c : BitVec w) : Out (List Byte) := do
  ensure (len ≤ src.length) .oobRead
  ensure (8 * len % w == 0) .misaligned
  return mulRegion gf c (src.take len)

/-- `galois_field::multiply_add` (galois_field.hh:81-92): the first `len` bytes of `dst` are xored
with the product. -/
def gfMultiplyAdd (gf : GF w) (src dst : List Byte) (len : Nat) (c : BitVec w) : Out (List Byte) := do
  ensure (len ≤ src.length) .oobRead
  ensure (len ≤ dst.length) .oobWrite
  ensure (8 * len % w == 0) .misaligned
  return xorPrefix dst (mulRegion gf c (src.take len))

/-! ## Scalars -/

/-- `galois_field::multiply_size` (galois_field.hh:96-120).  For w = 4, 8 the two bytes of the
(little-endian) size are multiplied as a region; for w = 16, 32 the size is multiplied as a scalar
and the product truncated to 16 bits. -/
def mulSize (gf : GF w) (size : BitVec 16) (c : BitVec w) : BitVec 16 :=
  if size = 0 ∨ c = 0 then 0
  else if w ≤ 8 then
    BitVec.ofNat 16 (leNat (mulRegion gf c (leBytes 2 size.toNat)))
  else (gf.mul (size.setWidth w) c).setWidth 16

/-- scalar `galois_field::multiply` (galois_field.hh:123-130) -/
def mulScalar (gf : GF w) (x y : BitVec w) : BitVec w :=
  if x = 0 ∨ y = 0 then 0 else gf.mul x y

/-- `galois_field::invert` (galois_field.hh:133-139). `assert(coef != 0)` is never violated, see
`coefficient`. -/
def gfInvert (gf : GF w) (c : BitVec w) : BitVec w := gf.inv c

/-- `galois_field::coefficient` (galois_field.hh:143-158) as a `uint32_t`. -/
def coefficientNat (w repairId srcId : Nat) : Nat :=
  let r1 := (repairId + 1) % 2 ^ 32
  let s1 := (srcId + 1) % 2 ^ 32
  let res := ((r1 + s1) % 2 ^ 32 * r1) % 2 ^ 32
  if w = 32 then
    if res = 0 then 1 else res
  else res % (2 ^ w - 1) + 1

/-- The coefficient as a field element. galois_field.hh:143-158. -/
def coefficient (w repairId srcId : Nat) : BitVec w := BitVec.ofNat w (coefficientNat w repairId srcId)

end Netcode
