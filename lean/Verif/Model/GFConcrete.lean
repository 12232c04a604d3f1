import Verif.Model.GF

/-!
# The concrete fields GF(2^w), w = 4, 8, 16, 32

Shift-and-xor multiplication modulo gf-complete's default polynomials (the ones selected by
`gf_init_easy`, galois_field.hh:40): x^4+x+1, x^8+x^4+x^3+x^2+1, x^16+x^12+x^3+x+1,
x^32+x^22+x^2+x+1.  That these are gf-complete's defaults is outside /repo and part of the trusted base; no
property depends on which irreducible polynomial is used.
-/

namespace Netcode

variable {w : Nat}

/-- Multiplication by `x` modulo `x^w + p`. Part of `m_gf.multiply.w32`, galois_field.hh:118, 129. -/
def xtime (p v : BitVec w) : BitVec w := (v <<< 1) ^^^ (if v.msb then p else 0#w)

/-- Horner evaluation: the `k` most significant bits of `b` have been consumed. Part of `m_gf.multiply.w32`, galois_field.hh:118, 129. -/
def hmul (p b a : BitVec w) : Nat → BitVec w
  | 0 => 0#w
  | k + 1 => xtime p (hmul p b a k) ^^^ (if b.getLsbD (w - 1 - k) then a else 0#w)

/-- Multiplication modulo `x^w + p`. `m_gf.multiply.w32`, galois_field.hh:118, 129. -/
def pmul (p a b : BitVec w) : BitVec w := hmul p b a w

/-- Squaring. Models no code: used to invert (galois_field.hh:138). -/
def psq (p a : BitVec w) : BitVec w := pmul p a a

/-- `a^(2 + 4 + ... + 2^k)`. Part of `pinv`. -/
def frobProd (p : BitVec w) : Nat → BitVec w → BitVec w
  | 0, _ => 1#w
  | k + 1, a => pmul p (psq p a) (frobProd p k (psq p a))

/-- The inverse `a^(2^w - 2)`. `m_gf.divide.w32`, galois_field.hh:138. -/
def pinv (p a : BitVec w) : BitVec w := frobProd p (w - 1) a

end Netcode
