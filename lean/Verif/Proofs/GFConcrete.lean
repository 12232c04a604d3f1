import Verif.Model.GFConcrete

/-! The concrete multiplications satisfy the field laws. -/

namespace Netcode

variable {w : Nat} (p : BitVec w)

/-- `f` is linear over GF(2). -/
def Additive (f : BitVec w → BitVec w) : Prop := ∀ a b, f (a ^^^ b) = f a ^^^ f b

theorem Additive.zero {f : BitVec w → BitVec w} (h : Additive f) : f 0#w = 0#w := by
  have := h 0#w 0#w
  simpa using this

theorem bxor_cancel (a b : BitVec w) : a ^^^ (a ^^^ b) = b := by
  rw [← BitVec.xor_assoc, BitVec.xor_self, BitVec.zero_xor]

theorem bxor4 (a b c d : BitVec w) : (a ^^^ b) ^^^ (c ^^^ d) = (a ^^^ c) ^^^ (b ^^^ d) := by
  rw [BitVec.xor_assoc, BitVec.xor_assoc, ← BitVec.xor_assoc b, BitVec.xor_comm b c,
    BitVec.xor_assoc c]

theorem xtime_add : Additive (xtime p) := by
  intro a b
  unfold xtime
  rw [BitVec.msb_xor]
  have : (a ^^^ b) <<< 1 = (a <<< 1) ^^^ (b <<< 1) := by
    simp [BitVec.shiftLeft_xor_distrib]
  rw [this]
  have key : (if (a.msb ^^ b.msb) = true then p else 0#w)
      = (if a.msb then p else 0#w) ^^^ (if b.msb then p else 0#w) := by
    cases a.msb <;> cases b.msb <;> simp
  rw [key, bxor4]

theorem hmul_add_right (b : BitVec w) (k : Nat) : Additive (fun a => hmul p b a k) := by
  intro x y
  induction k with
  | zero => simp [hmul]
  | succ k ih =>
    simp only [hmul] at ih ⊢
    rw [ih, xtime_add p]
    have : (if b.getLsbD (w - 1 - k) = true then x ^^^ y else 0#w)
        = (if b.getLsbD (w - 1 - k) = true then x else 0#w) ^^^ (if b.getLsbD (w - 1 - k) = true then y else 0#w) := by
      split <;> simp
    rw [this, bxor4]

theorem hmul_add_left (a : BitVec w) (k : Nat) (x y : BitVec w) :
    hmul p (x ^^^ y) a k = hmul p x a k ^^^ hmul p y a k := by
  induction k with
  | zero => simp [hmul]
  | succ k ih =>
    simp only [hmul]
    rw [ih, xtime_add p, BitVec.getLsbD_xor]
    have : (if (x.getLsbD (w - 1 - k) ^^ y.getLsbD (w - 1 - k)) = true then a else 0#w)
        = (if x.getLsbD (w - 1 - k) = true then a else 0#w) ^^^ (if y.getLsbD (w - 1 - k) = true then a else 0#w) := by
      cases x.getLsbD (w - 1 - k) <;> cases y.getLsbD (w - 1 - k) <;> simp
    rw [this, bxor4]

/-- A linear map commuting with `xtime` commutes with multiplication by any element. -/
theorem hmul_comm_of {f : BitVec w → BitVec w} (hf : Additive f) (hx : ∀ a, f (xtime p a) = xtime p (f a))
    (b a : BitVec w) (k : Nat) : f (hmul p b a k) = hmul p b (f a) k := by
  induction k with
  | zero => simpa [hmul] using hf.zero
  | succ k ih =>
    simp only [hmul]
    rw [hf, hx, ih]
    congr 1
    split
    · rfl
    · exact hf.zero

theorem hmul_xtime (b a : BitVec w) (k : Nat) : hmul p b (xtime p a) k = xtime p (hmul p b a k) :=
  (hmul_comm_of p (xtime_add p) (fun _ => rfl) b a k).symm

theorem hmul_hmul (b c a : BitVec w) (k m : Nat) :
    hmul p c (hmul p b a k) m = hmul p b (hmul p c a m) k :=
  hmul_comm_of p (hmul_add_right p c m) (fun a => hmul_xtime p c a m) b a k

theorem hmul_one (a : BitVec w) (k : Nat) (hk : k ≤ w) : hmul p a 1#w k = a >>> (w - k) := by
  induction k with
  | zero =>
    apply BitVec.eq_of_getLsbD_eq
    intro i hi
    simp [hmul, BitVec.getLsbD_ushiftRight]
  | succ k ih =>
    simp only [hmul]
    rw [ih (by omega)]
    have hmsb : (a >>> (w - k)).msb = false := by
      rw [BitVec.msb_eq_getLsbD_last, BitVec.getLsbD_ushiftRight]
      apply BitVec.getLsbD_of_ge
      omega
    unfold xtime
    rw [hmsb]
    apply BitVec.eq_of_getLsbD_eq
    intro i hi
    simp only [BitVec.getLsbD_xor, BitVec.getLsbD_ushiftRight, BitVec.getLsbD_shiftLeft]
    rcases Nat.eq_zero_or_pos i with h0 | h0
    · subst h0
      have : w - 1 - k = w - (k + 1) := by omega
      rw [this]
      cases a.getLsbD (w - (k + 1)) <;> simp [hi, this]
    · have e1 : w - k + (i - 1) = w - (k + 1) + i := by omega
      have h1 : (if a.getLsbD (w - 1 - k) = true then 1#w else 0#w).getLsbD i = false := by
        split
        · simp [BitVec.getLsbD_one]; omega
        · simp
      rw [h1, e1]
      have : ¬ i < 1 := by omega
      simp [this, hi]

theorem pmul_one_left (a : BitVec w) : pmul p 1#w a = a := by
  simp [pmul, hmul_one p a w (Nat.le_refl w)]

theorem pmul_comm (a b : BitVec w) : pmul p a b = pmul p b a := by
  have h1 := hmul_hmul p a b 1#w w w
  rw [hmul_one p a w (Nat.le_refl w), hmul_one p b w (Nat.le_refl w)] at h1
  simpa [pmul] using h1

theorem pmul_assoc (a b c : BitVec w) : pmul p (pmul p a b) c = pmul p a (pmul p b c) := by
  rw [pmul_comm p a (pmul p b c)]
  show hmul p c (hmul p b a w) w = hmul p a (hmul p c b w) w
  have h1 : hmul p b a w = hmul p a b w := pmul_comm p a b
  rw [h1, hmul_hmul p a c b w w]

theorem pmul_xor (a b c : BitVec w) : pmul p a (b ^^^ c) = pmul p a b ^^^ pmul p a c :=
  hmul_add_left p a w b c

theorem xor_pmul (a b c : BitVec w) : pmul p (a ^^^ b) c = pmul p a c ^^^ pmul p b c :=
  hmul_add_right p c w a b

theorem psq_add : Additive (psq p) := by
  intro a b
  unfold psq
  rw [pmul_xor, xor_pmul, xor_pmul, pmul_comm p b a, bxor4]
  rw [show pmul p a b ^^^ pmul p b b = pmul p b b ^^^ pmul p a b from BitVec.xor_comm _ _]
  rw [show (pmul p a a ^^^ pmul p a b) ^^^ (pmul p b b ^^^ pmul p a b)
    = (pmul p a a ^^^ pmul p b b) ^^^ (pmul p a b ^^^ pmul p a b) from bxor4 _ _ _ _]
  rw [BitVec.xor_self, BitVec.xor_zero]

theorem psq_mul (a b : BitVec w) : psq p (pmul p a b) = pmul p (psq p a) (psq p b) := by
  unfold psq
  rw [pmul_assoc, pmul_assoc]
  congr 1
  rw [← pmul_assoc, pmul_comm p b a, pmul_assoc]

theorem psq_one : psq p 1#w = 1#w := pmul_one_left p _

/-- Iterated Frobenius. -/
def frob (p : BitVec w) : Nat → BitVec w → BitVec w
  | 0, a => a
  | k + 1, a => frob p k (psq p a)

theorem frob_add (k : Nat) : Additive (frob p k) := by
  induction k with
  | zero => intro a b; rfl
  | succ k ih => intro a b; simp only [frob]; rw [psq_add p, ih]

theorem frobProd_psq (k : Nat) (a : BitVec w) : psq p (frobProd p k a) = frobProd p k (psq p a) := by
  induction k generalizing a with
  | zero => exact psq_one p
  | succ k ih => simp only [frobProd]; rw [psq_mul, ih]

theorem frobProd_snoc (k : Nat) (a : BitVec w) :
    frobProd p (k + 1) a = pmul p (frobProd p k a) (frob p (k + 1) a) := by
  induction k generalizing a with
  | zero =>
    show pmul p (psq p a) 1#w = pmul p 1#w (psq p a)
    rw [pmul_comm]
  | succ k ih =>
    show pmul p (psq p a) (frobProd p (k + 1) (psq p a)) = _
    rw [ih, ← pmul_assoc]
    rfl

theorem pmul_frobProd (k : Nat) (a : BitVec w) :
    pmul p a (pmul p a (frobProd p k a)) = frob p (k + 1) a := by
  induction k generalizing a with
  | zero =>
    show pmul p a (pmul p a 1#w) = psq p a
    rw [pmul_comm p a 1#w, pmul_one_left]; rfl
  | succ k ih =>
    show pmul p a (pmul p a (pmul p (psq p a) (frobProd p k (psq p a)))) = frob p (k + 1) (psq p a)
    rw [← ih, ← pmul_assoc p a a]; rfl

/-- Linear extension: the value on basis vectors determines a linear map. -/
theorem additive_ext {f g : BitVec w → BitVec w} (hf : Additive f) (hg : Additive g)
    (h : ∀ i, i < w → f (BitVec.twoPow w i) = g (BitVec.twoPow w i)) (v : BitVec w) : f v = g v := by
  have key : ∀ k, k ≤ w → f ((v.setWidth k).setWidth w) = g ((v.setWidth k).setWidth w) := by
    intro k
    induction k with
    | zero =>
      intro _
      have : (v.setWidth 0).setWidth w = 0#w := by
        apply BitVec.eq_of_getLsbD_eq; intro i hi; simp
      rw [this, hf.zero, hg.zero]
    | succ k ih =>
      intro hk
      have : (v.setWidth (k+1)).setWidth w = (v.setWidth k).setWidth w ^^^
          (if v.getLsbD k then BitVec.twoPow w k else 0#w) := by
        apply BitVec.eq_of_getLsbD_eq
        intro i hi
        simp only [BitVec.getLsbD_xor, BitVec.getLsbD_setWidth, hi, decide_true, Bool.true_and]
        by_cases hik : i = k
        · subst hik
          cases v.getLsbD i <;> simp [BitVec.getLsbD_twoPow, hi]
        · have h2 : (if v.getLsbD k = true then BitVec.twoPow w k else 0#w).getLsbD i = false := by
            split
            · simp [BitVec.getLsbD_twoPow]; omega
            · simp
          rw [h2]
          have : (i < k + 1) ↔ i < k := by omega
          simp [this]
      rw [this, hf, hg, ih (by omega)]
      congr 1
      split
      · exact h k (by omega)
      · rw [hf.zero, hg.zero]
  have := key w (Nat.le_refl w)
  simpa using this

/-- The linear map with given images of the basis vectors. -/
def linTable (v : BitVec w) : Nat → List (BitVec w) → BitVec w
  | _, [] => 0#w
  | i, t :: ts => (if v.getLsbD i then t else 0#w) ^^^ linTable v (i + 1) ts

theorem linTable_add (T : List (BitVec w)) (i : Nat) : Additive (fun v => linTable v i T) := by
  intro a b
  induction T generalizing i with
  | nil => simp [linTable]
  | cons t ts ih =>
    simp only [linTable, BitVec.getLsbD_xor] at ih ⊢
    rw [ih]
    have : (if (a.getLsbD i ^^ b.getLsbD i) = true then t else 0#w)
        = (if a.getLsbD i = true then t else 0#w) ^^^ (if b.getLsbD i = true then t else 0#w) := by
      cases a.getLsbD i <;> cases b.getLsbD i <;> simp
    rw [this, bxor4]

/-- What has to be checked by computation on the `w` basis vectors. -/
def certOk (p : BitVec w) (T : List (BitVec w)) : Bool :=
  (List.range w).all fun i =>
    frob p w (BitVec.twoPow w i) == BitVec.twoPow w i &&
    linTable (psq p (BitVec.twoPow w i) ^^^ BitVec.twoPow w i) 0 T ==
      (if i = 0 then 0#w else BitVec.twoPow w i)

/-- Clearing bit 0. -/
def clr0 (v : BitVec w) : BitVec w := v ^^^ (if v.getLsbD 0 then 1#w else 0#w)

theorem clr0_add : Additive (clr0 (w := w)) := by
  intro a b
  unfold clr0
  rw [BitVec.getLsbD_xor]
  have : (if (a.getLsbD 0 ^^ b.getLsbD 0) = true then 1#w else 0#w)
      = (if a.getLsbD 0 = true then 1#w else 0#w) ^^^ (if b.getLsbD 0 = true then 1#w else 0#w) := by
    cases a.getLsbD 0 <;> cases b.getLsbD 0 <;> simp
  rw [this, bxor4]

section
variable {p} {T : List (BitVec w)} (hw : 0 < w) (hc : certOk p T = true)
include hc

theorem cert_at {i : Nat} (hi : i < w) :
    frob p w (BitVec.twoPow w i) = BitVec.twoPow w i ∧
    linTable (psq p (BitVec.twoPow w i) ^^^ BitVec.twoPow w i) 0 T =
      (if i = 0 then 0#w else BitVec.twoPow w i) := by
  have := List.all_eq_true.1 hc i (List.mem_range.2 hi)
  simpa using this

theorem frob_id (a : BitVec w) : frob p w a = a :=
  additive_ext (g := fun v => v) (frob_add p w) (fun _ _ => rfl) (fun _ hi => (cert_at hc hi).1) a

include hw

theorem fixed_of_psq {e : BitVec w} (he : psq p e = e) : e = 0#w ∨ e = 1#w := by
  have h1 : linTable (psq p e ^^^ e) 0 T = clr0 e := by
    refine additive_ext (f := fun e => linTable (psq p e ^^^ e) 0 T) ?_ clr0_add ?_ e
    · intro a b
      show linTable _ 0 T = _
      rw [psq_add p, bxor4]
      exact linTable_add T 0 _ _
    · intro i hi
      have := (cert_at hc hi).2
      rw [this]
      unfold clr0
      by_cases h0 : i = 0
      · subst h0
        simp [BitVec.getLsbD_twoPow, hw]
        apply BitVec.eq_of_getLsbD_eq
        intro j hj
        simp [BitVec.getLsbD_one, BitVec.getLsbD_twoPow]
        cases j <;> simp [hw]
      · simp [BitVec.getLsbD_twoPow, h0]
  have h2 : linTable (0#w) 0 T = 0#w := (linTable_add T 0).zero
  rw [he, BitVec.xor_self, h2] at h1
  unfold clr0 at h1
  by_cases hb : e.getLsbD 0 = true
  · right
    rw [if_pos hb] at h1
    have := congrArg (· ^^^ 1#w) h1
    simpa [BitVec.xor_assoc] using this.symm
  · left
    rw [if_neg hb] at h1
    simpa using h1.symm

theorem pmul_pinv (a : BitVec w) (ha : a ≠ 0#w) : pmul p a (pinv p a) = 1#w := by
  obtain ⟨k, rfl⟩ : ∃ k, w = k + 1 := ⟨w - 1, by omega⟩
  have hN : psq p (pmul p a (pinv p a)) = pmul p a (pinv p a) := by
    rw [psq_mul]
    unfold pinv
    rw [frobProd_psq]
    show frobProd p (k + 1) a = _
    rw [frobProd_snoc, frob_id hc, pmul_comm]
    rfl
  rcases fixed_of_psq hw hc hN with h | h
  · exfalso
    apply ha
    rw [← frob_id hc a, ← pmul_frobProd p k a]
    have h' : pmul p a (frobProd p k a) = 0#(k + 1) := h
    rw [h', pmul_comm]
    exact (hmul_add_right p a (k+1)).zero
  · exact h

end

/-- A certificate turns a polynomial into a field. -/
def gfOfCert (p : BitVec w) (T : List (BitVec w)) (hw : 0 < w) (hc : certOk p T = true) : GF w where
  mul := pmul p
  inv := pinv p
  mul_comm := pmul_comm p
  mul_assoc := pmul_assoc p
  one_mul := pmul_one_left p
  mul_xor := pmul_xor p
  mul_inv := pmul_pinv hw hc

/-- GF(2^4), x^4+x+1. -/
def gf4 : GF 4 := gfOfCert 0x3#4 [0x6, 0xa, 0x8, 0x0] (by decide) (by decide +kernel)

/-- GF(2^8), x^8+x^4+x^3+x^2+1. -/
def gf8 : GF 8 := gfOfCert 0x1d#8 [0xd6, 0xe8, 0xea, 0x2c, 0xee, 0x0, 0x24, 0x50]
  (by decide) (by decide +kernel)

/-- GF(2^16), x^16+x^12+x^3+x+1. -/
def gf16 : GF 16 := gfOfCert 0x100b#16
  [0x15e, 0xa5b4, 0xa5b6, 0x1cf4, 0xa5b2, 0x2820, 0x1cfc, 0x530, 0xa5a2, 0x96d2, 0x2800, 0x13cc,
   0x1cbc, 0x0, 0x5b0, 0x55b0]
  (by decide) (by decide +kernel)

/-- GF(2^32), x^32+x^22+x^2+x+1. -/
def gf32 : GF 32 := gfOfCert 0x400007#32
  [0x688fb702, 0x961d90d6, 0x961d90d4, 0x6da8f3b4, 0x961d90d0, 0x7fa0646c, 0x6da8f3bc, 0x1668a37c,
   0x961d90c0, 0x102438c, 0x7fa0644c, 0xfe932ec0, 0x6da8f3fc, 0x8513668c, 0x1668a3fc, 0x970f574c,
   0x961d91c0, 0x2104c, 0x102418c, 0xfbbd23fc, 0x7fa0604c, 0x7aa728b0, 0xfe9326c0, 0x16fc24fc,
   0x6da8e3fc, 0xf8af6270, 0x8513468c, 0x7314c700, 0x1668e3fc, 0xacc7818c, 0x970fd74c, 0x0]
  (by decide) (by decide +kernel)

end Netcode
