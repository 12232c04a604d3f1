import Mathlib.Algebra.Module.Pi
import Mathlib.Algebra.BigOperators.Pi
import Verif.Proofs.GFField
import Verif.Spec.Basic

/-! Regions as vectors over the field: `vec gf l j` is the `j`-th `w`-bit word of the byte list `l`,
zero beyond its end. -/

namespace Netcode

variable {w : Nat}

/-- `j`-th word of a number -/
def wd (gf : GF w) (x : Nat) (j : Nat) : FE gf := toFE gf (BitVec.ofNat w (x / 2 ^ (w * j)))

/-- words of a region -/
def vec (gf : GF w) (l : List Byte) : Nat → FE gf := wd gf (leNat l)

/-! ### bits -/

theorem leNat_lt (l : List Byte) : leNat l < 2 ^ (8 * l.length) := by
  induction l with
  | nil => simp [leNat]
  | cons b t ih =>
    simp only [leNat, List.length_cons]
    have hb : b.toNat < 256 := b.isLt
    have : 2 ^ (8 * (t.length + 1)) = 256 * 2 ^ (8 * t.length) := by
      rw [Nat.mul_add, Nat.pow_add]; omega
    omega

theorem leBytes_length (n x : Nat) : (leBytes n x).length = n := by
  induction n generalizing x with
  | zero => rfl
  | succ n ih => simp [leBytes, ih]

theorem leNat_leBytes (n x : Nat) : leNat (leBytes n x) = x % 2 ^ (8 * n) := by
  induction n generalizing x with
  | zero => simp [leBytes, leNat, Nat.mod_one]
  | succ n ih =>
    simp only [leBytes, leNat, ih, BitVec.toNat_ofNat]
    have : 2 ^ (8 * (n + 1)) = 256 * 2 ^ (8 * n) := by
      rw [Nat.mul_add, Nat.pow_add]; omega
    rw [this, Nat.mod_mul]

theorem leBytes_leNat (l : List Byte) : leBytes l.length (leNat l) = l := by
  induction l with
  | nil => rfl
  | cons b t ih =>
    simp only [List.length_cons, leBytes, leNat]
    have hb : b.toNat < 256 := b.isLt
    have h1 : (b.toNat + 256 * leNat t) / 256 = leNat t := by omega
    rw [h1, ih]
    congr 1
    apply BitVec.eq_of_toNat_eq
    simp only [BitVec.toNat_ofNat]
    omega

theorem leNat_inj {a b : List Byte} (hl : a.length = b.length) (h : leNat a = leNat b) : a = b := by
  rw [← leBytes_leNat a, ← leBytes_leNat b, hl, h]

theorem leNat_append (a b : List Byte) : leNat (a ++ b) = leNat a + 2 ^ (8 * a.length) * leNat b := by
  induction a with
  | nil => simp [leNat]
  | cons x t ih =>
    simp only [List.cons_append, leNat, ih, List.length_cons]
    have : 2 ^ (8 * (t.length + 1)) = 256 * 2 ^ (8 * t.length) := by
      rw [Nat.mul_add, Nat.pow_add]; omega
    rw [this, Nat.mul_add, Nat.mul_assoc]; omega

theorem leNat_zeros (n : Nat) : leNat (List.replicate n 0#8) = 0 := by
  induction n with
  | zero => rfl
  | succ n ih => simp [List.replicate_succ, leNat, ih]

theorem leNat_append_zeros (a : List Byte) (n : Nat) : leNat (a ++ List.replicate n 0#8) = leNat a := by
  rw [leNat_append, leNat_zeros]; simp

theorem leNat_take (l : List Byte) (n : Nat) : leNat (l.take n) = leNat l % 2 ^ (8 * n) := by
  rcases Nat.lt_or_ge l.length n with h | h
  · rw [List.take_of_length_le (by omega), Nat.mod_eq_of_lt]
    exact Nat.lt_of_lt_of_le (leNat_lt l) (Nat.pow_le_pow_right (by omega) (by omega))
  · conv => rhs; rw [← List.take_append_drop n l, leNat_append]
    have hl : (l.take n).length = n := by simp; omega
    have := leNat_lt (l.take n)
    rw [hl] at this ⊢
    rw [Nat.add_mul_mod_self_left, Nat.mod_eq_of_lt this]

theorem leNat_xorPrefix (d x : List Byte) (h : x.length ≤ d.length) :
    leNat (xorPrefix d x) = leNat d ^^^ leNat x := by
  induction d generalizing x with
  | nil =>
    cases x with
    | nil => simp [xorPrefix, leNat]
    | cons _ _ => simp at h
  | cons a t ih =>
    cases x with
    | nil => simp [xorPrefix, leNat]
    | cons b u =>
      simp only [xorPrefix, leNat, ih u (by simpa using h)]
      apply Nat.eq_of_testBit_eq
      intro i
      have e1 := Nat.testBit_two_pow_mul_add (leNat t ^^^ leNat u) (i := 8) (a ^^^ b).isLt i
      have e2 := Nat.testBit_two_pow_mul_add (leNat t) (i := 8) a.isLt i
      have e3 := Nat.testBit_two_pow_mul_add (leNat u) (i := 8) b.isLt i
      rw [Nat.testBit_xor]
      rw [show 2 ^ 8 = 256 from rfl] at e1 e2 e3
      rw [Nat.add_comm _ (256 * _), Nat.add_comm _ (256 * leNat t), Nat.add_comm _ (256 * leNat u),
        e1, e2, e3]
      split
      · simp
      · simp

theorem xorPrefix_length (d x : List Byte) : (xorPrefix d x).length = d.length := by
  induction d generalizing x with
  | nil => simp [xorPrefix]
  | cons a t ih => cases x <;> simp [xorPrefix, ih]

/-! ### words -/

theorem wd_bit (gf : GF w) (x j i : Nat) :
    (wd gf x j).bit i = (decide (i < w) && x.testBit (w * j + i)) := by
  unfold wd
  rw [FE.bit_toFE, BitVec.getLsbD_ofNat, Nat.testBit_div_two_pow, Nat.add_comm i]

theorem wd_inj (gf : GF w) (hw : 0 < w) {x y : Nat} (h : ∀ j, wd gf x j = wd gf y j) : x = y := by
  apply Nat.eq_of_testBit_eq
  intro i
  have h1 := congrArg (fun v : FE gf => v.bit (i % w)) (h (i / w))
  simp only [wd_bit] at h1
  simpa [Nat.mod_lt _ hw, Nat.div_add_mod] using h1

theorem wd_zero (gf : GF w) (j : Nat) : wd gf 0 j = (0 : FE gf) := by
  unfold wd
  rw [Nat.zero_div]; rfl

theorem wd_xor (gf : GF w) (x y j : Nat) : wd gf (x ^^^ y) j = wd gf x j + wd gf y j := by
  apply FE.ext_bit
  intro i hi
  rw [FE.bit_add, wd_bit, wd_bit, wd_bit]
  simp [hi]

theorem wd_mod (gf : GF w) (x k j : Nat) : wd gf (x % 2 ^ (w * k)) j = if j < k then wd gf x j else 0 := by
  apply FE.ext_bit
  intro i hi
  split
  · next h =>
    rw [wd_bit, wd_bit, Nat.testBit_mod_two_pow]
    have : w * j + i < w * k := by
      calc w * j + i < w * j + w := by omega
        _ = w * (j + 1) := by rw [Nat.mul_add, Nat.mul_one]
        _ ≤ w * k := Nat.mul_le_mul_left _ h
    simp [this]
  · next h =>
    rw [wd_bit, Nat.testBit_mod_two_pow, FE.bit_zero]
    have : ¬ w * j + i < w * k := by
      have : w * k ≤ w * j := Nat.mul_le_mul_left _ (by omega)
      omega
    simp [this]

theorem wd_add_zero (gf : GF w) {x : Nat} {k : Nat} (h : x < 2 ^ (w * k)) {j : Nat} (hj : k ≤ j) :
    wd gf x j = 0 := by
  have := wd_mod gf x k j
  rw [Nat.mod_eq_of_lt h, if_neg (by omega)] at this
  exact this

theorem wd_mulWords (gf : GF w) (c : BitVec w) (k x j : Nat) :
    wd gf (mulWords gf c k x) j = if j < k then toFE gf c * wd gf x j else 0 := by
  induction k generalizing x j with
  | zero => simp [mulWords, wd_zero]
  | succ k ih =>
    simp only [mulWords]
    have hlt : BitVec.toNat (gf.mul c (BitVec.ofNat w x)) < 2 ^ w := BitVec.isLt _
    rcases j with _ | j
    · rw [if_pos (by omega)]
      unfold wd
      rw [← toFE_mul, toFE_inj]
      simp only [Nat.mul_zero, Nat.pow_zero, Nat.div_one]
      apply BitVec.eq_of_toNat_eq
      rw [BitVec.toNat_ofNat, Nat.add_mul_mod_self_left, Nat.mod_eq_of_lt hlt]
    · have h1 : ∀ y z : Nat, y < 2 ^ w → wd gf (y + 2 ^ w * z) (j + 1) = wd gf z j := by
        intro y z hy
        unfold wd
        congr 2
        have : w * (j + 1) = w + w * j := by rw [Nat.mul_add]; omega
        rw [this, Nat.pow_add, ← Nat.div_div_eq_div_mul, Nat.add_mul_div_left _ _ (Nat.two_pow_pos w),
          Nat.div_eq_of_lt hy, Nat.zero_add]
      rw [h1 _ _ hlt, ih]
      have h2 : wd gf (x / 2 ^ w) j = wd gf x (j + 1) := by
        have := h1 (x % 2 ^ w) (x / 2 ^ w) (Nat.mod_lt _ (Nat.two_pow_pos w))
        rw [Nat.mod_add_div] at this
        exact this.symm
      rw [h2]
      simp

/-! ### regions -/

theorem vec_inj (gf : GF w) (hw : 0 < w) {a b : List Byte} (hl : a.length = b.length)
    (h : vec gf a = vec gf b) : a = b :=
  leNat_inj hl (wd_inj gf hw (fun j => congrFun h j))

theorem mulRegion_length (gf : GF w) (c : BitVec w) (l : List Byte) : (mulRegion gf c l).length = l.length :=
  leBytes_length _ _

theorem mulWords_lt (gf : GF w) (c : BitVec w) (k x : Nat) : mulWords gf c k x < 2 ^ (w * k) := by
  induction k generalizing x with
  | zero => simp [mulWords]
  | succ k ih =>
    simp only [mulWords]
    have h1 : (gf.mul c (BitVec.ofNat w x)).toNat < 2 ^ w := BitVec.isLt _
    have h2 := ih (x / 2 ^ w)
    have : 2 ^ (w * (k + 1)) = 2 ^ w * 2 ^ (w * k) := by
      rw [Nat.mul_add, Nat.pow_add, Nat.mul_comm]; simp
    rw [this]
    calc _ < 2 ^ w + 2 ^ w * mulWords gf c k (x / 2 ^ w) := by omega
      _ = 2 ^ w * (mulWords gf c k (x / 2 ^ w) + 1) := by rw [Nat.mul_add]; omega
      _ ≤ _ := Nat.mul_le_mul_left _ h2

theorem words_mul (n : Nat) (h : 8 * n % w = 0) : w * (8 * n / w) = 8 * n :=
  Nat.mul_div_cancel' (Nat.dvd_of_mod_eq_zero h)

variable [Fact (0 < w)]

theorem vec_mulRegion (gf : GF w) (c : BitVec w) (l : List Byte) (h : 8 * l.length % w = 0) :
    vec gf (mulRegion gf c l) = toFE gf c • vec gf l := by
  funext j
  show wd gf (leNat (leBytes _ _)) j = toFE gf c * wd gf (leNat l) j
  have hk := words_mul l.length h
  rw [leNat_leBytes, Nat.mod_eq_of_lt (by
    have := mulWords_lt gf c (8 * l.length / w) (leNat l); rwa [hk] at this)]
  rw [wd_mulWords]
  split
  · rfl
  · next hj =>
    have := leNat_lt l
    rw [← hk] at this
    rw [wd_add_zero gf this (by omega), MulZeroClass.mul_zero]

omit [Fact (0 < w)] in
theorem vec_xorPrefix (gf : GF w) (d x : List Byte) (h : x.length ≤ d.length) :
    vec gf (xorPrefix d x) = vec gf d + vec gf x := by
  funext j
  show wd gf (leNat _) j = wd gf (leNat d) j + wd gf (leNat x) j
  rw [leNat_xorPrefix d x h, wd_xor]

omit [Fact (0 < w)] in
theorem vec_append_zeros (gf : GF w) (a : List Byte) (n : Nat) :
    vec gf (a ++ List.replicate n 0#8) = vec gf a := by
  unfold vec; rw [leNat_append_zeros]

omit [Fact (0 < w)] in
theorem vec_take (gf : GF w) (l : List Byte) (n : Nat) (h : 8 * n % w = 0) (j : Nat) :
    vec gf (l.take n) j = if j < 8 * n / w then vec gf l j else 0 := by
  show wd gf (leNat _) j = _
  rw [leNat_take]
  conv => lhs; rw [← words_mul n h]
  rw [wd_mod]
  rfl

omit [Fact (0 < w)] in
theorem vec_zero_of_len (gf : GF w) (l : List Byte) (n j : Nat) (h : 8 * n % w = 0) (hl : l.length ≤ n)
    (hj : 8 * n / w ≤ j) : vec gf l j = 0 := by
  apply wd_add_zero gf (k := 8 * n / w) _ hj
  rw [words_mul n h]
  exact Nat.lt_of_lt_of_le (leNat_lt l) (Nat.pow_le_pow_right (by omega) (by omega))

omit [Fact (0 < w)] in
theorem vec_nil (gf : GF w) : vec gf [] = 0 := by
  funext j; exact wd_zero gf j

/-- If the words of `l` vanish beyond `n` bytes and agree with those of `d`, `d` being `n` bytes long,
then the first `n` bytes of `l` are `d`. -/
theorem take_eq_of_vec (gf : GF w) (l d : List Byte) (hl : d.length ≤ l.length)
    (ha : 8 * d.length % w = 0) (h : ∀ j, j < 8 * d.length / w → vec gf l j = vec gf d j) :
    l.take d.length = d := by
  apply vec_inj gf Fact.out
  · simp; omega
  · funext j
    rw [vec_take gf l _ ha]
    split
    · next hj => exact h j hj
    · next hj => exact (vec_zero_of_len gf d d.length j ha (Nat.le_refl _) (by omega)).symm

/-! ### sizes -/

/-- A 16-bit size as a vector. -/
def szVec (gf : GF w) (s : BitVec 16) : Nat → FE gf := wd gf s.toNat

omit [Fact (0 < w)] in
theorem szVec_xor (gf : GF w) (s t : BitVec 16) : szVec gf (s ^^^ t) = szVec gf s + szVec gf t := by
  funext j
  show wd gf _ j = wd gf _ j + wd gf _ j
  rw [BitVec.toNat_xor, wd_xor]

omit [Fact (0 < w)] in
theorem szVec_zero (gf : GF w) : szVec gf 0 = 0 := by
  funext j; exact wd_zero gf j

theorem szVec_inj (gf : GF w) {s t : BitVec 16} (h : szVec gf s = szVec gf t) : s = t :=
  BitVec.eq_of_toNat_eq (wd_inj gf Fact.out (fun j => congrFun h j))

/-- `s` is the 16 low bits of the vector `v`. -/
def IsTrunc (gf : GF w) (s : BitVec 16) (v : Nat → FE gf) : Prop :=
  ∀ i, i < 16 → s.getLsbD i = (v (i / w)).bit (i % w)

theorem isTrunc_szVec (gf : GF w) (s : BitVec 16) : IsTrunc gf s (szVec gf s) := by
  intro i hi
  have hw : 0 < w := Fact.out
  unfold szVec
  rw [wd_bit, Nat.div_add_mod]
  simp only [Nat.mod_lt _ hw, decide_true, Bool.true_and]
  rfl

omit [Fact (0 < w)] in
theorem isTrunc_unique {gf : GF w} {s t : BitVec 16} {v : Nat → FE gf} (h1 : IsTrunc gf s v)
    (h2 : IsTrunc gf t v) : s = t :=
  BitVec.eq_of_getLsbD_eq (fun i hi => by rw [h1 i hi, h2 i hi])

omit [Fact (0 < w)] in
theorem isTrunc_xor {gf : GF w} {s t : BitVec 16} {u v : Nat → FE gf} (h1 : IsTrunc gf s u)
    (h2 : IsTrunc gf t v) : IsTrunc gf (s ^^^ t) (u + v) := by
  intro i hi
  rw [BitVec.getLsbD_xor, h1 i hi, h2 i hi, Pi.add_apply, FE.bit_add]

omit [Fact (0 < w)] in
theorem isTrunc_zero {gf : GF w} : IsTrunc gf 0 (0 : Nat → FE gf) := by
  intro i hi
  rw [Pi.zero_apply, FE.bit_zero]
  simp

omit [Fact (0 < w)] in
theorem szVec_word0 (gf : GF w) (s : BitVec 16) : szVec gf s 0 = toFE gf (s.setWidth w) := by
  unfold szVec wd
  rw [toFE_inj]
  apply BitVec.eq_of_toNat_eq
  simp

/-- `multiply_size` is multiplication followed by truncation to 16 bits. -/
theorem mulSize_trunc (gf : GF w) (hv : ValidW w) (s : BitVec 16) (c : BitVec w) :
    IsTrunc gf (mulSize gf s c) (toFE gf c • szVec gf s) := by
  unfold mulSize
  split
  · next h =>
    have : toFE gf c • szVec gf s = 0 := by
      rcases h with h | h
      · subst h; rw [show szVec gf (0 : BitVec 16) = 0 from szVec_zero gf, smul_zero]
      · rw [show toFE gf c = 0 from h, zero_smul]
    rw [this]
    exact isTrunc_zero
  · split
    · next hw8 =>
      have hvec : vec gf (leBytes 2 s.toNat) = szVec gf s := by
        unfold vec szVec
        rw [leNat_leBytes, Nat.mod_eq_of_lt s.isLt]
      have hlen : (leBytes 2 s.toNat).length = 2 := leBytes_length _ _
      have hal : 8 * (leBytes 2 s.toNat).length % w = 0 := by
        rw [hlen]; rcases hv with h | h | h | h <;> subst h <;> first | rfl | omega
      rw [← hvec, ← vec_mulRegion gf c _ hal]
      have hlt := leNat_lt (mulRegion gf c (leBytes 2 s.toNat))
      rw [mulRegion_length, hlen] at hlt
      have := isTrunc_szVec gf (BitVec.ofNat 16 (leNat (mulRegion gf c (leBytes 2 s.toNat))))
      unfold szVec at this
      rw [BitVec.toNat_ofNat, Nat.mod_eq_of_lt hlt] at this
      exact this
    · next hw8 =>
      intro i hi
      have hw16 : 16 ≤ w := by rcases hv with h | h | h | h <;> omega
      have e1 : i / w = 0 := Nat.div_eq_of_lt (by omega)
      have e2 : i % w = i := Nat.mod_eq_of_lt (by omega)
      rw [BitVec.getLsbD_setWidth, e1, e2, Pi.smul_apply, szVec_word0, smul_eq_mul, ← toFE_mul,
        FE.bit_toFE, gf.mul_comm]
      simp only [hi, decide_true, Bool.true_and]

theorem trunc_exact {gf : GF w} {s : BitVec 16} {v : Nat → FE gf} (h : IsTrunc gf s v)
    (hz : ∀ j i, i < w → 16 ≤ w * j + i → (v j).bit i = false) : szVec gf s = v := by
  have hw : 0 < w := Fact.out
  funext j
  apply FE.ext_bit
  intro i hi
  unfold szVec
  rw [wd_bit]
  simp only [hi, decide_true, Bool.true_and]
  show s.getLsbD (w * j + i) = _
  rcases Nat.lt_or_ge (w * j + i) 16 with h16 | h16
  · rw [h _ h16, Nat.mul_add_div hw, Nat.div_eq_of_lt hi, Nat.mul_add_mod, Nat.mod_eq_of_lt hi, Nat.add_zero]
  · rw [hz j i hi h16, BitVec.getLsbD_of_ge _ _ h16]

theorem szVec_mulSize (gf : GF w) (hv : ValidW w) (s : BitVec 16) (c : BitVec w) (hf : SizeFits gf c s) :
    szVec gf (mulSize gf s c) = toFE gf c • szVec gf s := by
  apply trunc_exact (mulSize_trunc gf hv s c)
  intro j i hi h16
  rw [Pi.smul_apply, smul_eq_mul]
  by_cases hw32 : w = 32
  · rcases Nat.eq_zero_or_pos j with h0 | h0
    · subst h0
      have h1 := hf hw32
      rw [szVec_word0, ← toFE_mul, gf.mul_comm, FE.bit_toFE]
      show Nat.testBit (BitVec.toNat _) i = false
      apply Nat.testBit_lt_two_pow
      exact Nat.lt_of_lt_of_le h1 (Nat.pow_le_pow_right (by omega) (by omega))
    · have : szVec gf s j = 0 := by
        apply wd_add_zero gf (k := 1) _ h0
        have := s.isLt
        exact Nat.lt_of_lt_of_le this (Nat.pow_le_pow_right (by omega) (by omega))
      rw [this, MulZeroClass.mul_zero, FE.bit_zero]
  · have hk : w * (16 / w) = 16 := by
      rcases hv with h | h | h | h <;> subst h <;> first | rfl | omega
    have hj : 16 / w ≤ j := by
      by_contra hlt
      have : w * (j + 1) ≤ w * (16 / w) := Nat.mul_le_mul_left _ (by omega)
      rw [hk, Nat.mul_add] at this
      omega
    have : szVec gf s j = 0 := by
      apply wd_add_zero gf (k := 16 / w) _ hj
      rw [hk]; exact s.isLt
    rw [this, MulZeroClass.mul_zero, FE.bit_zero]

end Netcode
