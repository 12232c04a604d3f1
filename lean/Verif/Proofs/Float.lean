import Verif.Model.Float
import Verif.Spec.Schedule
import Mathlib.Tactic.Linarith
import Mathlib.Tactic.Positivity
import Mathlib.Tactic.NormNum
import Mathlib.Tactic.FieldSimp
import Mathlib.Tactic.Ring
import Mathlib.Algebra.Order.Field.Power

/-!
# Rounding to doubles
-/

namespace Netcode

theorem roundEven_bounds (y : Rat) : y - 1 / 2 ≤ roundEven y ∧ (roundEven y : Rat) ≤ y + 1 / 2 := by
  have h1 : ((y.floor : Int) : Rat) ≤ y := Rat.floor_le y
  have h2 : y < ((y.floor : Int) : Rat) + 1 := by
    have := Rat.lt_floor_add_one y
    exact_mod_cast this
  unfold roundEven
  split
  · constructor <;> linarith
  · split
    · push_cast; constructor <;> linarith
    · split
      · constructor <;> linarith
      · push_cast; constructor <;> linarith

theorem roundEven_floor (y : Rat) : y.floor ≤ roundEven y ∧ roundEven y ≤ y.floor + 1 := by
  unfold roundEven
  split
  · omega
  · split
    · omega
    · split <;> omega

theorem roundEven_mono {a b : Rat} (h : a ≤ b) : roundEven a ≤ roundEven b := by
  have hf : a.floor ≤ b.floor := Rat.floor_monotone h
  rcases hf.lt_or_eq with hlt | heq
  · have := (roundEven_floor a).2
    have := (roundEven_floor b).1
    omega
  · unfold roundEven
    rw [heq]
    have hd : a - b.floor ≤ b - b.floor := by linarith
    generalize a - b.floor = u at hd
    generalize b - b.floor = v at hd
    by_cases h1 : u < 1 / 2
    · rw [if_pos h1]
      split
      · omega
      · split
        · omega
        · split <;> omega
    · have h1' : ¬ v < 1 / 2 := fun hc => h1 (lt_of_le_of_lt hd hc)
      rw [if_neg h1, if_neg h1']
      by_cases h2 : 1 / 2 < u
      · rw [if_pos h2, if_pos (lt_of_lt_of_le h2 hd)]
      · rw [if_neg h2]
        split
        · split <;> omega
        · omega

theorem roundEven_unique {y : Rat} {n : Int} (h1 : (n : Rat) - 1 / 2 < y) (h2 : y < n + 1 / 2) : roundEven y = n := by
  have := roundEven_bounds y
  have h3 : (n : Rat) < roundEven y + 1 := by linarith
  have h4 : (roundEven y : Rat) < n + 1 := by linarith
  have h5 : n < roundEven y + 1 := by exact_mod_cast h3
  have h6 : roundEven y < n + 1 := by exact_mod_cast h4
  omega

theorem ulp_pos (x : Rat) : 0 < ulp x := by unfold ulp; positivity

theorem log_bounds {x : Rat} (h : 0 < x) : (2 : Rat) ^ (Int.log 2 x) ≤ x ∧ x < 2 ^ (Int.log 2 x + 1) := by
  have h1 := Int.zpow_log_le_self (b := 2) (by decide) h
  have h2 := Int.lt_zpow_succ_log_self (b := 2) (by decide) x
  exact ⟨by exact_mod_cast h1, by exact_mod_cast h2⟩

theorem pow_split (e : Int) : (2 : Rat) ^ e = 2 ^ 52 * 2 ^ (e - 52) := by
  rw [show (2 : Rat) ^ (52 : Nat) = 2 ^ (52 : Int) by norm_cast, ← zpow_add₀ (by norm_num)]
  congr 1; ring

theorem pow_split' (e : Int) : (2 : Rat) ^ (e + 1) = 2 ^ 53 * 2 ^ (e - 52) := by
  rw [show (2 : Rat) ^ (53 : Nat) = 2 ^ (53 : Int) by norm_cast, ← zpow_add₀ (by norm_num)]
  congr 1; ring

theorem sig_bounds {x : Rat} (h : 0 < x) : (2 : Rat) ^ 52 ≤ x / ulp x ∧ x / ulp x < 2 ^ 53 := by
  have hb := log_bounds h
  rw [pow_split] at hb
  rw [pow_split'] at hb
  have hu := ulp_pos x
  unfold ulp at hu ⊢
  rw [le_div_iff₀ hu, div_lt_iff₀ hu]
  exact hb

theorem roundEven_int (n : Int) : roundEven n = n := roundEven_unique (by linarith) (by linarith)

theorem roundPos_bounds {x : Rat} (h : 0 < x) :
    (2 : Rat) ^ (Int.log 2 x) ≤ roundPos x ∧ roundPos x ≤ 2 ^ (Int.log 2 x + 1) := by
  have hb := sig_bounds h
  have hu := ulp_pos x
  have h1 : (2 ^ 52 : Int) ≤ roundEven (x / ulp x) := by
    rw [← roundEven_int (2 ^ 52)]
    apply roundEven_mono
    push_cast
    exact hb.1
  have h2 : roundEven (x / ulp x) ≤ (2 ^ 53 : Int) := by
    rw [← roundEven_int (2 ^ 53)]
    apply roundEven_mono
    push_cast
    exact hb.2.le
  rw [pow_split, pow_split']
  unfold roundPos
  have h1' : (2 ^ 52 : Rat) ≤ roundEven (x / ulp x) := by exact_mod_cast h1
  have h2' : (roundEven (x / ulp x) : Rat) ≤ 2 ^ 53 := by exact_mod_cast h2
  constructor
  · exact mul_le_mul_of_nonneg_right h1' hu.le
  · exact mul_le_mul_of_nonneg_right h2' hu.le

theorem roundPos_pos {x : Rat} (h : 0 < x) : 0 < roundPos x :=
  lt_of_lt_of_le (by positivity) (roundPos_bounds h).1

theorem roundPos_mono {a b : Rat} (ha : 0 < a) (h : a ≤ b) : roundPos a ≤ roundPos b := by
  have hb : 0 < b := lt_of_lt_of_le ha h
  have hl : Int.log 2 a ≤ Int.log 2 b := Int.log_mono_right ha h
  rcases hl.lt_or_eq with hlt | heq
  · refine (roundPos_bounds ha).2.trans (le_trans ?_ (roundPos_bounds hb).1)
    exact zpow_le_zpow_right₀ (by norm_num) (by omega)
  · have hu : ulp a = ulp b := by unfold ulp; rw [heq]
    unfold roundPos
    rw [hu]
    have h1 : roundEven (a / ulp b) ≤ roundEven (b / ulp b) :=
      roundEven_mono (div_le_div_of_nonneg_right h (ulp_pos b).le)
    have h2 : (roundEven (a / ulp b) : Rat) ≤ roundEven (b / ulp b) := by exact_mod_cast h1
    exact mul_le_mul_of_nonneg_right h2 (ulp_pos b).le

theorem roundDouble_pos {x : Rat} (h : 0 < x) : roundDouble x = roundPos x := by
  unfold roundDouble
  rw [if_neg h.ne', if_pos h]

theorem roundDouble_neg {x : Rat} (h : x < 0) : roundDouble x = - roundPos (-x) := by
  unfold roundDouble
  rw [if_neg h.ne, if_neg (by linarith)]

theorem roundDouble_zero : roundDouble 0 = 0 := by unfold roundDouble; rw [if_pos rfl]

theorem roundDouble_mono {a b : Rat} (h : a ≤ b) : roundDouble a ≤ roundDouble b := by
  rcases lt_trichotomy a 0 with ha | ha | ha
  · rw [roundDouble_neg ha]
    have := roundPos_pos (x := -a) (by linarith)
    rcases lt_trichotomy b 0 with hb | hb | hb
    · rw [roundDouble_neg hb]
      have := roundPos_mono (a := -b) (b := -a) (by linarith) (by linarith)
      linarith
    · subst hb; rw [roundDouble_zero]; linarith
    · rw [roundDouble_pos hb]
      have := roundPos_pos hb
      linarith
  · subst ha
    rw [roundDouble_zero]
    rcases h.lt_or_eq with hb | hb
    · rw [roundDouble_pos hb]; exact (roundPos_pos hb).le
    · rw [← hb, roundDouble_zero]
  · rw [roundDouble_pos ha, roundDouble_pos (lt_of_lt_of_le ha h)]
    exact roundPos_mono ha h

/-- Recognising a rounded number: significand `n`, scale 2^-j. -/
theorem roundDouble_eq {x : Rat} {n : Nat} {j : Nat} (h1 : 2 ^ 52 ≤ n) (h2 : n < 2 ^ 53)
    (h3 : (n : Rat) - 1 / 2 < x * 2 ^ j) (h4 : x * 2 ^ j < n + 1 / 2) (h5 : (2 : Rat) ^ 52 ≤ x * 2 ^ j)
    (h6 : x * 2 ^ j < 2 ^ 53) : roundDouble x = n / 2 ^ j := by
  have hj : (0 : Rat) < 2 ^ j := by positivity
  have hx : 0 < x := by
    by_contra hc
    have : x * 2 ^ j ≤ 0 := mul_nonpos_of_nonpos_of_nonneg (by linarith) hj.le
    have : (0 : Rat) < 2 ^ 52 := by positivity
    linarith
  have hlog : Int.log 2 x = 52 - (j : Int) := by
    have e1 : (2 : Rat) ^ (52 - (j : Int)) ≤ x := by
      rw [zpow_sub₀ (by norm_num), zpow_natCast, div_le_iff₀ hj]
      exact_mod_cast h5
    have e2 : x < (2 : Rat) ^ (52 - (j : Int) + 1) := by
      rw [show 52 - (j : Int) + 1 = 53 - (j : Int) by ring, zpow_sub₀ (by norm_num), zpow_natCast, lt_div_iff₀ hj]
      exact_mod_cast h6
    have f1 : 52 - (j : Int) ≤ Int.log 2 x := (Int.zpow_le_iff_le_log (b := 2) (by decide) hx).1 (by exact_mod_cast e1)
    have f2 : Int.log 2 x < 52 - (j : Int) + 1 := (Int.lt_zpow_iff_log_lt (b := 2) (by decide) hx).1 (by exact_mod_cast e2)
    omega
  have hulp : ulp x = 1 / 2 ^ j := by
    unfold ulp
    rw [hlog, show 52 - (j : Int) - 52 = -(j : Int) by ring, zpow_neg, zpow_natCast, one_div]
  rw [roundDouble_pos hx]
  unfold roundPos
  rw [hulp]
  have : roundEven (x / (1 / 2 ^ j)) = (n : Int) := by
    apply roundEven_unique
    · rw [div_div_eq_mul_div, div_one]; exact_mod_cast h3
    · rw [div_div_eq_mul_div, div_one]; exact_mod_cast h4
  rw [this]
  push_cast
  ring

/-- The relative error. -/
theorem roundDouble_err {x : Rat} (h : 0 < x) :
    x * (1 - 1 / 2 ^ 53) ≤ roundDouble x ∧ roundDouble x ≤ x * (1 + 1 / 2 ^ 53) := by
  rw [roundDouble_pos h]
  unfold roundPos
  have hb := roundEven_bounds (x / ulp x)
  have hs := (sig_bounds h).1
  have hu := ulp_pos x
  have hx : x / ulp x * ulp x = x := div_mul_cancel₀ x hu.ne'
  have hle : ulp x * 2 ^ 52 ≤ x := by
    rw [le_div_iff₀ hu] at hs
    linarith
  have h1 : (x / ulp x - 1 / 2) * ulp x ≤ roundEven (x / ulp x) * ulp x := mul_le_mul_of_nonneg_right hb.1 hu.le
  have h2 : roundEven (x / ulp x) * ulp x ≤ (x / ulp x + 1 / 2) * ulp x := mul_le_mul_of_nonneg_right hb.2 hu.le
  rw [sub_mul, hx] at h1
  rw [add_mul, hx] at h2
  have h3 : ulp x * (1 / 2) ≤ x * (1 / 2 ^ 53) := by
    have : x * (1 / 2 ^ 53) = x / 2 ^ 53 := by ring
    rw [this, le_div_iff₀ (by positivity)]
    calc ulp x * (1 / 2) * 2 ^ 53 = ulp x * 2 ^ 52 := by ring
      _ ≤ x := hle
  constructor
  · linarith
  · linarith

theorem ieee_cent : roundDouble (1 / 100) = 5764607523034235 / 2 ^ 59 := by
  have := roundDouble_eq (x := 1 / 100) (n := 5764607523034235) (j := 59) (by norm_num) (by norm_num) (by norm_num)
    (by norm_num) (by norm_num) (by norm_num)
  rw [this]; norm_num

theorem ieee_rnd (x : Rat) : ieee.rnd x = roundDouble x := rfl

/-- The facts on doubles that the other proofs use. -/
theorem ieee_ok : ieee.Ok where
  mono := fun _ _ h => roundDouble_mono h
  half := by
    have := roundDouble_eq (x := 1 / 2) (n := 2 ^ 52) (j := 53) (by norm_num) (by norm_num) (by norm_num)
      (by norm_num) (by norm_num) (by norm_num)
    rw [ieee_rnd, this]; norm_num
  one := by
    have := roundDouble_eq (x := 1) (n := 2 ^ 52) (j := 52) (by norm_num) (by norm_num) (by norm_num)
      (by norm_num) (by norm_num) (by norm_num)
    rw [ieee_rnd, this]; norm_num
  fifty := by
    have := roundDouble_eq (x := 50) (n := 50 * 2 ^ 47) (j := 47) (by norm_num) (by norm_num) (by norm_num)
      (by norm_num) (by norm_num) (by norm_num)
    rw [ieee_rnd, this]; norm_num
  hundred := by
    have := roundDouble_eq (x := 100) (n := 100 * 2 ^ 46) (j := 46) (by norm_num) (by norm_num) (by norm_num)
      (by norm_num) (by norm_num) (by norm_num)
    rw [ieee_rnd, this]; norm_num
  cent := by
    rw [ieee_rnd, ieee_cent]; norm_num

end Netcode
