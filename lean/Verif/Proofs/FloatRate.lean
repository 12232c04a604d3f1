import Verif.Proofs.Float
import Verif.Proofs.SysInv

/-!
# The rate computed with doubles
-/

namespace Netcode

/-- For each integral rate (49 excepted), the significand and the scale of the double nearest to the loss, and the scale
of its inverse. -/
def rateTable : List (Nat × Nat × Nat × Nat) := [
  (1, 4503599627370496, 53, 51), (2, 4503599627370496, 54, 50), (3, 6004799503160661, 55, 50), (4, 4503599627370496, 55, 49),
  (5, 7205759403792794, 56, 49), (6, 6004799503160661, 56, 49), (7, 5146971002709138, 56, 49), (8, 4503599627370496, 56, 48),
  (9, 8006399337547548, 57, 48), (10, 7205759403792794, 57, 48), (11, 6550690367084358, 57, 48), (12, 6004799503160661, 57, 48),
  (13, 5542891849071380, 57, 48), (14, 5146971002709138, 57, 48), (15, 4803839602528529, 57, 48), (16, 4503599627370496, 57, 47),
  (17, 8477364004462110, 58, 47), (18, 8006399337547548, 58, 47), (19, 7585009898729256, 58, 47), (20, 7205759403792794, 58, 47),
  (21, 6862628003612184, 58, 47), (22, 6550690367084358, 58, 47), (23, 6265877742428516, 58, 47), (24, 6004799503160661, 58, 47),
  (25, 5764607523034235, 58, 47), (26, 5542891849071380, 58, 47), (27, 5337599558365032, 58, 47), (28, 5146971002709138, 58, 47),
  (29, 4969489243995030, 58, 47), (30, 4803839602528529, 58, 47), (31, 4648877034705028, 58, 47), (32, 4503599627370496, 58, 46),
  (33, 8734253822779144, 59, 46), (34, 8477364004462110, 59, 46), (35, 8235153604334621, 59, 46), (36, 8006399337547548, 59, 46),
  (37, 7790010166262480, 59, 46), (38, 7585009898729256, 59, 46), (39, 7390522465428506, 59, 46), (40, 7205759403792794, 59, 46),
  (41, 7030009174431994, 59, 46), (42, 6862628003612184, 59, 46), (43, 6703032003528180, 59, 46), (44, 6550690367084358, 59, 46),
  (45, 6405119470038039, 59, 46), (46, 6265877742428516, 59, 46), (47, 6132561194717271, 59, 46), (48, 6004799503160661, 59, 46),
  (50, 5764607523034235, 59, 46)]

/-- Where the roundings of 1/(2m) and of its inverse end up. -/
def rateRowOk (r : Nat × Nat × Nat × Nat) : Prop :=
  match r with
  | (m, n, j, J) => 0 < m ∧ 2 ^ 52 ≤ n ∧ n < 2 ^ 53 ∧ 2 * m * n < 2 ^ j + m ∧ 2 ^ j < 2 * m * n + m ∧
      2 ^ 52 * (2 * m) ≤ 2 ^ j ∧ 2 ^ j < 2 ^ 53 * (2 * m) ∧ 2 ^ 52 ≤ 2 * m * 2 ^ J ∧ 2 * m * 2 ^ J < 2 ^ 53 ∧
      (2 * (2 * m * 2 ^ J)) * n < 2 * (2 ^ j * 2 ^ J) + n ∧ 2 * (2 ^ j * 2 ^ J) < (2 * (2 * m * 2 ^ J)) * n + n ∧
      2 ^ 52 * n ≤ 2 ^ j * 2 ^ J ∧ 2 ^ j * 2 ^ J < 2 ^ 53 * n

instance (r : Nat × Nat × Nat × Nat) : Decidable (rateRowOk r) := by unfold rateRowOk; infer_instance

theorem rateTable_ok : ∀ r ∈ rateTable, rateRowOk r := by decide +kernel

theorem rateTable_complete : ∀ m ∈ List.range 51, m ≠ 0 → m ≠ 49 → ∃ r ∈ rateTable, r.1 = m := by decide +kernel

theorem rateRow_loss {m n j J : Nat} (h : rateRowOk (m, n, j, J)) :
    roundDouble (1 / (2 * (m : Rat))) = n / 2 ^ j := by
  obtain ⟨h0, h1, h2, h3, h4, h5, h6, -⟩ := h
  have hm : (0 : Rat) < 2 * (m : Rat) := by positivity
  have h3' : (2 : Rat) * m * n < 2 ^ j + m := by exact_mod_cast h3
  have h4' : (2 : Rat) ^ j < 2 * m * n + m := by exact_mod_cast h4
  have h5' : (2 : Rat) ^ 52 * (2 * m) ≤ 2 ^ j := by exact_mod_cast h5
  have h6' : (2 : Rat) ^ j < 2 ^ 53 * (2 * m) := by exact_mod_cast h6
  apply roundDouble_eq h1 h2
  · rw [div_mul_eq_mul_div, one_mul, lt_div_iff₀ hm]; linarith
  · rw [div_mul_eq_mul_div, one_mul, div_lt_iff₀ hm]; linarith
  · rw [div_mul_eq_mul_div, one_mul, le_div_iff₀ hm]; linarith
  · rw [div_mul_eq_mul_div, one_mul, div_lt_iff₀ hm]; linarith

theorem rateRow_inv {m n j J : Nat} (h : rateRowOk (m, n, j, J)) :
    roundDouble (1 / ((n : Rat) / 2 ^ j)) = 2 * m := by
  obtain ⟨h0, h1, h2, -, -, -, -, h7, h8, h9, h10, h11, h12⟩ := h
  have hn : (0 : Rat) < n := by
    have : 0 < n := lt_of_lt_of_le (by decide) h1
    exact_mod_cast this
  have h9' : (2 : Rat) * (2 * m * 2 ^ J) * n < 2 * (2 ^ j * 2 ^ J) + n := by exact_mod_cast h9
  have h10' : (2 : Rat) * (2 ^ j * 2 ^ J) < 2 * (2 * m * 2 ^ J) * n + n := by exact_mod_cast h10
  have h11' : (2 : Rat) ^ 52 * n ≤ 2 ^ j * 2 ^ J := by exact_mod_cast h11
  have h12' : (2 : Rat) ^ j * 2 ^ J < 2 ^ 53 * n := by exact_mod_cast h12
  have e : (1 : Rat) / (n / 2 ^ j) * 2 ^ J = 2 ^ j * 2 ^ J / n := by
    field_simp
  rw [roundDouble_eq (n := 2 * m * 2 ^ J) (j := J) h7 h8]
  · push_cast
    field_simp
  · rw [e, lt_div_iff₀ hn]; push_cast; linarith
  · rw [e, div_lt_iff₀ hn]; push_cast; linarith
  · rw [e, le_div_iff₀ hn]; linarith
  · rw [e, div_lt_iff₀ hn]; linarith

theorem rateRow_half {m n j J : Nat} (h : rateRowOk (m, n, j, J)) : roundDouble (2 * (m : Rat) / 2) = m := by
  obtain ⟨h0, h1, h2, -, -, -, -, h7, h8, -⟩ := h
  have e : (2 * (m : Rat) / 2) * 2 ^ (J + 1) = ((2 * m * 2 ^ J : Nat) : Rat) := by
    push_cast; ring
  have h7' : (2 : Rat) ^ 52 ≤ ((2 * m * 2 ^ J : Nat) : Rat) := by exact_mod_cast h7
  have h8' : ((2 * m * 2 ^ J : Nat) : Rat) < 2 ^ 53 := by exact_mod_cast h8
  rw [roundDouble_eq (n := 2 * m * 2 ^ J) (j := J + 1) h7 h8]
  · push_cast
    field_simp
    ring
  · rw [e]; linarith
  · rw [e]; linarith
  · rw [e]; exact h7'
  · rw [e]; exact h8'

/-- The rate when the loss is exactly 1/(2m). -/
theorem rate_integral {m : Nat} (h0 : 0 < m) (h1 : m ≤ 50) (h2 : m ≠ 49) :
    (roundDouble (roundDouble (1 / roundDouble (1 / (2 * (m : Rat)))) / 2)).ceil.toNat = m := by
  obtain ⟨⟨m', n, j, J⟩, hr, rfl⟩ := rateTable_complete m (List.mem_range.2 (by omega)) (by omega) h2
  have hok := rateTable_ok _ hr
  rw [rateRow_loss hok, rateRow_inv hok, rateRow_half hok]
  rw [show ((m' : Rat)) = ((m' : Int) : Rat) by norm_cast, Rat.ceil_intCast]
  simp

/-- The rate when the loss is exactly 1/98. -/
theorem rate_98 : (roundDouble (roundDouble (1 / roundDouble (1 / 98)) / 2)).ceil.toNat = 50 := by
  have e1 := roundDouble_eq (x := 1 / 98) (n := 5882252574524729) (j := 59) (by norm_num) (by norm_num) (by norm_num)
    (by norm_num) (by norm_num) (by norm_num)
  have e2 := roundDouble_eq (x := 1 / (((5882252574524729 : Nat) : Rat) / 2 ^ 59)) (n := 6896136929411073) (j := 46)
    (by norm_num) (by norm_num) (by norm_num) (by norm_num) (by norm_num) (by norm_num)
  have e3 := roundDouble_eq (x := ((6896136929411073 : Nat) : Rat) / 2 ^ 46 / 2) (n := 6896136929411073) (j := 47)
    (by norm_num) (by norm_num) (by norm_num) (by norm_num) (by norm_num) (by norm_num)
  rw [e1, e2, e3]
  have : (((6896136929411073 : Nat) : Rat) / 2 ^ 47).ceil = 50 := by
    apply le_antisymm
    · rw [Rat.ceil_le_iff]; norm_num
    · have : (49 : Int) < (((6896136929411073 : Nat) : Rat) / 2 ^ 47).ceil := by rw [Rat.lt_ceil_iff]; norm_num
      omega
  rw [this]; rfl

/-- The rate when the inverse of the loss is not close to an even number. -/
theorem rate_between {s k : Nat} (hk : 0 < k) (h1 : s ≤ 100 * k) (hs : s < 2 ^ 16) (hks : k ≤ s) (hd : ¬ 2 * k ∣ s) :
    (roundDouble (roundDouble (1 / roundDouble ((k : Rat) / s)) / 2)).ceil.toNat = (s + 2 * k - 1) / (2 * k) := by
  have hs0 : 0 < s := by omega
  have hkq : (0 : Rat) < k := by exact_mod_cast hk
  have hsq : (0 : Rat) < s := by exact_mod_cast hs0
  -- q = s / 2k is at least 1 / 2k away from the integers
  set c := (s + 2 * k - 1) / (2 * k) with hc
  have hr0 : 0 < s % (2 * k) := Nat.pos_of_ne_zero fun h => hd (Nat.dvd_of_mod_eq_zero h)
  have hrl : s % (2 * k) < 2 * k := Nat.mod_lt _ (by omega)
  have hdm := Nat.div_add_mod s (2 * k)
  have hc' : c = s / (2 * k) + 1 := by
    rw [hc, show s + 2 * k - 1 = (s - 1) + 2 * k by omega, Nat.add_div_right _ (by omega)]
    congr 1
    apply Nat.div_eq_of_lt_le
    · rw [Nat.mul_comm]; omega
    · rw [Nat.mul_comm, Nat.mul_add]; omega
  have hc1 : 2 * k * c ≥ s + 1 := by rw [hc', Nat.mul_add]; omega
  have hc2 : 2 * k * (c - 1) + 1 ≤ s := by rw [hc', Nat.add_sub_cancel]; omega
  have hcpos : 1 ≤ c := by rw [hc']; exact Nat.le_add_left 1 _
  -- the three roundings
  set q : Rat := (k : Rat) / s with hq
  have hq0 : 0 < q := by positivity
  obtain ⟨a1, a2⟩ := roundDouble_err hq0
  set L := roundDouble q with hL
  have hL0 : 0 < L := lt_of_lt_of_le (mul_pos hq0 (by norm_num)) a1
  have hi0 : 0 < 1 / L := by positivity
  obtain ⟨b1, b2⟩ := roundDouble_err hi0
  set I := roundDouble (1 / L) with hI
  have hI0 : 0 < I := by
    refine lt_of_lt_of_le ?_ b1
    apply mul_pos hi0
    norm_num
  obtain ⟨d1, d2⟩ := roundDouble_err (x := I / 2) (by positivity)
  set V := roundDouble (I / 2) with hV
  set t : Rat := s / (2 * k) with ht
  have ht0 : 0 < t := by positivity
  have ht50 : t ≤ 50 := by
    rw [ht, div_le_iff₀ (by positivity)]
    have : (s : Rat) ≤ 100 * k := by exact_mod_cast h1
    linarith
  have hinv : 1 / q = 2 * t := by rw [hq, ht]; field_simp
  -- 1 / L
  have i1 : 1 / L ≤ 2 * t * (1 + 1 / 2 ^ 52) := by
    rw [← hinv, div_le_iff₀ hL0]
    calc (1 : Rat) ≤ (1 + 1 / 2 ^ 52) * (1 - 1 / 2 ^ 53) := by norm_num
      _ = 1 / q * (1 + 1 / 2 ^ 52) * (q * (1 - 1 / 2 ^ 53)) := by field_simp
      _ ≤ 1 / q * (1 + 1 / 2 ^ 52) * L := mul_le_mul_of_nonneg_left a1 (by positivity)
  have i2 : 2 * t * (1 - 1 / 2 ^ 52) ≤ 1 / L := by
    rw [← hinv, le_div_iff₀ hL0]
    have hp : (0 : Rat) ≤ 1 / q * (1 - 1 / 2 ^ 52) := mul_nonneg (by positivity) (by norm_num)
    calc 1 / q * (1 - 1 / 2 ^ 52) * L ≤ 1 / q * (1 - 1 / 2 ^ 52) * (q * (1 + 1 / 2 ^ 53)) :=
          mul_le_mul_of_nonneg_left a2 hp
      _ = (1 - 1 / 2 ^ 52) * (1 + 1 / 2 ^ 53) := by field_simp
      _ ≤ 1 := by norm_num
  have v1 : V ≤ t * (1 + 1 / 2 ^ 50) := by
    calc V ≤ I / 2 * (1 + 1 / 2 ^ 53) := d2
      _ ≤ (1 / L * (1 + 1 / 2 ^ 53)) / 2 * (1 + 1 / 2 ^ 53) := by
          apply mul_le_mul_of_nonneg_right _ (by norm_num); linarith
      _ ≤ (2 * t * (1 + 1 / 2 ^ 52) * (1 + 1 / 2 ^ 53)) / 2 * (1 + 1 / 2 ^ 53) := by
          apply mul_le_mul_of_nonneg_right _ (by norm_num)
          apply div_le_div_of_nonneg_right _ (by norm_num)
          exact mul_le_mul_of_nonneg_right i1 (by norm_num)
      _ = t * ((1 + 1 / 2 ^ 52) * (1 + 1 / 2 ^ 53) * (1 + 1 / 2 ^ 53)) := by ring
      _ ≤ t * (1 + 1 / 2 ^ 50) := mul_le_mul_of_nonneg_left (by norm_num) ht0.le
  have v2 : t * (1 - 1 / 2 ^ 50) ≤ V := by
    calc t * (1 - 1 / 2 ^ 50) ≤ t * ((1 - 1 / 2 ^ 52) * (1 - 1 / 2 ^ 53) * (1 - 1 / 2 ^ 53)) :=
          mul_le_mul_of_nonneg_left (by norm_num) ht0.le
      _ = (2 * t * (1 - 1 / 2 ^ 52) * (1 - 1 / 2 ^ 53)) / 2 * (1 - 1 / 2 ^ 53) := by ring
      _ ≤ (1 / L * (1 - 1 / 2 ^ 53)) / 2 * (1 - 1 / 2 ^ 53) := by
          apply mul_le_mul_of_nonneg_right _ (by norm_num)
          apply div_le_div_of_nonneg_right _ (by norm_num)
          exact mul_le_mul_of_nonneg_right i2 (by norm_num)
      _ ≤ I / 2 * (1 - 1 / 2 ^ 53) := by
          apply mul_le_mul_of_nonneg_right _ (by norm_num); linarith
      _ ≤ V := d1
  -- the gap
  have hk16 : (2 * k : Rat) ≤ 2 ^ 17 := by
    have : 2 * k ≤ 2 ^ 17 := by omega
    exact_mod_cast this
  have gap : (1 : Rat) / 2 ^ 17 ≤ 1 / (2 * k) := one_div_le_one_div_of_le (by positivity) hk16
  have g1 : t + 1 / (2 * k) ≤ c := by
    rw [ht, ← add_div, div_le_iff₀ (by positivity)]
    have : ((s + 1 : Nat) : Rat) ≤ ((2 * k * c : Nat) : Rat) := by exact_mod_cast hc1
    push_cast at this; linarith
  have g2 : ((c - 1 : Nat) : Rat) + 1 / (2 * k) ≤ t := by
    rw [ht, ← sub_nonneg]
    have : ((2 * k * (c - 1) + 1 : Nat) : Rat) ≤ (s : Rat) := by exact_mod_cast hc2
    push_cast at this
    have e : (s : Rat) / (2 * k) - (((c - 1 : Nat) : Rat) + 1 / (2 * k)) =
        (s - (2 * k * ((c - 1 : Nat) : Rat) + 1)) / (2 * k) := by field_simp
    rw [e]
    apply div_nonneg _ (by positivity)
    push_cast
    linarith
  have m1 : t * (1 / 2 ^ 50) ≤ 50 / 2 ^ 50 := by
    calc t * (1 / 2 ^ 50) ≤ 50 * (1 / 2 ^ 50) := mul_le_mul_of_nonneg_right ht50 (by norm_num)
      _ = 50 / 2 ^ 50 := by ring
  have w1 : V ≤ c := by
    have : (50 : Rat) / 2 ^ 50 ≤ 1 / 2 ^ 17 := by norm_num
    linarith
  have w2 : ((c - 1 : Nat) : Rat) < V := by
    have : (50 : Rat) / 2 ^ 50 < 1 / 2 ^ 17 := by norm_num
    linarith
  have hceil : V.ceil = (c : Int) := by
    apply le_antisymm
    · rw [Rat.ceil_le_iff]; exact_mod_cast w1
    · have : ((c - 1 : Nat) : Int) < V.ceil := by rw [Rat.lt_ceil_iff]; exact_mod_cast w2
      omega
  rw [hceil]; simp

/-- The rate set after `sent` packets of which `nb` are reported. -/
theorem rate_exact {sent nb : Nat} (hs : sent < 2 ^ 16) (h0 : 0 < sent) :
    rateForLoss ieee (lossRate ieee sent nb) =
      if 100 * (sent - nb) < sent ∨ sent = 98 * (sent - nb) then 50
      else (sent + 2 * (sent - nb) - 1) / (2 * (sent - nb)) := by
  have hsq : (0 : Rat) < sent := by exact_mod_cast h0
  have hcent : (1 : Rat) / 100 ≤ ieee.rnd (1 / 100) := ieee_ok.cent
  by_cases hle : sent ≤ nb
  · rw [if_pos (by omega)]
    have h1 : lossRate ieee sent nb ≤ 0 := by
      unfold lossRate
      have : (ieee.rnd 0 : Rat) = 0 := roundDouble_zero
      rw [← this]
      apply ieee_ok.mono
      apply div_nonpos_of_nonpos_of_nonneg _ hsq.le
      have : (sent : Rat) ≤ nb := by exact_mod_cast hle
      linarith
    unfold rateForLoss
    rw [if_pos (by linarith)]
  · obtain ⟨k, hk⟩ : ∃ k, k = sent - nb := ⟨_, rfl⟩
    rw [← hk]
    have hk0 : 0 < k := by omega
    have hkq : (0 : Rat) < k := by exact_mod_cast hk0
    have hq : lossRate ieee sent nb = roundDouble ((k : Rat) / sent) := by
      unfold lossRate
      rw [hk, Nat.cast_sub (by omega)]
      rfl
    rw [hq]
    by_cases hlow : 100 * k < sent
    · rw [if_pos (Or.inl hlow)]
      unfold rateForLoss
      rw [if_pos]
      refine lt_of_lt_of_le ?_ hcent
      refine lt_of_le_of_lt (roundDouble_err (x := (k : Rat) / sent) (by positivity)).2 ?_
      have h1 : (100 * k + 1 : Rat) ≤ sent := by exact_mod_cast hlow
      have h2 : (k : Rat) ≤ 2 ^ 16 := by
        have : k ≤ 2 ^ 16 := by omega
        exact_mod_cast this
      rw [div_mul_eq_mul_div, div_lt_iff₀ hsq]
      have h3 : (k : Rat) * (1 / 2 ^ 53) < 1 / 100 := by
        calc (k : Rat) * (1 / 2 ^ 53) ≤ 2 ^ 16 * (1 / 2 ^ 53) := mul_le_mul_of_nonneg_right h2 (by norm_num)
          _ < 1 / 100 := by norm_num
      linarith
    · have hnl : ¬ roundDouble ((k : Rat) / sent) < ieee.rnd (1 / 100) := by
        rw [not_lt]
        apply roundDouble_mono
        rw [div_le_div_iff₀ (by norm_num) hsq]
        have : (sent : Rat) ≤ 100 * k := by
          have : sent ≤ 100 * k := by omega
          exact_mod_cast this
        linarith
      unfold rateForLoss
      rw [if_neg hnl]
      simp only [ieee_rnd]
      by_cases hd : 2 * k ∣ sent
      · obtain ⟨m, rfl⟩ := hd
        have hm0 : 0 < m := by
          rcases Nat.eq_zero_or_pos m with rfl | h
          · omega
          · exact h
        have hm50 : m ≤ 50 := by
          by_contra hc
          have : 2 * k * 51 ≤ 2 * k * m := Nat.mul_le_mul_left _ (by omega)
          omega
        have e : (k : Rat) / ((2 * k * m : Nat) : Rat) = 1 / (2 * m) := by
          push_cast; field_simp
        rw [e]
        by_cases hm : m = 49
        · subst hm
          rw [if_pos (Or.inr (by omega))]
          have := rate_98
          norm_num at this ⊢
          exact this
        · rw [if_neg, rate_integral hm0 hm50 hm]
          · symm
            apply Nat.div_eq_of_lt_le
            · rw [Nat.mul_comm]; omega
            · rw [Nat.add_mul, Nat.mul_comm m]; omega
          · rintro (h | h)
            · omega
            · have : 2 * k * m = 2 * k * 49 := by omega
              exact hm (Nat.eq_of_mul_eq_mul_left (by omega) this)
      · rw [if_neg, rate_between hk0 (by omega) hs (by omega) hd]
        rintro (h | h)
        · exact hlow h
        · exact hd ⟨49, by omega⟩

end Netcode
