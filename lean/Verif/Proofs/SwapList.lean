import Verif.Model.ByteOrderDec
import Verif.Proofs.Region
import Verif.Spec.Basic
import Mathlib.Data.List.Basic

/-!
# Regions with the bytes of all words reversed

Multiplications of regions on a machine of the other byte order are those of a little-endian machine on the regions with the bytes of all words
reversed.
-/

namespace Netcode

variable {w : Nat}

/-! ## Lists -/

theorem swapWords_fuel {k : Nat} (hk : 0 < k) : ∀ (n m : Nat) (l : List Byte), l.length ≤ n → l.length ≤ m → swapWords k n l = swapWords k m l := by
  intro n
  induction n with
  | zero =>
    intro m l h1 h2
    obtain rfl : l = [] := List.length_eq_zero_iff.1 (Nat.le_zero.1 h1)
    cases m <;> simp [swapWords]
  | succ n ih =>
    intro m l h1 h2
    cases m with
    | zero =>
      obtain rfl : l = [] := List.length_eq_zero_iff.1 (Nat.le_zero.1 h2)
      simp [swapWords]
    | succ m =>
      rw [swapWords, swapWords]
      split
      · rfl
      · rename_i hl
        have : 0 < l.length := List.length_pos_iff.2 hl
        rw [ih m (l.drop k) (by rw [List.length_drop]; omega) (by rw [List.length_drop]; omega)]

/-- The bytes of one word. -/
def wordBytes (w : Nat) : Nat := max 1 (w / 8)

theorem wordBytes_pos (w : Nat) : 0 < wordBytes w := by unfold wordBytes; omega

theorem swapped_nil : swapped w [] = [] := rfl

theorem swapped_step {l : List Byte} (h : l ≠ []) :
    swapped w l = (l.take (wordBytes w)).reverse ++ swapped w (l.drop (wordBytes w)) := by
  have hk := wordBytes_pos w
  have hl : 0 < l.length := List.length_pos_iff.2 h
  unfold swapped
  obtain ⟨n, hn⟩ : ∃ n, l.length = n + 1 := ⟨l.length - 1, by omega⟩
  rw [hn, swapWords, if_neg h]
  show (l.take (wordBytes w)).reverse ++ swapWords (wordBytes w) n (l.drop (wordBytes w)) = _ ++ swapWords (wordBytes w) _ _
  rw [swapWords_fuel hk n _ _ (by rw [List.length_drop]; omega) (Nat.le_refl _)]

theorem swapped_small' {l : List Byte} (h : l.length ≤ wordBytes w) : swapped w l = l.reverse := by
  by_cases hl : l = []
  · subst hl; rfl
  · rw [swapped_step hl, List.take_of_length_le h, List.drop_of_length_le h, swapped_nil, List.append_nil]

/-- Induction on the words of a region. -/
theorem word_induction (w : Nat) {P : List Byte → Prop} (h0 : P [])
    (h1 : ∀ l, l ≠ [] → P (l.drop (wordBytes w)) → P l) (l : List Byte) : P l := by
  have hk := wordBytes_pos w
  have : ∀ n (l : List Byte), l.length ≤ n → P l := by
    intro n
    induction n with
    | zero => intro l hl; rw [List.length_eq_zero_iff.1 (Nat.le_zero.1 hl)]; exact h0
    | succ n ih =>
      intro l hl
      by_cases h : l = []
      · rw [h]; exact h0
      · have : 0 < l.length := List.length_pos_iff.2 h
        exact h1 l h (ih _ (by rw [List.length_drop]; omega))
  exact this _ l (Nat.le_refl _)

theorem swapped_length (l : List Byte) : (swapped w l).length = l.length := by
  induction l using word_induction w with
  | h0 => rfl
  | h1 l hl ih =>
    rw [swapped_step hl, List.length_append, ih, List.length_reverse, List.length_take, List.length_drop]
    omega

theorem swapped_append {a : List Byte} (b : List Byte) (h : wordBytes w ∣ a.length) :
    swapped w (a ++ b) = swapped w a ++ swapped w b := by
  induction a using word_induction w with
  | h0 => rfl
  | h1 a ha ih =>
    have hpos : 0 < a.length := List.length_pos_iff.2 ha
    have hle : wordBytes w ≤ a.length := Nat.le_of_dvd hpos h
    rw [swapped_step (by simp [ha]), swapped_step ha, List.take_append_of_le_length hle, List.drop_append_of_le_length hle,
      ih (by rw [List.length_drop]; exact Nat.dvd_sub h (dvd_refl _)), List.append_assoc]

theorem swapped_swapped (l : List Byte) : swapped w (swapped w l) = l := by
  induction l using word_induction w with
  | h0 => rfl
  | h1 l hl ih =>
    by_cases h : l.length ≤ wordBytes w
    · rw [swapped_small' h, swapped_small' (by rw [List.length_reverse]; exact h), List.reverse_reverse]
    · have e : (l.take (wordBytes w)).reverse.length = wordBytes w := by
        rw [List.length_reverse, List.length_take]; omega
      rw [swapped_step hl, swapped_append _ (by rw [e]), ih, swapped_small' (by rw [e]), List.reverse_reverse, List.take_append_drop]

theorem swapped_take {n : Nat} (l : List Byte) (h : wordBytes w ∣ n) (hn : n ≤ l.length) :
    (swapped w l).take n = swapped w (l.take n) := by
  have e : (l.take n).length = n := by rw [List.length_take]; omega
  conv_lhs => rw [← List.take_append_drop n l]
  rw [swapped_append _ (by rw [e]; exact h), List.take_append_of_le_length (by rw [swapped_length, e]),
    List.take_of_length_le (by rw [swapped_length, e])]

theorem swapped_drop {n : Nat} (l : List Byte) (h : wordBytes w ∣ n) (hn : n ≤ l.length) :
    (swapped w l).drop n = swapped w (l.drop n) := by
  have e : (l.take n).length = n := by rw [List.length_take]; omega
  conv_lhs => rw [← List.take_append_drop n l]
  rw [swapped_append _ (by rw [e]; exact h), List.drop_append_of_le_length (by rw [swapped_length, e]),
    List.drop_of_length_le (by rw [swapped_length, e]), List.nil_append]

theorem mem_swapped {l : List Byte} {b : Byte} (h : b ∈ swapped w l) : b ∈ l := by
  induction l using word_induction w with
  | h0 => exact h
  | h1 l hl ih =>
    rw [swapped_step hl, List.mem_append, List.mem_reverse] at h
    rcases h with h | h
    · exact List.mem_of_mem_take h
    · exact List.mem_of_mem_drop (ih h)

theorem swapped_zeros (n : Nat) : swapped w (List.replicate n 0#8) = List.replicate n 0#8 :=
  List.eq_replicate_iff.2 ⟨by rw [swapped_length, List.length_replicate], fun b hb => List.eq_of_mem_replicate (mem_swapped hb)⟩

theorem xorPrefix_zipWith (d x : List Byte) (h : x.length ≤ d.length) :
    xorPrefix d x = List.zipWith (· ^^^ ·) (d.take x.length) x ++ d.drop x.length := by
  induction d generalizing x with
  | nil =>
    cases x with
    | nil => rfl
    | cons _ _ => simp at h
  | cons a t ih =>
    cases x with
    | nil => rfl
    | cons y u =>
      simp only [xorPrefix, List.length_cons, List.take_succ_cons, List.zipWith_cons_cons, List.cons_append, List.drop_succ_cons]
      rw [ih u (by simpa using h)]

theorem swapped_zipWith (a b : List Byte) (h : a.length = b.length) :
    swapped w (List.zipWith (· ^^^ ·) a b) = List.zipWith (· ^^^ ·) (swapped w a) (swapped w b) := by
  induction a using word_induction w generalizing b with
  | h0 =>
    obtain rfl : b = [] := List.length_eq_zero_iff.1 h.symm
    rfl
  | h1 a ha ih =>
    have hpos : 0 < a.length := List.length_pos_iff.2 ha
    have hb : b ≠ [] := List.length_pos_iff.1 (by omega)
    have hz : List.zipWith (· ^^^ ·) a b ≠ [] := List.length_pos_iff.1 (by rw [List.length_zipWith]; omega)
    rw [swapped_step hz, swapped_step ha, swapped_step hb, List.zipWith_append (by simp [h]), List.take_zipWith, List.drop_zipWith,
      ih _ (by simp [h]), List.reverse_zipWith (by simp [h])]

theorem swapped_xorPrefix (d x : List Byte) (hx : wordBytes w ∣ x.length) (h : x.length ≤ d.length) :
    swapped w (xorPrefix d x) = xorPrefix (swapped w d) (swapped w x) := by
  rw [xorPrefix_zipWith d x h, xorPrefix_zipWith _ _ (by rw [swapped_length, swapped_length]; exact h), swapped_length,
    swapped_take _ hx h, swapped_drop _ hx h, swapped_append _ (by rw [List.length_zipWith, List.length_take, Nat.min_eq_left h, Nat.min_self]; exact hx),
    swapped_zipWith _ _ (by rw [List.length_take]; omega)]

theorem word_dvd (hw : ValidW w) {n : Nat} (h : 8 * n % w = 0) : wordBytes w ∣ n := by
  unfold wordBytes
  rcases hw with rfl | rfl | rfl | rfl
  · exact one_dvd _
  · exact one_dvd _
  · show 2 ∣ n; omega
  · show 4 ∣ n; omega

/-! ## Regions -/

theorem mulRegionBE_swapped (gf : GF w) (c : BitVec w) (l : List Byte) : mulRegionBE gf c (swapped w l) = swapped w (mulRegion gf c l) := by
  unfold mulRegionBE
  rw [swapped_swapped]

theorem ensure_ok {c : Bool} {k : UB} {u : Unit} : ensure c k = .ok u ↔ c = true := by
  unfold ensure
  cases c <;> simp

theorem gfMultiply_inv {gf : GF w} {src x : List Byte} {len : Nat} {c : BitVec w} (h : gfMultiply gf src len c = .ok x) :
    len ≤ src.length ∧ 8 * len % w = 0 ∧ x = mulRegion gf c (src.take len) := by
  unfold gfMultiply at h
  by_cases h1 : len ≤ src.length
  · by_cases h2 : 8 * len % w = 0
    · simp only [ensure, h1, h2, decide_true, beq_self_eq_true, if_true] at h
      cases h
      exact ⟨h1, h2, rfl⟩
    · simp only [ensure, h1, decide_true, if_true, beq_iff_eq, h2, if_false] at h
      cases h
  · simp only [ensure, h1, decide_false, Bool.false_eq_true, if_false] at h
    cases h

theorem gfMultiplyAdd_inv {gf : GF w} {src dst x : List Byte} {len : Nat} {c : BitVec w} (h : gfMultiplyAdd gf src dst len c = .ok x) :
    len ≤ src.length ∧ len ≤ dst.length ∧ 8 * len % w = 0 ∧ x = xorPrefix dst (mulRegion gf c (src.take len)) := by
  unfold gfMultiplyAdd at h
  by_cases h1 : len ≤ src.length
  · by_cases h3 : len ≤ dst.length
    · by_cases h2 : 8 * len % w = 0
      · simp only [ensure, h1, h2, h3, decide_true, beq_self_eq_true, if_true] at h
        cases h
        exact ⟨h1, h3, h2, rfl⟩
      · simp only [ensure, h1, h3, decide_true, if_true, beq_iff_eq, h2, if_false] at h
        cases h
    · simp only [ensure, h1, h3, decide_true, decide_false, Bool.false_eq_true, if_true, if_false] at h
      cases h
  · simp only [ensure, h1, decide_false, Bool.false_eq_true, if_false] at h
    cases h

theorem gfMultiply_sw (hw : ValidW w) {gf : GF w} {src x : List Byte} {len : Nat} {c : BitVec w} (h : gfMultiply gf src len c = .ok x) :
    gfMultiplyBE gf (swapped w src) len c = .ok (swapped w x) := by
  obtain ⟨h1, h2, rfl⟩ := gfMultiply_inv h
  have h3 := word_dvd hw h2
  unfold gfMultiplyBE
  simp only [ensure, swapped_length, h1, h2, decide_true, beq_self_eq_true, if_true, swapped_take _ h3 h1, mulRegionBE_swapped]
  rfl

theorem gfMultiplyAdd_sw (hw : ValidW w) {gf : GF w} {src dst x : List Byte} {len : Nat} {c : BitVec w}
    (h : gfMultiplyAdd gf src dst len c = .ok x) : gfMultiplyAddBE gf (swapped w src) (swapped w dst) len c = .ok (swapped w x) := by
  obtain ⟨h1, h3, h2, rfl⟩ := gfMultiplyAdd_inv h
  have h4 := word_dvd hw h2
  have e : (mulRegion gf c (src.take len)).length = len := by rw [mulRegion_length, List.length_take]; omega
  unfold gfMultiplyAddBE
  simp only [ensure, swapped_length, h1, h2, h3, decide_true, beq_self_eq_true, if_true, swapped_take _ h4 h1, mulRegionBE_swapped]
  rw [swapped_xorPrefix _ _ (by rw [e]; exact h4) (by rw [e]; exact h3)]
  rfl

/-! ## Sizes -/

theorem swapped_small (hw : w ≤ 8) (l : List Byte) : swapped w l = l := by
  have e : max 1 (w / 8) = 1 := by omega
  unfold swapped
  rw [e]
  have : ∀ n (l : List Byte), l.length ≤ n → swapWords 1 n l = l := by
    intro n
    induction n with
    | zero => intro l _; rfl
    | succ n ih =>
      intro l hl
      cases l with
      | nil => simp [swapWords]
      | cons b t =>
        rw [swapWords, if_neg (by simp)]
        simp only [List.take_succ_cons, List.take_zero, List.reverse_singleton, List.drop_succ_cons, List.drop_zero]
        rw [ih t (by simpa using hl)]; rfl
  exact this _ l (Nat.le_refl _)

theorem mulRegionBE_small (hw : w ≤ 8) (gf : GF w) (c : BitVec w) (l : List Byte) : mulRegionBE gf c l = mulRegion gf c l := by
  unfold mulRegionBE
  rw [swapped_small hw, swapped_small hw]

theorem mulRegion_swap (hw : w = 4 ∨ w = 8) (gf : GF w) (c : BitVec w) (a b : Byte) :
    (mulRegion gf c [b, a]).reverse = mulRegion gf c [a, b] := by
  have ha := a.isLt
  have hb := b.isLt
  rcases hw with rfl | rfl
  · have e : ∀ x y : Byte, mulRegion gf c [x, y] =
        [BitVec.ofNat 8 ((gf.mul c (BitVec.ofNat 4 x.toNat)).toNat + 16 * (gf.mul c (BitVec.ofNat 4 (x.toNat / 16))).toNat),
         BitVec.ofNat 8 ((gf.mul c (BitVec.ofNat 4 y.toNat)).toNat + 16 * (gf.mul c (BitVec.ofNat 4 (y.toNat / 16))).toNat)] := by
      intro x y
      have hx := x.isLt
      have e1 : BitVec.ofNat 4 (x.toNat + 256 * y.toNat) = BitVec.ofNat 4 x.toNat := by
        apply BitVec.eq_of_toNat_eq; simp only [BitVec.toNat_ofNat]; omega
      have e2 : BitVec.ofNat 4 ((x.toNat + 256 * y.toNat) / 16) = BitVec.ofNat 4 (x.toNat / 16) := by
        apply BitVec.eq_of_toNat_eq; simp only [BitVec.toNat_ofNat]; omega
      have e3 : (x.toNat + 256 * y.toNat) / 16 / 16 = y.toNat := by omega
      have l1 := (gf.mul c (BitVec.ofNat 4 x.toNat)).isLt
      have l2 := (gf.mul c (BitVec.ofNat 4 (x.toNat / 16))).isLt
      simp only [mulRegion, leNat, List.length_cons, List.length_nil, leBytes, Nat.mul_zero, Nat.add_zero]
      rw [show 8 * (0 + 1 + 1) / 4 = 4 from rfl]
      simp only [mulWords, show 2 ^ 4 = 16 from rfl, e1, e2, e3, Nat.mul_zero, Nat.add_zero]
      congr 1
      · apply BitVec.eq_of_toNat_eq; simp only [BitVec.toNat_ofNat]; omega
      · congr 1
        apply BitVec.eq_of_toNat_eq; simp only [BitVec.toNat_ofNat]; omega
    rw [e, e]; rfl
  · have e : ∀ x y : Byte, mulRegion gf c [x, y] =
        [gf.mul c x, gf.mul c y] := by
      intro x y
      have hx := x.isLt
      have e1 : BitVec.ofNat 8 (x.toNat + 256 * y.toNat) = x := by
        apply BitVec.eq_of_toNat_eq; simp only [BitVec.toNat_ofNat]; omega
      have e3 : (x.toNat + 256 * y.toNat) / 256 = y.toNat := by omega
      have l1 := (gf.mul c x).isLt
      have l2 := (gf.mul c y).isLt
      simp only [mulRegion, leNat, List.length_cons, List.length_nil, leBytes, Nat.mul_zero, Nat.add_zero]
      rw [show 8 * (0 + 1 + 1) / 8 = 2 from rfl]
      simp only [mulWords, show 2 ^ 8 = 256 from rfl, e1, e3, Nat.mul_zero, Nat.add_zero, BitVec.ofNat_toNat, BitVec.setWidth_eq]
      congr 1
      · apply BitVec.eq_of_toNat_eq; simp only [BitVec.toNat_ofNat]; omega
      · congr 1
        apply BitVec.eq_of_toNat_eq; simp only [BitVec.toNat_ofNat]; omega
    rw [e, e]; rfl

theorem mulSizeBE_small (hw : w = 4 ∨ w = 8) : @mulSizeBE w = mulSize := by
  have h8 : w ≤ 8 := by omega
  funext gf size c
  simp only [mulSizeBE, mulSize, if_pos h8, mulRegionBE_small h8]
  simp only [leBytes, List.reverse_cons, List.reverse_nil, List.nil_append, List.cons_append]
  rw [mulRegion_swap hw]

theorem mulSizeBE_eq (hw : ValidW w) : @mulSizeBE w = mulSize := by
  rcases hw with h | h | h | h
  · exact mulSizeBE_small (Or.inl h)
  · exact mulSizeBE_small (Or.inr h)
  all_goals
    funext gf size c
    simp only [mulSizeBE, mulSize, if_neg (show ¬ w ≤ 8 by omega)]

end Netcode
