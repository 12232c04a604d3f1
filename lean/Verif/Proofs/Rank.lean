import Verif.Spec.Rank
import Verif.Proofs.Algebra
import Verif.Proofs.OMap
import Mathlib.Data.List.Sort
import Mathlib.Tactic.LinearCombination

/-!
# Independent repairs give an invertible coefficient matrix
-/

namespace Netcode

open OMap

variable {w : Nat} [Fact (0 < w)] {gf : GF w}

theorem nodup_of_sortedKeys {V : Type} {m : OMap V} (h : m.SortedKeys) : m.Nodup :=
  List.Nodup.of_map _ (h.imp (fun h => Nat.ne_of_lt h))

theorem xorOver_concat (l : List Nat) (y : Nat) (f : Nat → BitVec w) : xorOver (l ++ [y]) f = xorOver l f ^^^ f y := by
  simp [xorOver, List.foldl_append]

theorem xorOver_filter (U : List Nat) (p : Nat → Bool) (f : Nat → BitVec w) :
    xorOver (U.filter p) f = xsum U.length (fun k => if p (U.getD k 0) then f (U.getD k 0) else 0#w) := by
  induction U using List.reverseRecOn with
  | nil => rfl
  | append_singleton l y ih =>
    rw [List.filter_append, List.length_append, List.length_singleton]
    simp only [xsum]
    have e : xsum l.length (fun k => if p ((l ++ [y]).getD k 0) then f ((l ++ [y]).getD k 0) else 0#w) =
        xsum l.length (fun k => if p (l.getD k 0) then f (l.getD k 0) else 0#w) := by
      have key : ∀ n ≤ l.length, xsum n (fun k => if p ((l ++ [y]).getD k 0) then f ((l ++ [y]).getD k 0) else 0#w) =
          xsum n (fun k => if p (l.getD k 0) then f (l.getD k 0) else 0#w) := by
        intro n hn
        induction n with
        | zero => rfl
        | succ n ih2 =>
          simp only [xsum]
          rw [ih2 (by omega)]
          have : (l ++ [y]).getD n 0 = l.getD n 0 := by
            rw [List.getD_eq_getElem?_getD, List.getElem?_append_left (by omega), ← List.getD_eq_getElem?_getD]
          rw [this]
      exact key _ (le_refl _)
    rw [e, ← ih]
    have hy : (l ++ [y]).getD l.length 0 = y := by simp
    rw [hy]
    by_cases hp : p y = true
    · rw [List.filter_cons_of_pos hp, List.filter_nil, xorOver_concat, if_pos hp]
    · rw [List.filter_cons_of_neg hp, List.filter_nil, List.append_nil, if_neg hp]; simp

theorem xsum_congr (n : Nat) {f g : Nat → BitVec w} (h : ∀ k < n, f k = g k) : xsum n f = xsum n g := by
  induction n with
  | zero => rfl
  | succ n ih =>
    simp only [xsum]
    rw [ih (fun k hk => h k (by omega)), h n (by omega)]

/-- A coefficient matrix whose equations have no other solution than zero is inverted. -/
theorem no_kernel {R : OMap DRepair} {m : OMap (List Nat)} {U : List Nat} (hk : m.map (·.1) = U)
    (hU : U.Pairwise (· < ·)) (hm : m.length = U.length) (hR : R.length = U.length)
    (hind : ∀ v : Nat → BitVec w,
      (∀ q ∈ R, xorOver (U.filter (fun x => decide (x ∈ q.2.ids))) (fun x => gf.mul (coefficient w q.1 x) (v x)) = 0#w) →
      ∀ x ∈ U, v x = 0#w)
    {c : Nat} (h : invert gf R.length (coeffMatrix w R m) = .error c) : False := by
  obtain ⟨_, v, ⟨k, hkn, hne⟩, hz⟩ := invert_fail _ _ _ h
  rw [hR] at hkn hz
  have hidx : ∀ k, (hk : k < U.length) → U.idxOf (U[k]) = k := fun k hk =>
    List.Nodup.idxOf_getElem (hU.imp (fun h => Nat.ne_of_lt h)) k hk
  have := hind (fun x => v (U.idxOf x)) ?_ (U[k]) (List.getElem_mem _)
  · rw [hidx] at this; exact hne this
  · intro q hq
    obtain ⟨a, ha, hqa⟩ := List.getElem_of_mem hq
    have h1 := hz a (by omega)
    rw [xorOver_filter]
    refine Eq.trans ?_ h1
    apply xsum_congr
    intro j hj
    unfold coeffMatrix
    rw [List.getElem?_eq_getElem ha, hqa, List.getElem?_eq_getElem (by omega)]
    have hUj : U.getD j 0 = (m[j]'(by omega)).1 := by
      simp only [← hk, List.getD_eq_getElem?_getD, List.getElem?_map]
      rw [List.getElem?_eq_getElem (by omega)]; rfl
    rw [hUj]
    have hUj' : (m[j]'(by omega)).1 = U[j] := by
      rw [← hUj, List.getD_eq_getElem?_getD, List.getElem?_eq_getElem hj]; rfl
    simp only [decide_eq_true_eq]
    split
    · rw [hUj', hidx j hj]
    · have : gf.mul 0#w (v j) = 0#w := by
        have := zero_mul (toFE gf (v j))
        exact this
      exact this.symm

/-- The equations of a coefficient matrix that is inverted have no other solution than zero. -/
theorem kernel_of_invert {R : OMap DRepair} {m : OMap (List Nat)} {U : List Nat} (hk : m.map (·.1) = U)
    (hm : m.length = U.length) (hR : R.length = U.length) {inv : Mat w}
    (h : invert gf R.length (coeffMatrix w R m) = .ok inv) (v : Nat → BitVec w)
    (hv : ∀ q ∈ R, xorOver (U.filter (fun x => decide (x ∈ q.2.ids))) (fun x => gf.mul (coefficient w q.1 x) (v x)) = 0#w) :
    ∀ x ∈ U, v x = 0#w := by
  have h1 := no_kernel_of_inverse _ _ _ (invert_inverse _ _ _ h) (fun k => v (U.getD k 0)) (by
    intro a ha
    have h2 := hv R[a] (List.getElem_mem ha)
    rw [xorOver_filter] at h2
    rw [hR]
    refine Eq.trans ?_ h2
    apply xsum_congr
    intro j hj
    unfold coeffMatrix
    rw [List.getElem?_eq_getElem ha, List.getElem?_eq_getElem (by omega)]
    have hUj : U.getD j 0 = (m[j]'(by omega)).1 := by
      simp only [← hk, List.getD_eq_getElem?_getD, List.getElem?_map]
      rw [List.getElem?_eq_getElem (by omega)]; rfl
    simp only [hUj, decide_eq_true_eq]
    split
    · rfl
    · have : gf.mul 0#w (v (m[j]'(by omega)).1) = 0#w := by
        have := zero_mul (toFE gf (v (m[j]'(by omega)).1))
        exact this
      exact this)
  intro x hx
  obtain ⟨k, hk2, rfl⟩ := List.getElem_of_mem hx
  have h2 := h1 k (by omega)
  rwa [List.getD_eq_getElem?_getD, List.getElem?_eq_getElem hk2] at h2

/-- A system of two equations with a non-zero determinant. -/
theorem two_by_two (gf : GF w) {x y : Nat} (v : Nat → BitVec w) (a b c d : BitVec w) (hdet : gf.mul a d ≠ gf.mul b c)
    (e1 : 0#w ^^^ gf.mul a (v x) ^^^ gf.mul b (v y) = 0#w) (e2 : 0#w ^^^ gf.mul c (v x) ^^^ gf.mul d (v y) = 0#w) :
    ∀ z ∈ [x, y], v z = 0#w := by
  have g1 : (0 : FE gf) + toFE gf a * toFE gf (v x) + toFE gf b * toFE gf (v y) = 0 := e1
  have g2 : (0 : FE gf) + toFE gf c * toFE gf (v x) + toFE gf d * toFE gf (v y) = 0 := e2
  have hd : toFE gf a * toFE gf d + toFE gf b * toFE gf c ≠ 0 := by
    intro h0
    apply hdet
    have h1 : toFE gf a * toFE gf d = toFE gf b * toFE gf c := by
      have := congrArg (· + toFE gf b * toFE gf c) h0
      simp only [add_assoc, FE.add_self, add_zero, zero_add] at this
      exact this
    exact h1
  have hs : ∀ u : FE gf, u + u = 0 := FE.add_self
  have k1 : (toFE gf a * toFE gf d + toFE gf b * toFE gf c) * toFE gf (v x) = 0 := by
    have := congrArg₂ (fun p q => toFE gf d * p + toFE gf b * q) g1 g2
    simp only [mul_zero, add_zero] at this
    have e := hs (toFE gf b * toFE gf d * toFE gf (v y))
    linear_combination this - e
  have k2 : (toFE gf a * toFE gf d + toFE gf b * toFE gf c) * toFE gf (v y) = 0 := by
    have := congrArg₂ (fun p q => toFE gf c * p + toFE gf a * q) g1 g2
    simp only [mul_zero, add_zero] at this
    have e := hs (toFE gf a * toFE gf c * toFE gf (v x))
    linear_combination this - e
  intro z hz
  simp only [List.mem_cons, List.not_mem_nil, or_false] at hz
  rcases hz with rfl | rfl
  · exact (mul_eq_zero.1 k1).resolve_left hd
  · exact (mul_eq_zero.1 k2).resolve_left hd

end Netcode
