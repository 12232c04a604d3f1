import Verif.Spec.Algebra
import Verif.Proofs.Matrix
import Verif.Proofs.Region
import Mathlib.LinearAlgebra.Matrix.NonsingularInverse

namespace Netcode

open Finset

variable {w : Nat} [Fact (0 < w)] {gf : GF w}

theorem toFE_xsum (n : Nat) (f : Nat → BitVec w) : toFE gf (xsum n f) = ∑ k ∈ range n, toFE gf (f k) := by
  induction n with
  | zero => rfl
  | succ n ih => rw [Finset.sum_range_succ, ← ih]; rfl

theorem toFE_prodEntry (n : Nat) (A B : Mat w) (i j : Nat) :
    toFE gf (prodEntry gf n A B i j) = ∑ k ∈ range n, ent gf A i k * ent gf B k j := by
  unfold prodEntry
  rw [toFE_xsum]; rfl

/-- A storage as a Mathlib matrix. -/
def toMat (gf : GF w) (n : Nat) (A : Mat w) : Matrix (Fin n) (Fin n) (FE gf) := fun i j => ent gf A i j

theorem toMat_mul (n : Nat) (A B : Mat w) :
    toMat gf n A * toMat gf n B = fun i j : Fin n => toFE gf (prodEntry gf n A B i j) := by
  funext i j
  rw [toFE_prodEntry, Matrix.mul_apply, Finset.sum_range]; rfl

theorem mul_eq_one_iff (n : Nat) (A B : Mat w) : toMat gf n A * toMat gf n B = 1 ↔
    ∀ i < n, ∀ j < n, prodEntry gf n A B i j = if i = j then 1#w else 0#w := by
  rw [toMat_mul]
  constructor
  · intro h i hi j hj
    have := congrFun (congrFun h ⟨i, hi⟩) ⟨j, hj⟩
    rw [Matrix.one_apply] at this
    simp only [Fin.mk.injEq] at this
    split
    · next e => rw [if_pos e] at this; exact this
    · next e => rw [if_neg e] at this; exact this
  · intro h
    funext i j
    rw [Matrix.one_apply, h i i.2 j j.2]
    by_cases e : i = j
    · rw [if_pos e, if_pos (by rw [e])]; rfl
    · rw [if_neg e, if_neg (fun h => e (Fin.ext h))]; rfl

theorem isInverse_iff (n : Nat) (A B : Mat w) : IsInverse gf n A B ↔ toMat gf n A * toMat gf n B = 1 := by
  unfold IsInverse
  rw [← mul_eq_one_iff, ← mul_eq_one_iff]
  exact ⟨fun h => h.1, fun h => ⟨h, mul_eq_one_comm.1 h⟩⟩

theorem invert_inverse (n : Nat) (M inv : Mat w) (h : invert gf n M = .ok inv) : IsInverse gf n inv M := by
  rw [isInverse_iff, mul_eq_one_iff]
  intro i hi j hj
  have h1 := invert_ok_spec h i j hi hj
  rw [← toFE_prodEntry] at h1
  split
  · next e => rw [if_pos e] at h1; exact h1
  · next e => rw [if_neg e] at h1; exact h1

/-- A failed inversion: some non-zero combination of the columns vanishes. -/
theorem invert_fail (n : Nat) (M : Mat w) (c : Nat) (h : invert gf n M = .error c) :
    c = n - 1 ∧ ∃ v : Nat → BitVec w, (∃ k < n, v k ≠ 0#w) ∧ ∀ a < n, xsum n (fun k => gf.mul (M a k) (v k)) = 0#w := by
  obtain ⟨h1, v, ⟨k, hk, hv⟩, h2⟩ := invert_error_spec h
  refine ⟨h1, v, ⟨k, hk, hv⟩, fun a ha => ?_⟩
  have h3 := h2 a ha
  have h4 := toFE_xsum (gf := gf) n (fun k => gf.mul (M a k) (v k))
  have h5 : ∑ k ∈ range n, toFE gf (gf.mul (M a k) (v k)) = 0 := h3
  rw [h5] at h4
  exact h4

theorem no_kernel_of_inverse (n : Nat) (M N : Mat w) (h : IsInverse gf n N M) (v : Nat → BitVec w)
    (hv : ∀ a < n, xsum n (fun k => gf.mul (M a k) (v k)) = 0#w) : ∀ k < n, v k = 0#w := by
  rw [isInverse_iff] at h
  have h1 : (toMat gf n M).mulVec (fun k : Fin n => toFE gf (v k)) = 0 := by
    funext a
    have := hv a a.2
    have h4 := toFE_xsum (gf := gf) n (fun k => gf.mul (M a k) (v k))
    rw [this] at h4
    rw [Finset.sum_range] at h4
    exact h4.symm
  intro k hk
  have h2 := congrArg ((toMat gf n N).mulVec) h1
  rw [Matrix.mulVec_mulVec, h, Matrix.one_mulVec, Matrix.mulVec_zero] at h2
  exact congrFun h2 ⟨k, hk⟩

end Netcode
