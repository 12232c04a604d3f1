import Verif.Proofs.Rank
import Mathlib.LinearAlgebra.Matrix.ToLinearEquiv

/-!
# Repairs that depend on each other do not determine the sources
-/

namespace Netcode

variable {w : Nat} [Fact (0 < w)] {gf : GF w}

/-- The factors of the unknown sources `U` in the repairs. -/
def rowsMat (gf : GF w) (n : Nat) (rows : List (Nat × List Nat)) (U : List Nat) : Matrix (Fin n) (Fin n) (FE gf) :=
  fun i j => toFE gf (factorIn w (rows.getD i (0, [])) (U.getD j 0))

theorem getD_mem {α : Type} {l : List α} {k : Nat} (h : k < l.length) (d : α) : l.getD k d ∈ l := by
  rw [List.getD_eq_getElem?_getD, List.getElem?_eq_getElem h]; exact List.getElem_mem h

/-- As many repairs as unknown sources, one of which is a combination of the others: the equations have a solution that is not zero. -/
theorem not_independent {rows : List (Nat × List Nat)} {U : List Nat} (hU : U.Nodup) (hlen : rows.length = U.length)
    (h : Dependent gf rows U) : ¬ Independent gf rows U := by
  obtain ⟨a, ⟨k, hk, hak⟩, hz⟩ := h
  intro hind
  obtain ⟨n, hn⟩ : ∃ n, U.length = n := ⟨_, rfl⟩
  rw [hn] at hlen
  have h1 : ∃ v ≠ 0, Matrix.vecMul v (rowsMat gf n rows U) = 0 := by
    refine ⟨fun i => toFE gf (a i), ?_, ?_⟩
    · intro h0
      exact hak (congrFun h0 ⟨k, by omega⟩)
    · funext j
      have h2 := hz (U.getD j 0) (getD_mem (by omega) 0)
      have h4 := toFE_xsum (gf := gf) n (fun k => gf.mul (a k) (factorIn w (rows.getD k (0, [])) (U.getD j 0)))
      rw [hlen] at h2
      rw [h2, Finset.sum_range] at h4
      exact h4.symm
  rw [Matrix.exists_vecMul_eq_zero_iff, ← Matrix.exists_mulVec_eq_zero_iff] at h1
  obtain ⟨v, hv, hm⟩ := h1
  apply hv
  have hidx : ∀ k, (hk : k < U.length) → U.idxOf (U[k]) = k := fun k hk => List.Nodup.idxOf_getElem hU k hk
  obtain ⟨u, hu⟩ : ∃ u : Nat → BitVec w, ∀ j : Fin n, toFE gf (u j) = v j :=
    ⟨fun k => if hx : k < n then (show BitVec w from v ⟨k, hx⟩) else 0#w, fun j => dif_pos j.2⟩
  have h5 := hind (fun x => u (U.idxOf x)) (by
    intro q hq
    obtain ⟨i, hi, hqi⟩ := List.getElem_of_mem hq
    have h6 := congrFun hm ⟨i, by omega⟩
    rw [xorOver_filter, hn]
    have h7 := toFE_xsum (gf := gf) n (fun k => gf.mul (factorIn w (rows.getD i (0, [])) (U.getD k 0)) (u k))
    have h8 : xsum n (fun k => gf.mul (factorIn w (rows.getD i (0, [])) (U.getD k 0)) (u k)) = 0#w := by
      have : (∑ k ∈ Finset.range n, toFE gf (gf.mul (factorIn w (rows.getD i (0, [])) (U.getD k 0)) (u k))) = 0 := by
        rw [Finset.sum_range]
        refine Eq.trans (Finset.sum_congr rfl (fun j _ => ?_)) h6
        rw [← hu j]
        rfl
      rw [this] at h7
      exact h7
    refine Eq.trans (xsum_congr n (fun j hj => ?_)) h8
    have hUj : U.getD j 0 = U[j] := by rw [List.getD_eq_getElem?_getD, List.getElem?_eq_getElem (by omega)]; rfl
    have hri : rows.getD i (0, []) = q := by rw [List.getD_eq_getElem?_getD, List.getElem?_eq_getElem hi, hqi]; rfl
    simp only [hUj, hri, hidx j (by omega), decide_eq_true_eq, factorIn]
    split
    · rfl
    · have := zero_mul (toFE gf (u j))
      exact this.symm)
  funext j
  have h6 := h5 (U[j.1]'(by omega)) (List.getElem_mem _)
  simp only [hidx j (by omega)] at h6
  rw [← hu j, h6]
  rfl

/-- Repairs that depend on each other still do when one is added. -/
theorem Dependent.append {rows : List (Nat × List Nat)} {U : List Nat} (h : Dependent gf rows U) (q : Nat × List Nat) :
    Dependent gf (rows ++ [q]) U := by
  obtain ⟨a, ⟨k, hk, hak⟩, hz⟩ := h
  refine ⟨fun i => if i < rows.length then a i else 0#w, ⟨k, by simp; omega, by simp only [if_pos hk]; exact hak⟩, ?_⟩
  intro x hx
  rw [List.length_append, List.length_singleton]
  simp only [xsum, lt_irrefl, if_false]
  have h1 : gf.mul 0#w (factorIn w ((rows ++ [q]).getD rows.length (0, [])) x) = 0#w :=
    zero_mul (toFE gf (factorIn w ((rows ++ [q]).getD rows.length (0, [])) x))
  rw [h1]
  have h2 : xsum rows.length (fun i => gf.mul (if i < rows.length then a i else 0#w) (factorIn w ((rows ++ [q]).getD i (0, [])) x)) =
      0#w := by
    refine Eq.trans (xsum_congr _ (fun i hi => ?_)) (hz x hx)
    rw [if_pos hi]
    congr 2
    rw [List.getD_eq_getElem?_getD, List.getElem?_append_left hi, ← List.getD_eq_getElem?_getD]
  rw [h2]
  simp

end Netcode
