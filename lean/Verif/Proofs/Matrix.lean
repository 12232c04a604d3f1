import Mathlib.Algebra.BigOperators.Ring.Finset
import Mathlib.Algebra.BigOperators.Intervals
import Mathlib.Tactic.Ring
import Mathlib.Tactic.LinearCombination
import Verif.Model.Matrix
import Verif.Proofs.GFField

/-! Correctness of `invert`. -/

namespace Netcode

open Finset

variable {w : Nat} [Fact (0 < w)] (gf : GF w)

/-- entry as a field element -/
def ent (m : Mat w) (a b : Nat) : FE gf := toFE gf (m a b)

theorem ent_zero_iff {m : Mat w} {a b : Nat} : ent gf m a b = 0 ↔ m a b = 0#w := Iff.rfl
theorem ent_one_iff {m : Mat w} {a b : Nat} : ent gf m a b = 1 ↔ m a b = 1#w := Iff.rfl

theorem ent_swapRows (i j : Nat) (m : Mat w) (a b : Nat) :
    ent gf (swapRows i j m) a b = if a = i then ent gf m j b else if a = j then ent gf m i b else ent gf m a b := by
  unfold ent swapRows; split
  · rfl
  · split <;> rfl

theorem ent_scaleRow (i : Nat) (c : BitVec w) (m : Mat w) (a b : Nat) :
    ent gf (scaleRow gf i c m) a b = if a = i then toFE gf c * ent gf m a b else ent gf m a b := by
  unfold ent scaleRow; split
  · rw [mulScalar_eq, toFE_mul, mul_comm]
  · rfl

theorem ent_xorRow (i j : Nat) (m : Mat w) (a b : Nat) :
    ent gf (xorRow i j m) a b = if a = j then ent gf m a b + ent gf m i b else ent gf m a b := by
  unfold ent xorRow; split <;> rfl

theorem ent_addRow (c : BitVec w) (i j : Nat) (m : Mat w) (a b : Nat) :
    ent gf (addRow gf c i j m) a b
      = if a = j then ent gf m a b + toFE gf c * ent gf m i b else ent gf m a b := by
  unfold ent addRow; split
  · rw [mulScalar_eq, toFE_xor, toFE_mul]
  · rfl

theorem ent_matId (a b : Nat) : ent gf (matId (w := w)) a b = if a = b then 1 else 0 := by
  unfold ent matId; split <;> rfl

variable (n : Nat) (M : Mat w)

/-- `inv * M = mat` -/
def Fact1 (st : Mat w × Mat w) : Prop :=
  ∀ a < n, ∀ b < n, ∑ k ∈ range n, ent gf st.2 a k * ent gf M k b = ent gf st.1 a b

/-- `v` is in the kernel of `m` -/
def Ker (m : Mat w) (v : Nat → FE gf) : Prop := ∀ a < n, ∑ k ∈ range n, ent gf m a k * v k = 0

/-- nothing was gained in the kernel -/
def Fact2 (st : Mat w × Mat w) : Prop := ∀ v, Ker gf n st.1 v → Ker gf n M v

/-- the first `i` columns are those of an upper unitriangular matrix -/
def Shape (i : Nat) (m : Mat w) : Prop :=
  ∀ c < i, c < n → ent gf m c c = 1 ∧ ∀ a, c < a → a < n → ent gf m a c = 0

section rowops
variable {gf n M}

theorem fact_swap {st : Mat w × Mat w} {i j : Nat} (hi : i < n) (hj : j < n)
    (h1 : Fact1 gf n M st) (h2 : Fact2 gf n M st) :
    Fact1 gf n M (swapRows i j st.1, swapRows i j st.2) ∧ Fact2 gf n M (swapRows i j st.1, swapRows i j st.2) := by
  constructor
  · intro a ha b hb
    simp only [ent_swapRows]
    split
    · exact h1 j hj b hb
    · split
      · exact h1 i hi b hb
      · exact h1 a ha b hb
  · intro v hv
    apply h2
    intro a ha
    by_cases hai : a = i
    · subst hai
      have := hv j hj
      simp only [ent_swapRows] at this
      by_cases hja : j = a
      · subst hja; simpa using this
      · simpa [hja] using this
    · by_cases haj : a = j
      · subst haj
        have := hv i hi
        simpa [ent_swapRows] using this
      · have := hv a ha
        simpa [ent_swapRows, hai, haj] using this

theorem fact_scale {st : Mat w × Mat w} {i : Nat} {c : BitVec w} (hc : c ≠ 0#w)
    (h1 : Fact1 gf n M st) (h2 : Fact2 gf n M st) :
    Fact1 gf n M (scaleRow gf i c st.1, scaleRow gf i c st.2) ∧
    Fact2 gf n M (scaleRow gf i c st.1, scaleRow gf i c st.2) := by
  constructor
  · intro a ha b hb
    simp only [ent_scaleRow]
    split
    · rw [← h1 a ha b hb, mul_sum]
      exact sum_congr rfl (fun k _ => by ring)
    · exact h1 a ha b hb
  · intro v hv
    apply h2
    intro a ha
    have := hv a ha
    simp only [ent_scaleRow] at this
    split at this
    · have h3 : toFE gf c * ∑ k ∈ range n, ent gf st.1 a k * v k = 0 := by
        rw [← this, mul_sum]
        exact sum_congr rfl (fun k _ => by ring)
      rcases mul_eq_zero.1 h3 with h | h
      · exact absurd h hc
      · exact h
    · exact this

theorem fact_add {st : Mat w × Mat w} {i j : Nat} {c : BitVec w} (hi : i < n) (hij : i ≠ j)
    (h1 : Fact1 gf n M st) (h2 : Fact2 gf n M st) :
    Fact1 gf n M (addRow gf c i j st.1, addRow gf c i j st.2) ∧
    Fact2 gf n M (addRow gf c i j st.1, addRow gf c i j st.2) := by
  constructor
  · intro a ha b hb
    simp only [ent_addRow]
    split
    · rw [← h1 a ha b hb, ← h1 i hi b hb, mul_sum, ← sum_add_distrib]
      exact sum_congr rfl (fun k _ => by ring)
    · exact h1 a ha b hb
  · intro v hv
    apply h2
    intro a ha
    have hri := hv i hi
    simp only [ent_addRow, if_neg hij] at hri
    have := hv a ha
    simp only [ent_addRow] at this
    split at this
    · have h3 : ∑ k ∈ range n, (ent gf st.1 a k + toFE gf c * ent gf st.1 i k) * v k
          = ∑ k ∈ range n, ent gf st.1 a k * v k + toFE gf c * ∑ k ∈ range n, ent gf st.1 i k * v k := by
        rw [mul_sum, ← sum_add_distrib]
        exact sum_congr rfl (fun k _ => by ring)
      rw [h3, hri] at this
      simpa using this
    · exact this

theorem xorRow_eq_addRow (i j : Nat) (m : Mat w) : xorRow i j m = addRow gf 1#w i j m := by
  funext a b
  have := ent_xorRow gf i j m a b
  have h2 := ent_addRow gf 1#w i j m a b
  rw [toFE_one, one_mul] at h2
  exact this.trans h2.symm

theorem elimRow_eq (i : Nat) (st : Mat w × Mat w) (j : Nat) :
    elimRow gf i st j = (addRow gf (st.1 j i) i j st.1, addRow gf (st.1 j i) i j st.2) := by
  obtain ⟨mt, iv⟩ := st
  unfold elimRow
  have h0 : ∀ m : Mat w, addRow gf 0#w i j m = m := by
    intro m; funext a b
    have := ent_addRow gf 0#w i j m a b
    rw [toFE_zero, zero_mul, add_zero, ite_self] at this
    exact this
  dsimp only
  by_cases h : mt j i = 0#w
  · simp [h, h0]
  · by_cases h1 : mt j i = 1#w
    · rw [if_pos h, if_pos h1, xorRow_eq_addRow (gf := gf), xorRow_eq_addRow (gf := gf), h1]
    · simp [h, h1]

theorem inv_ne_zero' {c : BitVec w} (h : c ≠ 0#w) : gf.inv c ≠ 0#w := by
  intro h0
  have := gf.mul_inv c h
  rw [h0, gf.mul_zero] at this
  have h3 : (0 : FE gf) = 1 := this
  exact zero_ne_one h3

end rowops

variable {gf n M}

theorem findPivot_spec (m : Mat w) (i k j : Nat) :
    j ≤ findPivot m i k j ∧ findPivot m i k j ≤ j + k ∧
    (∀ a, j ≤ a → a < findPivot m i k j → m a i = 0#w) ∧
    (findPivot m i k j < j + k → m (findPivot m i k j) i ≠ 0#w) := by
  induction k generalizing j with
  | zero => simp only [findPivot]; refine ⟨by omega, by omega, ?_, by omega⟩; intro a h1 h2; omega
  | succ k ih =>
    simp only [findPivot]
    split
    · next h =>
      obtain ⟨h1, h2, h3, h4⟩ := ih (j + 1)
      refine ⟨by omega, by omega, ?_, fun hh => h4 (by omega)⟩
      intro a ha hb
      by_cases haj : a = j
      · subst haj; exact h
      · exact h3 a (by omega) hb
    · next h => refine ⟨by omega, by omega, fun a h1 h2 => by omega, fun _ => h⟩

/-- Elimination of a column below the pivot. -/
theorem elim_fold (i : Nat) (hi : i < n) : ∀ (k j : Nat) (st : Mat w × Mat w), i < j → j + k = n →
    Fact1 gf n M st → Fact2 gf n M st → Shape gf n i st.1 → ent gf st.1 i i = 1 →
    (∀ a, i < a → a < j → ent gf st.1 a i = 0) →
    let r := (List.range' j k).foldl (elimRow gf i) st
    Fact1 gf n M r ∧ Fact2 gf n M r ∧ Shape gf n (i + 1) r.1 := by
  intro k
  induction k with
  | zero =>
    intro j st hij hjn h1 h2 hs hii hz
    refine ⟨h1, h2, ?_⟩
    intro c hc hcn
    by_cases hci : c = i
    · subst hci
      exact ⟨hii, fun a ha1 ha2 => hz a ha1 (by omega)⟩
    · exact hs c (by omega) hcn
  | succ k ih =>
    intro j st hij hjn h1 h2 hs hii hz
    simp only [List.range'_succ, List.foldl_cons]
    have hij' : i ≠ j := by omega
    apply ih (j + 1) _ (by omega) (by omega)
    · rw [elimRow_eq]; exact (fact_add hi hij' h1 h2).1
    · rw [elimRow_eq]; exact (fact_add hi hij' h1 h2).2
    · rw [elimRow_eq]
      intro c hc hcn
      have := hs c hc hcn
      constructor
      · rw [ent_addRow, if_neg (by omega)]; exact this.1
      · intro a ha1 ha2
        rw [ent_addRow]
        split
        · rw [this.2 a ha1 ha2, this.2 i hc hi, mul_zero, add_zero]
        · exact this.2 a ha1 ha2
    · rw [elimRow_eq, ent_addRow, if_neg hij']; exact hii
    · intro a ha1 ha2
      rw [elimRow_eq, ent_addRow]
      split
      · next haj =>
        subst haj
        rw [hii, mul_one]
        exact FE.add_self _
      · exact hz a ha1 (by omega)

/-- A unitriangular system with a zero pivot column has a non-trivial solution. -/
theorem exists_kernel (m : Mat w) (i : Nat) (hi : i < n) (hs : Shape gf n i m)
    (hz : ∀ a, i ≤ a → a < n → ent gf m a i = 0) :
    ∃ v : Nat → FE gf, v i = 1 ∧ Ker gf n m v := by
  have key : ∀ t, t ≤ i → ∃ v : Nat → FE gf, v i = 1 ∧ (∀ j, i < j → v j = 0) ∧
      ∀ a, i - t ≤ a → a < i → ∑ k ∈ range n, ent gf m a k * v k = 0 := by
    intro t
    induction t with
    | zero =>
      intro _
      refine ⟨fun k => if k = i then 1 else 0, by simp, fun j hj => by simp; omega, fun a h1 h2 => by omega⟩
    | succ t ih =>
      intro ht
      obtain ⟨v, hv1, hv2, hv3⟩ := ih (by omega)
      let p := i - (t + 1)
      let s := ∑ k ∈ range n, ent gf m p k * v k
      let v' : Nat → FE gf := fun k => if k = p then v k - s else v k
      have hp : p < i := by omega
      have hexp : ∀ a, ∑ k ∈ range n, ent gf m a k * v' k
          = ∑ k ∈ range n, ent gf m a k * v k - ent gf m a p * s := by
        intro a
        have : ∀ k ∈ range n, ent gf m a k * v' k
            = ent gf m a k * v k - (if k = p then ent gf m a p * s else 0) := by
          intro k _
          show ent gf m a k * (if k = p then v k - s else v k) = _
          split
          · next h => subst h; ring
          · ring
        rw [sum_congr rfl this, sum_sub_distrib, sum_ite_eq' (range n) p (fun _ => ent gf m a p * s)]
        rw [if_pos (mem_range.2 (by omega))]
      refine ⟨v', ?_, ?_, ?_⟩
      · show (if i = p then _ else v i) = 1
        rw [if_neg (by omega)]; exact hv1
      · intro j hj
        show (if j = p then _ else v j) = 0
        rw [if_neg (by omega)]; exact hv2 j hj
      · intro a ha1 ha2
        rw [hexp]
        by_cases hap : a = p
        · subst hap
          rw [(hs p hp (by omega)).1]
          show s - 1 * s = 0
          ring
        · rw [hv3 a (by omega) ha2, (hs p hp (by omega)).2 a (by omega) (by omega)]
          ring
  obtain ⟨v, hv1, hv2, hv3⟩ := key i (Nat.le_refl i)
  refine ⟨v, hv1, ?_⟩
  intro a ha
  rcases Nat.lt_or_ge a i with h | h
  · exact hv3 a (by omega) h
  · apply sum_eq_zero
    intro k hk
    rcases Nat.lt_trichotomy k i with h1 | h1 | h1
    · rw [(hs k h1 (by omega)).2 a (by omega) ha, zero_mul]
    · subst h1; rw [hz a h ha, zero_mul]
    · rw [hv2 k h1, mul_zero]

theorem forwardStep_spec (i : Nat) (hi : i < n) (st : Mat w × Mat w)
    (h1 : Fact1 gf n M st) (h2 : Fact2 gf n M st) (hs : Shape gf n i st.1) :
    match forwardStep gf n i st with
    | none => ∃ v : Nat → FE gf, v i ≠ 0 ∧ Ker gf n M v
    | some r => Fact1 gf n M r ∧ Fact2 gf n M r ∧ Shape gf n (i + 1) r.1 := by
  unfold forwardStep
  obtain ⟨mat, inv⟩ := st
  simp only
  set j := if mat i i = 0#w then findPivot mat i (n - (i + 1)) (i + 1) else i with hj
  have hspec := findPivot_spec mat i (n - (i + 1)) (i + 1)
  have hjn : j ≤ n := by rw [hj]; split <;> omega
  have hji : i ≤ j := by rw [hj]; split <;> omega
  by_cases hfail : j = n
  · rw [if_pos hfail]
    have hzero : ∀ a, i ≤ a → a < n → ent gf mat a i = 0 := by
      intro a ha1 ha2
      by_cases h0 : mat i i = 0#w
      · rw [if_pos h0] at hj
        by_cases hai : a = i
        · subst hai; exact h0
        · exact hspec.2.2.1 a (by omega) (by omega)
      · rw [if_neg h0] at hj; omega
    obtain ⟨v, hv1, hv2⟩ := exists_kernel (gf := gf) mat i hi hs hzero
    exact ⟨v, by rw [hv1]; exact one_ne_zero, h2 v hv2⟩
  · rw [if_neg hfail]
    have hpiv : mat j i ≠ 0#w := by
      by_cases h0 : mat i i = 0#w
      · rw [if_pos h0] at hj
        rw [hj]; exact hspec.2.2.2 (by omega)
      · rw [if_neg h0] at hj
        rw [hj]; exact h0
    obtain ⟨g1, g2⟩ := fact_swap (gf := gf) hi (show j < n by omega) h1 h2
    have gs : Shape gf n i (swapRows i j mat) := by
      intro c hc hcn
      have := hs c hc hcn
      constructor
      · rw [ent_swapRows, if_neg (by omega), if_neg (by omega)]; exact this.1
      · intro a ha1 ha2
        rw [ent_swapRows]
        split
        · exact this.2 j (by omega) (by omega)
        · split
          · exact this.2 i (by omega) hi
          · exact this.2 a ha1 ha2
    have hp' : swapRows i j mat i i ≠ 0#w := by
      unfold swapRows; rw [if_pos rfl]; exact hpiv
    set mat' := swapRows i j mat with hmat'
    set inv' := swapRows i j inv
    -- normalisation
    have main : ∀ q : Mat w × Mat w, Fact1 gf n M q → Fact2 gf n M q → Shape gf n i q.1 → ent gf q.1 i i = 1 →
        Fact1 gf n M ((List.range' (i + 1) (n - (i + 1))).foldl (elimRow gf i) q) ∧
        Fact2 gf n M ((List.range' (i + 1) (n - (i + 1))).foldl (elimRow gf i) q) ∧
        Shape gf n (i + 1) ((List.range' (i + 1) (n - (i + 1))).foldl (elimRow gf i) q).1 := by
      intro q k1 k2 k3 k4
      exact elim_fold i hi (n - (i + 1)) (i + 1) q (by omega) (by omega) k1 k2 k3 k4 (fun a _ _ => by omega)
    by_cases hone : mat' i i = 1#w
    · rw [if_neg (by simpa using hone)]
      exact main (mat', inv') g1 g2 gs hone
    · rw [if_pos hone]
      obtain ⟨e1, e2⟩ := fact_scale (gf := gf) (i := i) (inv_ne_zero' (gf := gf) hp') g1 g2
      refine main (scaleRow gf i (gfInvert gf (mat' i i)) mat', scaleRow gf i (gfInvert gf (mat' i i)) inv')
        e1 e2 ?_ ?_
      · intro c hc hcn
        have := gs c hc hcn
        constructor
        · show ent gf (scaleRow gf i _ mat') c c = 1
          rw [ent_scaleRow, if_neg (by omega)]; exact this.1
        · intro a ha1 ha2
          show ent gf (scaleRow gf i _ mat') a c = 0
          rw [ent_scaleRow]
          split
          · rw [this.2 a ha1 ha2, mul_zero]
          · exact this.2 a ha1 ha2
      · show ent gf (scaleRow gf i _ mat') i i = 1
        rw [ent_scaleRow, if_pos rfl]
        unfold gfInvert
        have := gf.mul_inv _ hp'
        show gf.mul (gf.inv (mat' i i)) (mat' i i) = 1#w
        rw [gf.mul_comm]; exact this

theorem forward_spec : ∀ (k i : Nat) (st : Mat w × Mat w), i + k = n →
    Fact1 gf n M st → Fact2 gf n M st → Shape gf n i st.1 →
    match forward gf n k i st with
    | none => ∃ v : Nat → FE gf, (∃ c < n, v c ≠ 0) ∧ Ker gf n M v
    | some r => Fact1 gf n M r ∧ Shape gf n n r.1 := by
  intro k
  induction k with
  | zero =>
    intro i st hik h1 h2 hs
    have : i = n := by omega
    subst this
    exact ⟨h1, hs⟩
  | succ k ih =>
    intro i st hik h1 h2 hs
    have hstep := forwardStep_spec i (by omega) st h1 h2 hs
    simp only [forward]
    revert hstep
    cases hf : forwardStep gf n i st with
    | none =>
      rintro ⟨v, hv, hk⟩
      exact ⟨v, ⟨i, by omega, hv⟩, hk⟩
    | some r =>
      rintro ⟨g1, g2, g3⟩
      exact ih (i + 1) r (by omega) g1 g2 g3

/-- columns `≥ i` above the diagonal are cleared -/
def Cleared (gf : GF w) (n : Nat) (i : Nat) (m : Mat w) : Prop :=
  ∀ c, i ≤ c → c < n → ∀ a < c, ent gf m a c = 0

theorem back_fold (i : Nat) (hi : i < n) : ∀ (k j : Nat) (st : Mat w × Mat w), j + k = i →
    Fact1 gf n M st → Shape gf n n st.1 → Cleared gf n (i + 1) st.1 → (∀ a < j, ent gf st.1 a i = 0) →
    let r := (List.range' j k).foldl (backRow gf i) st
    Fact1 gf n M r ∧ Shape gf n n r.1 ∧ Cleared gf n i r.1 := by
  intro k
  induction k with
  | zero =>
    intro j st hj h1 hs hc hz
    refine ⟨h1, hs, ?_⟩
    intro c hci hcn a ha
    by_cases h : c = i
    · subst h; exact hz a (by omega)
    · exact hc c (by omega) hcn a ha
  | succ k ih =>
    intro j st hj h1 hs hc hz
    simp only [List.range'_succ, List.foldl_cons]
    by_cases h0 : st.1 j i = 0#w
    · have : backRow gf i st j = st := by unfold backRow; simp [h0]
      rw [this]
      apply ih (j + 1) st (by omega) h1 hs hc
      intro a ha
      by_cases haj : a = j
      · subst haj; exact h0
      · exact hz a (by omega)
    · have hbr : backRow gf i st j
          = (fun a b => if a = j ∧ b = i then 0#w else st.1 a b, addRow gf (st.1 j i) i j st.2) := by
        unfold backRow; simp [h0]
      rw [hbr]
      have hent : ∀ a b, ent gf (fun a b => if a = j ∧ b = i then 0#w else st.1 a b) a b
          = if a = j ∧ b = i then 0 else ent gf st.1 a b := by
        intro a b; unfold ent; dsimp only; split <;> rfl
      apply ih (j + 1) _ (by omega)
      · intro a ha b hb
        dsimp only
        rw [hent]
        simp only [ent_addRow]
        by_cases haj : a = j
        · subst haj
          simp only [if_true, true_and]
          have e : ∑ k ∈ range n, (ent gf st.2 a k + toFE gf (st.1 a i) * ent gf st.2 i k) * ent gf M k b
              = ent gf st.1 a b + toFE gf (st.1 a i) * ent gf st.1 i b := by
            rw [← h1 a ha b hb, ← h1 i hi b hb, mul_sum, ← sum_add_distrib]
            exact sum_congr rfl (fun k _ => by ring)
          rw [e]
          rcases Nat.lt_trichotomy b i with hb' | hb' | hb'
          · rw [if_neg (by omega), (hs b hb hb).2 i hb' hi, mul_zero, add_zero]
          · subst hb'
            rw [if_pos rfl, (hs b hb hb).1, mul_one]
            exact FE.add_self _
          · rw [if_neg (by omega), hc b (by omega) hb i hb', mul_zero, add_zero]
        · simp only [haj, if_false, false_and]
          exact h1 a ha b hb
      · intro c hcn' hcn
        dsimp only
        constructor
        · rw [hent, if_neg (by omega)]; exact (hs c hcn hcn).1
        · intro a ha1 ha2
          rw [hent]
          split
          · rfl
          · exact (hs c hcn hcn).2 a ha1 ha2
      · intro c hci hcn a ha
        dsimp only
        rw [hent, if_neg (by omega)]
        exact hc c hci hcn a ha
      · intro a ha
        dsimp only
        rw [hent]
        split
        · rfl
        · exact hz a (by omega)

theorem backward_spec : ∀ (i : Nat) (st : Mat w × Mat w), i ≤ n →
    Fact1 gf n M st → Shape gf n n st.1 → Cleared gf n i st.1 →
    Fact1 gf n M (backward gf i st) ∧ Shape gf n n (backward gf i st).1 ∧ Cleared gf n 0 (backward gf i st).1 := by
  intro i
  induction i with
  | zero => intro st _ h1 hs hc; exact ⟨h1, hs, hc⟩
  | succ i ih =>
    intro st hi h1 hs hc
    simp only [backward]
    have := back_fold i (by omega) i 0 st (by omega) h1 hs hc (fun a ha => by omega)
    rw [← List.range_eq_range'] at this
    exact ih _ (by omega) this.1 this.2.1 this.2.2

/-- On success the result is a left inverse. -/
theorem invert_ok_spec {inv : Mat w} (h : invert gf n M = .ok inv) (a b : Nat) (ha : a < n) (hb : b < n) :
    ∑ k ∈ range n, ent gf inv a k * ent gf M k b = if a = b then 1 else 0 := by
  unfold invert at h
  have h0 : Fact1 gf n M (M, matId) := by
    intro a ha b hb
    simp only [ent_matId, ite_mul, one_mul, zero_mul]
    rw [sum_ite_eq (range n) a (fun k => ent gf M k b), if_pos (mem_range.2 ha)]
  have := forward_spec (gf := gf) (M := M) n 0 (M, matId) (by omega) h0 (fun _ hv => hv)
    (fun c hc _ => by omega)
  revert this h
  cases hf : forward gf n n 0 (M, matId) with
  | none => intro h; cases h
  | some st =>
    intro h hr
    cases h
    obtain ⟨g1, g2⟩ := hr
    obtain ⟨k1, k2, k3⟩ := backward_spec (gf := gf) (M := M) n st (Nat.le_refl n) g1 g2
      (fun c h1 h2 => by omega)
    rw [k1 a ha b hb]
    rcases Nat.lt_trichotomy a b with h | h | h
    · rw [if_neg (by omega)]; exact k3 b (by omega) hb a h
    · subst h; rw [if_pos rfl]; exact (k2 a ha ha).1
    · rw [if_neg (by omega)]; exact (k2 b hb hb).2 a h ha

/-- On failure the matrix has a non-trivial kernel and the reported index is the last one. -/
theorem invert_error_spec {c : Nat} (h : invert gf n M = .error c) :
    c = n - 1 ∧ ∃ v : Nat → FE gf, (∃ k < n, v k ≠ 0) ∧ ∀ a < n, ∑ k ∈ range n, ent gf M a k * v k = 0 := by
  unfold invert at h
  have h0 : Fact1 gf n M (M, matId) := by
    intro a ha b hb
    simp only [ent_matId, ite_mul, one_mul, zero_mul]
    rw [sum_ite_eq (range n) a (fun k => ent gf M k b), if_pos (mem_range.2 ha)]
  have := forward_spec (gf := gf) (M := M) n 0 (M, matId) (by omega) h0 (fun _ hv => hv)
    (fun c hc _ => by omega)
  revert this h
  cases hf : forward gf n n 0 (M, matId) with
  | none =>
    intro h hr
    cases h
    exact ⟨rfl, hr⟩
  | some st => intro h; cases h

end Netcode
