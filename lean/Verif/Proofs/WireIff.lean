import Verif.Proofs.Wire
import Verif.Proofs.SysInv

/-!
# Exactly which identifier lists survive the wire
-/

namespace Netcode

theorem setInsert_length (l : List Nat) (k : Nat) : (setInsert l k).length ≤ l.length + 1 := by
  induction l with
  | nil => simp [setInsert]
  | cons x t ih =>
    unfold setInsert
    split
    · simp
    · split
      · simp
      · simp only [List.length_cons]; omega

theorem foldl_setInsert_length (l a : List Nat) : (l.foldl setInsert a).length ≤ a.length + l.length := by
  induction l generalizing a with
  | nil => simp
  | cons x t ih =>
    have h1 := ih (setInsert a x)
    have h2 := setInsert_length a x
    simp only [List.foldl_cons, List.length_cons]; omega

theorem partialSums_length (l : List Nat) (a : Nat) : (partialSums a l).length = l.length := by
  induction l generalizing a with
  | nil => rfl
  | cons x t ih => simp [partialSums, ih]

theorem rleGo_pos (l : List Nat) (cur run : Nat) (h : 0 < run) : ∀ q ∈ rleGo cur run l, 0 < q.1 := by
  induction l generalizing cur run with
  | nil => intro q hq; simp only [rleGo, List.mem_singleton] at hq; subst hq; exact h
  | cons x t ih =>
    unfold rleGo
    split
    · exact ih _ _ (by omega)
    · intro q hq
      rcases List.mem_cons.1 hq with rfl | hq
      · exact h
      · exact ih _ _ (by omega) q hq

theorem rle_pos (l : List Nat) : ∀ q ∈ rle l, 0 < q.1 := by
  cases l with
  | nil => simp [rle]
  | cons x t => exact rleGo_pos _ _ _ (by omega)

theorem unrle_take_lt (ps : List (Nat × Nat)) (h : ∀ q ∈ ps, 0 < q.1) (m : Nat) (hm : m < ps.length) :
    (unrle (ps.take m)).length < (unrle ps).length := by
  induction ps generalizing m with
  | nil => simp at hm
  | cons q t ih =>
    have hq := h q (by simp)
    cases m with
    | zero => simp only [List.take_zero, unrle, List.flatMap_nil, List.length_nil, List.flatMap_cons,
        List.length_append, List.length_replicate]; omega
    | succ m =>
      have := ih (fun q hq => h q (by simp [hq])) m (by simpa using hm)
      simp only [unrle] at this
      simp only [List.take_succ_cons, unrle, List.flatMap_cons, List.length_append]; omega

/-- What is read from the bytes written for `a :: t`, whatever the gaps. -/
theorem readIds_written (a : Nat) (t : List Nat) (ha : a < 2 ^ 32) :
    let ps := rle (adjDiff a t)
    let nb := (ps.length + 1) % 65536
    ∃ c, readIds (writeIds (a :: t)).flatten (whole (writeIds (a :: t)).flatten) =
      .ok (if nb = 0 then [] else (partialSums 0 (a :: unrle (ps.take (nb - 1)))).foldl setInsert [], c) := by
  intro ps nb
  have e : (writeIds (a :: t)).flatten = beBytes 2 (ps.length + 1) ++
      (beBytes 4 a ++ (pairBytes ps ++ [])) := by
    simp [writeIds, pairBytes, ps]
  have hb := rle_bounds (adjDiff a t)
  have r1 := reads_int 2 (ps.length + 1)
  rw [show (ps.length + 1) % 256 ^ 2 = nb from rfl] at r1
  have r2 := reads_int 4 a
  rw [Nat.mod_eq_of_lt (by simpa using ha)] at r2
  rw [readIds_eq, e]
  generalize hP : beBytes 2 (ps.length + 1) ++ (beBytes 4 a ++ (pairBytes ps ++ [])) = P
  obtain ⟨c1, g1, A1, _⟩ := r1 P (whole P) _ (by rw [hP]; exact at_whole P)
  by_cases h0 : nb = 0
  · refine ⟨c1, ?_⟩
    simp only [rbind, g1, h0, if_true]
  · have hle : nb - 1 ≤ ps.length := by
      have : nb ≤ ps.length + 1 := Nat.mod_le _ _
      omega
    have hsplit : pairBytes ps ++ [] = pairBytes (ps.take (nb - 1)) ++ pairBytes (ps.drop (nb - 1)) := by
      rw [List.append_nil]
      unfold pairBytes
      rw [← List.flatten_append, ← List.flatMap_append, List.take_append_drop]
    obtain ⟨c2, g2, A2, _⟩ := r2 P c1 _ A1
    have r3 := reads_pairs (ps.take (nb - 1)) (fun q hq => hb q (List.mem_of_mem_take hq))
    rw [List.length_take, Nat.min_eq_left hle] at r3
    rw [hsplit] at A2
    obtain ⟨c3, g3, A3, _⟩ := r3 P c2 _ A2
    refine ⟨c3, ?_⟩
    simp only at g2 g3
    simp only [rbind, g1, if_neg h0, g2, g3]

theorem partialSums_reach (t : List Nat) (a b last : Nat) (hba : b ≤ a) (hs : Sorted (a :: t))
    (hb : ∀ x ∈ a :: t, x < 2 ^ 32) (hl : t.getLast? = some last)
    (h : ∃ y ∈ partialSums b ((adjDiff a t).map (· % 2 ^ 16)), last ≤ y) : b = a ∧ SmallGaps (a :: t) := by
  induction t generalizing a b with
  | nil => cases hl
  | cons x t ih =>
    have hx : a < x := (List.pairwise_cons.1 hs).1 x (by simp)
    have hs' := (List.pairwise_cons.1 hs).2
    have hxb : x < 2 ^ 32 := hb x (by simp)
    obtain ⟨y, hy, hly⟩ := h
    simp only [adjDiff, diff_eq hx hxb, List.map_cons, partialSums, List.mem_cons] at hy
    have hm : (x - a) % 2 ^ 16 ≤ x - a := Nat.mod_le _ _
    have hmod : (b + (x - a) % 2 ^ 16) % 2 ^ 32 = b + (x - a) % 2 ^ 16 := Nat.mod_eq_of_lt (by omega)
    rw [hmod] at hy
    have hlast : x ≤ last := by
      cases t with
      | nil => simp at hl; omega
      | cons z u =>
        rw [List.getLast?_cons_cons] at hl
        exact Nat.le_of_lt ((List.pairwise_cons.1 hs').1 last (List.mem_of_getLast? hl))
    have key : b + (x - a) % 2 ^ 16 = x → b = a ∧ x - a < 2 ^ 16 := by
      intro hh
      have : (x - a) % 2 ^ 16 < 2 ^ 16 := Nat.mod_lt _ (by norm_num)
      omega
    rcases hy with hy | hy
    · have hk := key (by omega)
      refine ⟨hk.1, ?_⟩
      cases t with
      | nil => exact ⟨hk.2, trivial⟩
      | cons z u =>
        exfalso
        rw [List.getLast?_cons_cons] at hl
        have := (List.pairwise_cons.1 hs').1 last (List.mem_of_getLast? hl)
        omega
    · cases t with
      | nil => simp [adjDiff, partialSums] at hy
      | cons z u =>
        rw [List.getLast?_cons_cons] at hl
        obtain ⟨h1, h2⟩ := ih x (b + (x - a) % 2 ^ 16) (by omega) hs' (fun q hq => hb q (by simp [hq])) hl ⟨y, hy, hly⟩
        have hk := key h1
        exact ⟨hk.1, hk.2, h2⟩

/-- The identifier lists that survive the wire are exactly those of the specification. -/
theorem readIds_iff (ids : List Nat) (hs : Sorted ids) (hb : ∀ x ∈ ids, x < 2 ^ 32) :
    (∃ c, readIds (writeIds ids).flatten (whole (writeIds ids).flatten) = .ok (ids, c)) ↔ WireIds ids := by
  constructor
  · rintro ⟨c, h⟩
    refine ⟨hs, hb, ?_⟩
    cases ids with
    | nil => exact ⟨trivial, by simp [nbRuns]⟩
    | cons a t =>
      obtain ⟨c', h'⟩ := readIds_written a t (hb a (by simp))
      rw [h] at h'
      have hX := congrArg (fun x => match x with | Except.ok (p : List Nat × Cur) => p.1 | .error _ => []) h'
      simp only at hX
      have hruns := rle_runs a t hs hb
      have hulen : (unrle (rle (adjDiff a t))).length = t.length := by
        rw [unrle_rle, List.length_map, adjDiff_length]
      split at hX
      · cases hX
      · next h0 =>
        have hlt : (rle (adjDiff a t)).length + 1 < 65536 := by
          by_contra hge
          have hm : ((rle (adjDiff a t)).length + 1) % 65536 - 1 < (rle (adjDiff a t)).length := by omega
          have h1 := unrle_take_lt _ (rle_pos (adjDiff a t)) _ hm
          have h2 := congrArg List.length hX
          have h3 := foldl_setInsert_length
            (partialSums 0 (a :: unrle ((rle (adjDiff a t)).take (((rle (adjDiff a t)).length + 1) % 65536 - 1)))) []
          rw [← h2, partialSums_length] at h3
          simp only [List.length_cons, List.length_nil] at h3
          omega
        refine ⟨?_, by rw [← hruns]; exact hlt⟩
        rw [Nat.mod_eq_of_lt hlt, Nat.add_sub_cancel, List.take_length, unrle_rle] at hX
        cases hl : t.getLast? with
        | none => rw [List.getLast?_eq_none_iff] at hl; rw [hl]; trivial
        | some last =>
          have hmem : last ∈ a :: t := by simp [List.mem_of_getLast? hl]
          have hgt : a < last := (List.pairwise_cons.1 hs).1 last (List.mem_of_getLast? hl)
          rw [hX, foldl_setInsert_mem] at hmem
          simp only [partialSums, Nat.zero_add, Nat.mod_eq_of_lt (hb a (by simp)), List.not_mem_nil, false_or,
            List.mem_cons] at hmem
          rcases hmem with hm | hm
          · omega
          · exact (partialSums_reach t a a last (le_refl _) hs hb hl ⟨last, hm, le_refl _⟩).2
  · intro h
    obtain ⟨c, h1, _⟩ := reads_ids ids h _ (whole _) [] (by rw [List.append_nil]; exact at_whole _)
    exact ⟨c, h1⟩

end Netcode
