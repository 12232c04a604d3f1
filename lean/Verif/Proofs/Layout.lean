import Verif.Spec.Layout

/-!
# The layout of packets: proofs
-/

namespace Netcode

theorem beBytes_bigEndian (k x : Nat) : beBytes k x = bigEndian k x := by
  induction k with
  | zero => rfl
  | succ k ih =>
    rw [beBytes, ih]
    unfold bigEndian
    rw [List.range_succ_eq_map, List.map_cons, List.map_map]
    congr 1
    · simp [Nat.pow_mul]
    · refine List.map_congr_left (fun i hi => ?_)
      simp only [Function.comp_apply]
      rw [show k + 1 - 1 - (i + 1) = k - 1 - i by omega]

theorem bigEndian_mod (k x : Nat) : bigEndian k (x % 2 ^ (8 * k)) = bigEndian k x := by
  unfold bigEndian
  refine List.map_congr_left (fun i hi => ?_)
  have hi : i < k := List.mem_range.1 hi
  apply BitVec.eq_of_toNat_eq
  simp only [BitVec.toNat_ofNat]
  rw [show 8 * k = 8 * (k - 1 - i) + (8 + 8 * i) by omega, Nat.pow_add, Nat.mod_mul_right_div_self, Nat.pow_add,
    Nat.mod_mul_right_mod]

/-- The loop of the encoder, with full gaps. -/
def fullRuns (cur run : Nat) : List Nat → List (Nat × Nat)
  | [] => [(run, cur)]
  | x :: t => if cur = x ∧ run < 255 then fullRuns x (run + 1) t else (run, cur) :: fullRuns x 1 t

theorem rleGo_full (l : List Nat) : ∀ cur run, rleGo cur run l = (fullRuns cur run l).map (fun p => (p.1, p.2 % 2 ^ 16)) := by
  induction l with
  | nil => intro cur run; rfl
  | cons x t ih =>
    intro cur run
    unfold rleGo fullRuns
    split
    · exact ih _ _
    · rw [ih]; rfl

theorem fullRuns_head (l : List Nat) : ∀ cur run, ∃ n t, fullRuns cur run l = (n, cur) :: t := by
  induction l with
  | nil => intro cur run; exact ⟨_, _, rfl⟩
  | cons x t ih =>
    intro cur run
    unfold fullRuns
    split
    · next h => obtain ⟨rfl, -⟩ := h; exact ih _ _
    · exact ⟨_, _, rfl⟩

theorem fullRuns_runs (l : List Nat) : ∀ cur run, 0 < run → run ≤ 255 → Runs (List.replicate run cur ++ l) (fullRuns cur run l) := by
  induction l with
  | nil =>
    intro cur run h1 h2
    refine ⟨by simp [fullRuns], ?_, by simp [fullRuns]⟩
    intro r hr
    simp only [fullRuns, List.mem_singleton] at hr
    subst hr
    exact ⟨h1, h2⟩
  | cons x t ih =>
    intro cur run h1 h2
    unfold fullRuns
    split
    · next h =>
      obtain ⟨rfl, hlt⟩ := h
      have := ih cur (run + 1) (by omega) (by omega)
      rwa [List.replicate_succ', List.append_assoc, List.singleton_append] at this
    · next h =>
      have hr := ih x 1 (by omega) (by omega)
      obtain ⟨n, u, hu⟩ := fullRuns_head t x 1
      refine ⟨?_, ?_, ?_⟩
      · rw [List.flatMap_cons, hr.all]; rfl
      · intro r hm
        rcases List.mem_cons.1 hm with rfl | hm
        · exact ⟨h1, h2⟩
        · exact hr.short r hm
      · intro i r r' e1 e2
        rw [List.getElem?_cons_succ] at e2
        cases i with
        | succ i => exact hr.greedy i r r' e1 e2
        | zero =>
        rw [hu] at e2
        cases e1
        cases e2
        by_cases hx : cur = x
        · left; show run = 255; have : ¬ run < 255 := fun hl => h ⟨hx, hl⟩; omega
        · exact .inr hx

theorem adjDiff_gaps : ∀ (first : Nat) (rest : List Nat), Sorted (first :: rest) → (∀ x ∈ first :: rest, x < 2 ^ 32) →
    adjDiff first rest = gaps (first :: rest)
  | _, [], _, _ => rfl
  | a, b :: t, hs, hb => by
    have h1 : a < b := (List.pairwise_cons.1 hs).1 b (by simp)
    have h2 := hb b (by simp)
    have ih := adjDiff_gaps b t (List.pairwise_cons.1 hs).2 (fun x hx => hb x (List.mem_cons_of_mem _ hx))
    rw [adjDiff, ih, Nat.mod_eq_of_lt (show a < 2 ^ 32 by omega)]
    show _ = (b - a) :: gaps (b :: t)
    congr 1
    omega

theorem writeIds_bytes (ids : List Nat) (hs : Sorted ids) (hb : ∀ x ∈ ids, x < 2 ^ 32) : IdBytes ids (writeIds ids).flatten := by
  cases ids with
  | nil => exact .nil
  | cons first rest =>
    obtain ⟨runs, h1, h2⟩ : ∃ runs, Runs (gaps (first :: rest)) runs ∧
        rle (adjDiff first rest) = runs.map (fun p => (p.1, p.2 % 2 ^ 16)) := by
      rw [adjDiff_gaps first rest hs hb]
      cases gaps (first :: rest) with
      | nil => exact ⟨[], ⟨rfl, by simp, by simp⟩, rfl⟩
      | cons x t => exact ⟨_, fullRuns_runs t x 1 (by omega) (by omega), rleGo_full t x 1⟩
    have he : (writeIds (first :: rest)).flatten =
        bigEndian 2 (runs.length + 1) ++ bigEndian 4 first ++ runs.flatMap (fun r => bigEndian 1 r.1 ++ bigEndian 2 r.2) := by
      unfold writeIds
      simp only [h2, List.length_map, List.flatten_append, List.flatten_cons, List.flatten_nil, List.append_nil, beBytes_bigEndian,
        List.append_assoc]
      congr 2
      clear h1 h2
      induction runs with
      | nil => rfl
      | cons r u ih =>
        simp only [List.map_cons, List.flatMap_cons, List.flatten_append, List.flatten_cons, List.flatten_nil, List.append_nil, ih]
        rw [show bigEndian 2 (r.2 % 2 ^ 16) = bigEndian 2 r.2 from bigEndian_mod 2 r.2]
    rw [he]
    exact .cons h1

theorem Runs.tail {g : List Nat} {n x : Nat} {r : List (Nat × Nat)} (h : Runs g ((n, x) :: r)) :
    Runs (r.flatMap (fun r => List.replicate r.1 r.2)) r :=
  ⟨rfl, fun q hq => h.short q (List.mem_cons_of_mem _ hq), fun i => h.greedy (i + 1)⟩

theorem Runs.le {g : List Nat} {n n' x : Nat} {r r' : List (Nat × Nat)} (h : Runs g ((n, x) :: r)) (h' : Runs g ((n', x) :: r')) :
    n' ≤ n := by
  rcases Nat.lt_or_ge n n' with hlt | hle
  · exfalso
    have e := h.all.trans h'.all.symm
    simp only [List.flatMap_cons] at e
    obtain ⟨k, rfl⟩ : ∃ k, n' = n + (k + 1) := ⟨n' - n - 1, by omega⟩
    rw [← List.replicate_append_replicate, List.append_assoc] at e
    have e := List.append_cancel_left e
    have hs := (h'.short _ (List.mem_cons_self)).2
    cases r with
    | nil => simp [List.replicate_succ] at e
    | cons q u =>
      obtain ⟨m, y⟩ := q
      have hm := (h.short (m, y) (by simp)).1
      obtain ⟨m, rfl⟩ : ∃ k, m = k + 1 := ⟨m - 1, by simp at hm; omega⟩
      simp only [List.flatMap_cons, List.replicate_succ, List.cons_append] at e
      have hxy := (List.cons.inj e).1
      rcases h.greedy 0 (n, x) (m + 1, y) rfl rfl with g1 | g1
      · simp only at g1 hs; omega
      · exact g1 hxy.symm
  · exact hle

/-- The runs are determined. -/
theorem Runs.unique : ∀ {r r' : List (Nat × Nat)} {g : List Nat}, Runs g r → Runs g r' → r = r'
  | [], [], _, _, _ => rfl
  | [], (n, x) :: r', g, h, h' => by
    have e := h.all.trans h'.all.symm
    have := (h'.short _ (List.mem_cons_self)).1
    obtain ⟨k, rfl⟩ : ∃ k, n = k + 1 := ⟨n - 1, by simp at this; omega⟩
    simp [List.replicate_succ] at e
  | (n, x) :: r, [], g, h, h' => by
    have e := h.all.trans h'.all.symm
    have := (h.short _ (List.mem_cons_self)).1
    obtain ⟨k, rfl⟩ : ∃ k, n = k + 1 := ⟨n - 1, by simp at this; omega⟩
    simp [List.replicate_succ] at e
  | (n, x) :: r, (n', x') :: r', g, h, h' => by
    have e := h.all.trans h'.all.symm
    have hx : x = x' := by
      have h1 := (h.short _ (List.mem_cons_self)).1
      have h2 := (h'.short _ (List.mem_cons_self)).1
      obtain ⟨k, rfl⟩ : ∃ k, n = k + 1 := ⟨n - 1, by simp at h1; omega⟩
      obtain ⟨k', rfl⟩ : ∃ k, n' = k + 1 := ⟨n' - 1, by simp at h2; omega⟩
      simp only [List.flatMap_cons, List.replicate_succ, List.cons_append] at e
      exact (List.cons.inj e).1
    subst hx
    have hn : n = n' := Nat.le_antisymm (h'.le h) (h.le h')
    subst hn
    simp only [List.flatMap_cons] at e
    have e := List.append_cancel_left e
    rw [(h.tail).unique (e ▸ h'.tail)]

theorem bigEndian_length (k x : Nat) : (bigEndian k x).length = k := by simp [bigEndian]

theorem Runs.const : ∀ {r : List (Nat × Nat)} {n x : Nat}, Runs (List.replicate n x) r → r.length = (n + 254) / 255
  | [], n, x, h => by
    have := congrArg List.length h.all
    simp at this
    subst this
    rfl
  | [(m, y)], n, x, h => by
    have h1 := congrArg List.length h.all
    have h2 := h.short (m, y) (by simp)
    simp at h1 h2
    show 1 = _
    omega
  | (m, y) :: (m', y') :: t, n, x, h => by
    have h1 := congrArg List.length h.all
    have h2 := h.short (m, y) (by simp)
    have h3 := h.short (m', y') (by simp)
    simp only at h2 h3
    have hall : ∀ z ∈ ((m, y) :: (m', y') :: t).flatMap (fun r => List.replicate r.1 r.2), z = x := by
      rw [h.all]; intro z hz; exact (List.mem_replicate.1 hz).2
    have hy : y = x := hall y (by simp only [List.flatMap_cons, List.mem_append, List.mem_replicate]; exact .inl ⟨by omega, trivial⟩)
    have hy' : y' = x := hall y' (by simp only [List.flatMap_cons, List.mem_append, List.mem_replicate]; exact .inr (.inl ⟨by omega, trivial⟩))
    have hm : m = 255 := (h.greedy 0 _ _ rfl rfl).resolve_right (by rw [hy, hy']; simp)
    have ht : ((m', y') :: t).flatMap (fun r => List.replicate r.1 r.2) = List.replicate (n - 255) x := by
      rw [List.eq_replicate_iff]
      refine ⟨?_, fun z hz => hall z ?_⟩
      · rw [List.flatMap_cons, List.length_append, List.length_replicate, List.length_replicate] at h1
        omega
      · rw [List.flatMap_cons]; exact List.mem_append_right _ hz
    have ih := Runs.const (ht ▸ h.tail)
    rw [List.length_cons, ih]
    rw [List.flatMap_cons, List.length_append, List.length_replicate, List.length_replicate, List.flatMap_cons, List.length_append,
      List.length_replicate] at h1
    omega

theorem gaps_range' (n : Nat) : ∀ first, gaps (List.range' first (n + 1)) = List.replicate n 1 := by
  induction n with
  | zero => intro first; rfl
  | succ n ih =>
    intro first
    have := ih (first + 1)
    rw [List.range'_succ]
    rw [List.range'_succ] at this ⊢
    rw [List.replicate_succ, ← this]
    simp [gaps]

end Netcode
