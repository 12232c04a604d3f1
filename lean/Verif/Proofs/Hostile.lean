import Verif.Proofs.DecProps

/-!
# Decoders that only got sources

Whatever source packets a decoder is given, nothing goes wrong as long as no repair packet is accepted.
-/

set_option linter.unusedSectionVars false

namespace Netcode

open OMap

variable {w : Nat}

/-- The state of a decoder that never accepted a repair. -/
structure SrcOnly (s : Dec) : Prop where
  rep : s.repairs = []
  mis : s.missing = []
  sorted : Sorted s.ordered
  gt : ∀ k ∈ s.ordered, s.firstMissing < k
  src : ∀ k ∈ s.ordered, k ∈ s.sources.keys

/-- The same, while the first missing source may be withheld. -/
structure SrcOnlyW (s : Dec) : Prop where
  rep : s.repairs = []
  mis : s.missing = []
  sorted : Sorted s.ordered
  ge : ∀ k ∈ s.ordered, s.firstMissing ≤ k
  src : ∀ k ∈ s.ordered, k ∈ s.sources.keys

theorem callbackOrdered_total {s : Dec} {k : Nat} (h : k ∈ s.sources.keys) :
    ∃ src, s.callbackOrdered k = .ok (s.callback src) := by
  unfold Dec.callbackOrdered
  obtain ⟨v, hv⟩ := (get?_isSome_iff s.sources k).2 h
  rw [hv]
  exact ⟨v, rfl⟩

theorem flushLoop_total (dbg : Bool) (l : List Nat) (s : Dec) (h : SrcOnlyW s) (hl : s.ordered = l)
    (hh : ∀ k ∈ l.head?, k = s.firstMissing) :
    ∃ s', flushLoop dbg l s = .ok s' ∧ SrcOnly s' ∧ s'.sources = s.sources := by
  induction l generalizing s with
  | nil =>
    refine ⟨s, by unfold flushLoop; rfl, ⟨h.rep, h.mis, h.sorted, ?_, h.src⟩, rfl⟩
    rw [hl]; simp
  | cons id rest ih =>
    have hid : id = s.firstMissing := hh id (by simp)
    have hs := h.sorted
    rw [hl] at hs
    have hc := List.pairwise_cons.1 hs
    obtain ⟨src, hcb⟩ := callbackOrdered_total (s := s) (k := id) (h.src id (by rw [hl]; simp))
    unfold flushLoop
    rw [cassert_ok _ (by simpa using hid), hcb]
    simp only [bind, Except.bind, Dec.callback, hl, List.erase_cons_head]
    have hW : ∀ (fm : Nat) (lg : List Event), (∀ k ∈ rest, fm ≤ k) →
        SrcOnlyW { s with ordered := rest, firstMissing := fm, log := lg } := by
      intro fm lg hge
      exact ⟨h.rep, h.mis, hc.2, hge, fun k hk => h.src k (by rw [hl]; simp [hk])⟩
    cases rest with
    | nil =>
      refine ⟨_, rfl, ⟨h.rep, h.mis, List.Pairwise.nil, by simp, by simp⟩, rfl⟩
    | cons nxt t =>
      simp only
      have hlt : s.firstMissing < nxt := by rw [← hid]; exact hc.1 nxt (by simp)
      have hge : ∀ k ∈ nxt :: t, nxt ≤ k := by
        intro k hk
        rcases List.mem_cons.1 hk with rfl | hk
        · exact Nat.le_refl _
        · exact Nat.le_of_lt ((List.pairwise_cons.1 hc.2).1 k hk)
      split
      · rename_i hgt
        refine ⟨_, rfl, ⟨h.rep, h.mis, hc.2, fun k hk => ?_, fun k hk => h.src k (by rw [hl]; simp [hk])⟩, rfl⟩
        exact Nat.lt_of_lt_of_le hgt (hge k hk)
      · rename_i hgt
        have hmod : (s.firstMissing + 1) % 2 ^ 32 ≤ s.firstMissing + 1 := Nat.mod_le _ _
        have heq : nxt = (s.firstMissing + 1) % 2 ^ 32 := by simp only [gt_iff_lt] at hgt; omega
        exact ih _ (hW _ _ (fun k hk => by rw [← heq]; exact hge k hk)) rfl (by simpa using heq)

theorem flush_total (dbg : Bool) (s : Dec) (h : SrcOnlyW s) :
    ∃ s', s.flush dbg = .ok s' ∧ SrcOnly s' ∧ s'.sources = s.sources := by
  unfold Dec.flush
  split
  · rename_i hm
    have hd : s.ordered.dropWhile (fun k => decide (k < s.firstMissing)) = s.ordered := by
      cases ho : s.ordered with
      | nil => rfl
      | cons a t =>
        rw [List.dropWhile_cons_of_neg]
        have := h.ge a (by rw [ho]; simp)
        simpa using this
    rw [hd]
    refine flushLoop_total dbg s.ordered s h rfl ?_
    intro k hk
    cases ho : s.ordered with
    | nil => rw [ho] at hm; cases hm
    | cons a t =>
      rw [ho] at hk hm
      simp only [List.head?_cons, Option.mem_def, Option.some.injEq] at hk
      subst hk
      have h1 := h.ge a (by rw [ho]; simp)
      rcases List.mem_cons.1 hm with e | e
      · exact e.symm
      · have hs := h.sorted
        rw [ho] at hs
        have := (List.pairwise_cons.1 hs).1 _ e
        omega
  · rename_i hm
    exact ⟨s, rfl, ⟨h.rep, h.mis, h.sorted, fun k hk => Nat.lt_of_le_of_ne (h.ge k hk) (fun e => hm (e ▸ hk)), h.src⟩, rfl⟩

theorem giveNew_total (dbg : Bool) (src : DSource) (s : Dec) (h : SrcOnly s) :
    ∃ s', s.giveNew dbg src = .ok s' ∧ SrcOnly s' ∧ s'.sources = s.sources := by
  unfold Dec.giveNew
  split
  · exact ⟨_, rfl, ⟨h.rep, h.mis, h.sorted, h.gt, h.src⟩, rfl⟩
  · split
    · have hmod : (s.firstMissing + 1) % 2 ^ 32 ≤ s.firstMissing + 1 := Nat.mod_le _ _
      exact flush_total dbg { s.callback src with firstMissing := (s.firstMissing + 1) % 2 ^ 32 }
        ⟨h.rep, h.mis, h.sorted, fun k hk => Nat.le_trans hmod (h.gt k hk), h.src⟩
    · exact ⟨s, rfl, h, rfl⟩

theorem onSource_total (gf : GF w) (dbg : Bool) (s : Dec) (src : DSource) (h : SrcOnly s) :
    ∃ s', s.onSource gf dbg src = .ok s' ∧ SrcOnly s' := by
  unfold Dec.onSource
  split
  · exact ⟨s, rfl, h⟩
  split
  · exact ⟨s, rfl, h⟩
  rename_i hnew
  obtain ⟨s1, h1, i1, e1⟩ := giveNew_total dbg src s h
  have hf : s.fuel = 5 + 1 := by unfold Dec.fuel; rw [h.rep, h.mis]; rfl
  have hhead : addSourceHead gf dbg src s = .ok s1 := by
    unfold addSourceHead
    rw [h1]
    simp only [bind, Except.bind, i1.mis]
    rfl
  have htail : ∃ s2, addSourceTail dbg src s1 = .ok s2 ∧ SrcOnly s2 := by
    unfold addSourceTail
    rw [cassert_ok _ (by rw [e1]; simpa using hnew)]
    simp only [bind, Except.bind]
    have hk : ∀ k ∈ s1.ordered, k ∈ (s1.sources.emplace src.id src).keys :=
      fun k hk => (mem_keys_emplace _ _ _ _).2 (Or.inr (i1.src k hk))
    split
    · rename_i hc
      simp only [Bool.and_eq_true, decide_eq_true_eq] at hc
      refine ⟨_, rfl, ⟨i1.rep, i1.mis, sorted_setInsert _ i1.sorted _, fun k hk' => ?_, fun k hk' => ?_⟩⟩
      · rcases (mem_setInsert _ _ _).1 hk' with rfl | hk'
        · exact hc.2
        · exact i1.gt k hk'
      · rcases (mem_setInsert _ _ _).1 hk' with rfl | hk'
        · exact (mem_keys_emplace _ _ _ _).2 (Or.inl rfl)
        · exact hk k hk'
    · exact ⟨_, rfl, ⟨i1.rep, i1.mis, i1.sorted, i1.gt, hk⟩⟩
  obtain ⟨s2, h2, i2⟩ := htail
  refine ⟨s2, ?_, i2⟩
  rw [hf]
  unfold addSource
  rw [hhead]
  simp only [bind, Except.bind]
  have hscan : scanMissing gf dbg 5 s1.missing.keys.head? s1 = .ok s1 := by
    rw [i1.mis]
    unfold scanMissing
    rfl
  rw [hscan]
  simp only [h2]
  unfold Dec.fullDecode
  simp [i2.rep]
  rfl

end Netcode
