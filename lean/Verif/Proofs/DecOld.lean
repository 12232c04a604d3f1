import Verif.Proofs.DecRepair

/-!
# Reception of a repair that newer repairs have overtaken keeps the invariant of the decoder
-/

set_option linter.unusedSectionVars false

namespace Netcode

open OMap

variable {w : Nat} [Fact (0 < w)]

section
variable {gf : GF w} {data : Nat → List Byte} {P : Nat → Nat → Prop} {ρ L : Nat} {W K : Set Nat} {s : Dec}

omit [Fact (0 < w)] in
/-- A repair that is held, or all of whose sources are outdated, is ignored. -/
theorem onRepair_stays (dbg : Bool) (r : DRepair) (hne : r.ids ≠ [])
    (h : (∃ l, s.lastId = some l ∧ ∀ x ∈ r.ids, x < l) ∨ s.repairs.has r.id = true) : s.onRepair gf dbg r = .ok s := by
  unfold Dec.onRepair
  rw [cassert_true _ (by simpa using hne)]
  obtain ⟨lst, hlst⟩ : ∃ lst, r.ids.getLast? = some lst := by
    cases hl : r.ids.getLast? with
    | none => rw [List.getLast?_eq_none_iff] at hl; exact absurd hl hne
    | some q => exact ⟨q, rfl⟩
  obtain ⟨f, hf⟩ : ∃ f, r.ids.head? = some f := by
    cases hl : r.ids with
    | nil => exact absurd hl hne
    | cons a t => exact ⟨a, rfl⟩
  rw [hlst, hf]
  simp only [bind, Except.bind]
  rcases h with ⟨l, h1, h2⟩ | h
  · rw [if_pos (by rw [h1]; simpa using h2 _ (List.mem_of_getLast? hlst))]
    rfl
  · split
    · rfl
    · rfl

/-- The callback part of `add_source_recursive`, for sources that are stored. -/
theorem giveNew_ok (dbg : Bool) (hS : SrcInv data L K s) (hL : LogInv data L K s) (x : Nat)
    (hx : x ∉ K) (hLx : L ≤ x) (hb : x + 1 < 2 ^ 32) : ∃ s1, s.giveNew dbg ⟨x, data x⟩ = .ok s1 ∧ SameCore s s1 := by
  have hkeys : ∀ y ∈ s.sources.keys, y ∈ insert x K := fun y hy => Or.inr (hS.keys y hy)
  unfold Dec.giveNew
  cases hio : s.inOrder with
  | false => exact ⟨s.callback ⟨x, data x⟩, rfl, ⟨rfl, List.prefix_append _ _⟩⟩
  | true =>
    simp only [Bool.not_true, Bool.false_eq_true, if_false]
    by_cases hfm : x = s.firstMissing
    · rw [if_pos hfm]
      obtain ⟨s1, e, c, -⟩ := give_flush dbg hL hio x hx hb hfm (by
        intro y hy
        obtain ⟨hp, _⟩ := hL.ord hio
        have h1 := (hp.ordMem y).1 hy
        have := hp.lo
        exact (hS.srcGet y _).2 ⟨h1.1, by omega, rfl⟩) hkeys
      exact ⟨s1, e, c⟩
    · rw [if_neg hfm]
      exact ⟨s, rfl, SameCore.refl s⟩

open Classical in
/-- A repair with the same start as the newest one and exactly one unknown source: the repairs that are held stay as they are. -/
theorem onRepair_single (dbg : Bool) (hv : ValidW w) (h : DInv gf data P ρ L W K s) (r : DRepair)
    (hf : r.ids.head? = some L) (hr : RepOk gf data r) (hnh : s.repairs.has r.id = false)
    (hW : ∀ x ∈ r.ids, x ∉ K → x ∈ W) (hb : ∀ x ∈ r.ids, x + 1 < 2 ^ 32) (x : Nat) (hx0 : x ∈ r.ids) (hxK : x ∉ K)
    (hone : ∀ y ∈ r.ids, y ∉ K → y = x) :
    ∃ s', s.onRepair gf dbg r = .ok s' ∧ s'.sources.has x = true ∧ ∀ q, q ∈ s'.repairs ↔ q ∈ s.repairs := by
  have hne : r.ids ≠ [] := by intro hc; rw [hc] at hf; cases hf
  have hge : ∀ x ∈ r.ids, L ≤ x := by
    intro x hx
    cases hids : r.ids with
    | nil => exact absurd hids hne
    | cons a t =>
      have hs := hr.sorted
      rw [hids] at hf hx hs
      simp only [List.head?_cons, Option.some.injEq] at hf
      subst hf
      rcases List.mem_cons.1 hx with rfl | hx
      · exact le_refl _
      · exact le_of_lt ((List.pairwise_cons.1 hs).1 x hx)
  unfold Dec.onRepair
  rw [cassert_true _ (by simpa using hne)]
  obtain ⟨lst, hlst⟩ : ∃ lst, r.ids.getLast? = some lst := by
    cases hl : r.ids.getLast? with
    | none => rw [List.getLast?_eq_none_iff] at hl; exact absurd hl hne
    | some q => exact ⟨q, rfl⟩
  have hlstm : lst ∈ r.ids := List.mem_of_getLast? hlst
  have hlstL := hge lst hlstm
  rw [hlst, hf]
  have e1 : s.lastId.any (fun l => decide (lst < l)) = false := by
    rcases h.last with ⟨h1, _, _⟩ | h1
    · rw [h1]; rfl
    · rw [h1]; simp; omega
  simp only [bind, Except.bind, e1]
  rw [if_neg (by simp), if_neg (by rw [hnh]; simp)]
  obtain ⟨s1, ed, C1, n1, l1, la1, io1, sub1, keep1⟩ := dropOutdated_ok dbg h L (Nat.le_refl _)
  rw [ed]
  simp only
  have hWW : {x | x ∈ W ∧ L ≤ x} = W := by
    ext x; exact ⟨fun hx => hx.1, fun hx => ⟨hx, h.core.lo x hx⟩⟩
  rw [hWW] at C1
  have hR1 : ∀ q, q ∈ s1.repairs ↔ q ∈ s.repairs :=
    fun q => ⟨fun hq => sub1.subset hq, fun hq => keep1 q hq (fun x hx => h.core.lo x ((h.core.rep q hq).2.2.1 x hx).1)⟩
  have hnk : r.id ∉ s1.repairs.map (·.1) := by
    rw [has_false_iff] at hnh
    exact fun hm => hnh ((sub1.map _).subset hm)
  have huse : ¬ r.ids.all (fun x => s1.sources.has x) = true := by
    intro hu
    rw [List.all_eq_true] at hu
    exact hxK ((C1.has_src x).1 (hu x hx0)).1
  · rw [if_neg huse]
    have hy := hx0
    have hyK := hxK
    have hnd : r.ids.Nodup := hr.sorted.imp (fun h => Nat.ne_of_lt h)
    obtain ⟨r', m', el, k1, k2, k3, k4, k5⟩ := linkFold_ok (gf := gf) (data := data) (K := K) (L := L) dbg hv s1.sources
      C1.srcGet r.ids.reverse r s1.missing (List.nodup_reverse.2 hnd) (by
        intro x hx
        rw [List.mem_reverse] at hx
        exact ⟨hx, hge x hx⟩) hr x hy hyK C1.misSorted
    rw [ensure_true _ (C1.links.alive _), el]
    simp only [k1]
    have k3' : ∀ x, x ∈ r'.ids ↔ x ∈ r.ids ∧ x ∉ K := by
      intro x
      rw [k3, List.mem_reverse]; tauto
    have hne' : r'.ids ≠ [] := by
      intro hc
      have := (k3' x).2 ⟨hy, hyK⟩
      rw [hc] at this; simp at this
    rw [cassert_true _ (by simpa using hne')]
    simp only
    generalize hR : s1.repairs.emplace r.id r' = R
    have hRm : ∀ q, q ∈ R ↔ q ∈ s1.repairs ∨ q = (r.id, r') := by
      intro q
      rw [← hR, mem_emplace _ _ _ hnk]; tauto
    have hRlen : R.length = s1.repairs.length + 1 := by rw [← hR]; exact length_emplace _ _ _ hnk
    -- the missing sources are the same
    have hmisk : ∀ x, x ∈ m'.map (·.1) ↔ x ∈ W ∧ x ∉ K := by
      intro x
      rw [← get?_isSome_iff, k5 x]
      constructor
      · rintro ⟨v, hv⟩
        by_cases hx : x ∈ r.ids.reverse ∧ x ∉ K
        · rw [List.mem_reverse] at hx; exact ⟨hW x hx.1 hx.2, hx.2⟩
        · rw [if_neg hx] at hv
          exact (C1.misKeys x).1 ((get?_isSome_iff _ _).1 ⟨v, hv⟩)
      · intro hx
        by_cases hxr : x ∈ r.ids.reverse ∧ x ∉ K
        · rw [if_pos hxr]; exact ⟨_, rfl⟩
        · rw [if_neg hxr]
          exact (get?_isSome_iff _ _).2 ((C1.misKeys x).2 hx)
    have hrsort : R.SortedKeys := by rw [← hR]; exact sorted_emplace _ C1.repSorted _ _
    have hlinks : LinksOk R m' := by
      intro x l hx
      have hxk : x ∈ W ∧ x ∉ K := (hmisk x).1 ((get?_isSome_iff _ _).1 ⟨l, hx⟩)
      have hold : Sorted ((s1.missing.get? x).getD []) ∧
          ∀ rid, rid ∈ (s1.missing.get? x).getD [] ↔ ∃ rr, (rid, rr) ∈ s1.repairs ∧ x ∈ rr.ids := by
        obtain ⟨l0, hg⟩ := (get?_isSome_iff _ _).2 ((C1.misKeys x).2 hxk)
        rw [hg]
        exact C1.links x l0 hg
      rw [k5 x] at hx
      by_cases hxr : x ∈ r.ids.reverse ∧ x ∉ K
      · rw [if_pos hxr] at hx
        rw [← Option.some.inj hx]
        refine ⟨sorted_setInsert _ hold.1 _, ?_⟩
        intro rid
        rw [mem_setInsert, hold.2]
        rw [List.mem_reverse] at hxr
        constructor
        · rintro (rfl | ⟨rr, h1, h2⟩)
          · exact ⟨r', (hRm _).2 (Or.inr rfl), (k3' x).2 hxr⟩
          · exact ⟨rr, (hRm _).2 (Or.inl h1), h2⟩
        · rintro ⟨rr, h1, h2⟩
          rcases (hRm _).1 h1 with h1 | h1
          · exact Or.inr ⟨rr, h1, h2⟩
          · exact Or.inl (Prod.mk.inj h1).1
      · rw [if_neg hxr] at hx
        rw [hx] at hold
        refine ⟨hold.1, fun rid => ?_⟩
        rw [show l = (some l).getD [] from rfl, hold.2]
        constructor
        · rintro ⟨rr, h1, h2⟩; exact ⟨rr, (hRm _).2 (Or.inl h1), h2⟩
        · rintro ⟨rr, h1, h2⟩
          rcases (hRm _).1 h1 with h1 | h1
          · exact ⟨rr, h1, h2⟩
          · exfalso
            rw [(Prod.mk.inj h1).2, k3'] at h2
            exact hxr ⟨List.mem_reverse.2 h2.1, h2.2⟩
    have hx : r'.ids = [x] := by
      apply sorted_ext k2.sorted (by simp [Sorted])
      intro z
      rw [k3', List.mem_singleton]
      exact ⟨fun hz => hone z hz.1 hz.2, fun hz => by rw [hz]; exact ⟨hx0, hxK⟩⟩
    rw [if_pos (by rw [hx]; rfl)]
    rw [createSource_ok gf hv dbg data r' k2 x hx]
    simp only
    generalize hs3 : ({ s1 with nbDecoded := s1.nbDecoded + 1, missing := m'.erase x, repairs := R.erase r.id } : Dec) = s3
    have f_src : s3.sources = s1.sources := by rw [← hs3]
    have f_mis : s3.missing = m'.erase x := by rw [← hs3]
    have f_rep : s3.repairs = R.erase r.id := by rw [← hs3]
    have hkeep : ∀ q, q ∈ R.erase r.id ↔ q ∈ s.repairs := by
      intro q
      rw [OMap.mem_erase, hRm, ← hR1]
      constructor
      · rintro ⟨h2 | h2, h3⟩
        · exact h2
        · rw [h2] at h3; exact absurd rfl h3
      · intro h2
        exact ⟨Or.inl h2, fun h3 => hnk (by rw [← h3]; exact List.mem_map_of_mem h2)⟩
    have hlinks3 : LinksOk s3.repairs s3.missing := by
      rw [f_rep, f_mis]
      intro z l hz
      rw [get?_erase] at hz
      split at hz
      · cases hz
      · next hzx =>
        obtain ⟨g1, g2⟩ := hlinks z l hz
        refine ⟨g1, fun rid => ?_⟩
        rw [g2]
        constructor
        · rintro ⟨rr, h2, h3⟩
          rcases (hRm _).1 h2 with h4 | h4
          · exact ⟨rr, (hkeep _).2 ((hR1 _).1 h4), h3⟩
          · rw [(Prod.mk.inj h4).2, hx] at h3
            exact absurd (by simpa using h3) hzx
        · rintro ⟨rr, h2, h3⟩
          exact ⟨rr, (OMap.mem_erase _ _ _).1 h2 |>.1, h3⟩
    have hS3 : SrcInv data L K s3 := ⟨by rw [f_src]; exact C1.srcSorted, by rw [f_src]; exact C1.srcGet⟩
    have L3 : LogInv data L K s3 := by rw [← hs3]; exact l1.congr rfl rfl rfl rfl
    obtain ⟨s4, e1, c1⟩ := giveNew_ok dbg hS3 L3 x hxK (hge x hx0) (hb x hx0)
    have hmis : s4.missing.get? x = none := by
      rw [c1.missing, f_mis, get?_erase, if_pos rfl]
    obtain ⟨f, hfu⟩ : ∃ f, s3.fuel = f + 1 ∧ s3.missing.length ≤ f := by
      have : s3.missing.length + 1 ≤ s3.fuel := by
        unfold Dec.fuel
        calc s3.missing.length + 1 ≤ 1 * (s3.missing.length + 3) := by omega
          _ ≤ _ := Nat.mul_le_mul_right _ (by omega)
      exact ⟨s3.fuel - 1, by omega, by omega⟩
    have eh : addSourceHead gf dbg ⟨x, data x⟩ s3 = .ok s4 := by
      unfold addSourceHead
      simp only [bind, Except.bind, e1]
      rw [hmis]
      rfl
    have es : scanMissing gf dbg f (s4.missing.keys.head?) s4 = .ok s4 := by
      apply scan_noop' gf dbg s4
      · rw [c1.repairs, c1.missing]; exact hlinks3
      · rw [c1.repairs, f_rep]; exact sorted_erase hrsort _
      · intro _ rid rr _ hr
        rw [c1.repairs, f_rep, hkeep] at hr
        have := h.cnt.two _ hr
        simp only at this
        omega
      · rw [c1.missing]; exact hfu.2
    have hadd : addSource gf dbg s3.fuel ⟨x, data x⟩ s3 = addSourceTail dbg ⟨x, data x⟩ s4 := by
      rw [hfu.1]
      conv_lhs => unfold addSource
      simp only [bind, Except.bind, eh, es]
    rw [hadd]
    unfold addSourceTail
    rw [cassert_true _ (by
      rw [c1.sources, f_src]
      simp [not_has C1 x hxK])]
    simp only [bind, Except.bind]
    have hin : (s4.sources.emplace x ⟨x, data x⟩).has x = true := by
      rw [has_iff]
      exact (mem_keys_emplace _ _ _ _).2 (Or.inl rfl)
    split
    · exact ⟨_, rfl, hin, fun q => by show q ∈ s4.repairs ↔ _; rw [c1.repairs, f_rep]; exact hkeep q⟩
    · exact ⟨_, rfl, hin, fun q => by show q ∈ s4.repairs ↔ _; rw [c1.repairs, f_rep]; exact hkeep q⟩

set_option maxHeartbeats 700000 in
open Classical in
/-- A repair with the same start as the newest one, and not exactly one unknown source unless nothing is held. -/
theorem onRepair_old (dbg : Bool) (hv : ValidW w) (h : DInv gf data P ρ L W K s) (r : DRepair)
    (hf : r.ids.head? = some L) (hr : RepOk gf data r) (hnh : s.repairs.has r.id = false) (hρ : r.id < ρ)
    (hW : ∀ x ∈ r.ids, x ∉ K → x ∈ W) (hb : ∀ x ∈ r.ids, x + 1 < 2 ^ 32)
    (hseg : ∀ y ∈ r.ids, ∀ x ∈ W, x ≤ y → x ∈ r.ids)
    (hup : ∀ q ∈ s.repairs, q.1 ≤ r.id → ∀ x ∈ q.2.ids, x ∈ r.ids)
    (hdown : ∀ q ∈ s.repairs, r.id ≤ q.1 → ∀ x ∈ r.ids, x ∉ K → x ∈ q.2.ids)
    (hP : ∀ x ∈ r.ids, P r.id x) (hP2 : ∀ x, P r.id x → x ∈ r.ids)
    (hone : s.repairs = [] ∨ (r.ids.filter (fun x => !s.sources.has x)).length ≠ 1) :
    ∃ s' K', s.onRepair gf dbg r = .ok s' ∧ DInv gf data P ρ L W K' s' ∧ s'.inOrder = s.inOrder ∧
      K ⊆ K' ∧ K' ⊆ K ∪ W ∧ (∀ x, (∀ y ∈ r.ids, y ∉ K → y = x) → ∀ y ∈ r.ids, y ∈ K') ∧
      ((∃ y ∈ r.ids, ∃ z ∈ r.ids, y ≠ z ∧ y ∉ K ∧ z ∉ K) → s.repairs.length + 1 = s.missing.length →
        Independent gf (s.repairs.map (fun q => (q.1, q.2.ids)) ++ [(r.id, r.ids)]) s.missing.keys → K' = K ∪ W) := by
  have hne : r.ids ≠ [] := by intro hc; rw [hc] at hf; cases hf
  have hge : ∀ x ∈ r.ids, L ≤ x := by
    intro x hx
    cases hids : r.ids with
    | nil => exact absurd hids hne
    | cons a t =>
      have hs := hr.sorted
      rw [hids] at hf hx hs
      simp only [List.head?_cons, Option.some.injEq] at hf
      subst hf
      rcases List.mem_cons.1 hx with rfl | hx
      · exact le_refl _
      · exact le_of_lt ((List.pairwise_cons.1 hs).1 x hx)
  unfold Dec.onRepair
  rw [cassert_true _ (by simpa using hne)]
  obtain ⟨lst, hlst⟩ : ∃ lst, r.ids.getLast? = some lst := by
    cases hl : r.ids.getLast? with
    | none => rw [List.getLast?_eq_none_iff] at hl; exact absurd hl hne
    | some q => exact ⟨q, rfl⟩
  have hlstm : lst ∈ r.ids := List.mem_of_getLast? hlst
  have hlstL := hge lst hlstm
  rw [hlst, hf]
  have e1 : s.lastId.any (fun l => decide (lst < l)) = false := by
    rcases h.last with ⟨h1, _, _⟩ | h1
    · rw [h1]; rfl
    · rw [h1]; simp; omega
  simp only [bind, Except.bind, e1]
  rw [if_neg (by simp), if_neg (by rw [hnh]; simp)]
  obtain ⟨s1, ed, C1, n1, l1, la1, io1, sub1, keep1⟩ := dropOutdated_ok dbg h L (Nat.le_refl _)
  rw [ed]
  simp only
  have hWW : {x | x ∈ W ∧ L ≤ x} = W := by
    ext x; exact ⟨fun hx => hx.1, fun hx => ⟨hx, h.core.lo x hx⟩⟩
  rw [hWW] at C1
  have hR1 : ∀ q, q ∈ s1.repairs ↔ q ∈ s.repairs :=
    fun q => ⟨fun hq => sub1.subset hq, fun hq => keep1 q hq (fun x hx => h.core.lo x ((h.core.rep q hq).2.2.1 x hx).1)⟩
  have hnk : r.id ∉ s1.repairs.map (·.1) := by
    rw [has_false_iff] at hnh
    exact fun hm => hnh ((sub1.map _).subset hm)
  by_cases huse : r.ids.all (fun x => s1.sources.has x) = true
  · rw [if_pos huse]
    have hall : ∀ x ∈ r.ids, x ∈ K := by
      intro x hx
      rw [List.all_eq_true] at huse
      exact ((C1.has_src x).1 (huse x hx)).1
    exact ⟨_, K, rfl, ⟨C1.congr rfl rfl rfl, n1, l1.congr rfl rfl rfl rfl, Or.inr la1, h.bound⟩, io1, subset_rfl,
      Set.subset_union_left, fun _ _ => hall, fun ⟨y, h1, _, _, _, h2, _⟩ => absurd (hall y h1) h2⟩
  · rw [if_neg huse]
    obtain ⟨y, hy, hyK⟩ : ∃ y ∈ r.ids, y ∉ K := by
      by_contra hc
      push Not at hc
      apply huse
      rw [List.all_eq_true]
      intro x hx
      exact (C1.has_src x).2 ⟨hc x hx, hge x hx⟩
    have hnd : r.ids.Nodup := hr.sorted.imp (fun h => Nat.ne_of_lt h)
    obtain ⟨r', m', el, k1, k2, k3, k4, k5⟩ := linkFold_ok (gf := gf) (data := data) (K := K) (L := L) dbg hv s1.sources
      C1.srcGet r.ids.reverse r s1.missing (List.nodup_reverse.2 hnd) (by
        intro x hx
        rw [List.mem_reverse] at hx
        exact ⟨hx, hge x hx⟩) hr y hy hyK C1.misSorted
    rw [ensure_true _ (C1.links.alive _), el]
    simp only [k1]
    have k3' : ∀ x, x ∈ r'.ids ↔ x ∈ r.ids ∧ x ∉ K := by
      intro x
      rw [k3, List.mem_reverse]; tauto
    have hne' : r'.ids ≠ [] := by
      intro hc
      have := (k3' y).2 ⟨hy, hyK⟩
      rw [hc] at this; simp at this
    rw [cassert_true _ (by simpa using hne')]
    simp only
    generalize hR : s1.repairs.emplace r.id r' = R
    have hRm : ∀ q, q ∈ R ↔ q ∈ s1.repairs ∨ q = (r.id, r') := by
      intro q
      rw [← hR, mem_emplace _ _ _ hnk]; tauto
    have hRlen : R.length = s1.repairs.length + 1 := by rw [← hR]; exact length_emplace _ _ _ hnk
    -- the missing sources are the same
    have hmisk : ∀ x, x ∈ m'.map (·.1) ↔ x ∈ W ∧ x ∉ K := by
      intro x
      rw [← get?_isSome_iff, k5 x]
      constructor
      · rintro ⟨v, hv⟩
        by_cases hx : x ∈ r.ids.reverse ∧ x ∉ K
        · rw [List.mem_reverse] at hx; exact ⟨hW x hx.1 hx.2, hx.2⟩
        · rw [if_neg hx] at hv
          exact (C1.misKeys x).1 ((get?_isSome_iff _ _).1 ⟨v, hv⟩)
      · intro hx
        by_cases hxr : x ∈ r.ids.reverse ∧ x ∉ K
        · rw [if_pos hxr]; exact ⟨_, rfl⟩
        · rw [if_neg hxr]
          exact (get?_isSome_iff _ _).2 ((C1.misKeys x).2 hx)
    have hmlen : m'.length = s1.missing.length := by
      have := sorted_ext k4 C1.misSorted (fun x => by rw [hmisk, C1.misKeys])
      have := congrArg List.length this
      simpa using this
    have hrsort : R.SortedKeys := by rw [← hR]; exact sorted_emplace _ C1.repSorted _ _
    have hrep : ∀ q ∈ R, q.2.id = q.1 ∧ RepOk gf data q.2 ∧
        (∀ x ∈ q.2.ids, x ∈ W ∧ x ∉ K ∧ P q.1 x) ∧ q.1 ≤ ρ := by
      intro q hq
      rcases (hRm q).1 hq with hq | hq
      · exact C1.rep q hq
      · subst hq
        refine ⟨k1, k2, ?_, le_of_lt hρ⟩
        intro x hx
        have := (k3' x).1 hx
        exact ⟨hW x this.1 this.2, this.2, hP x this.1⟩
    have hlinks : LinksOk R m' := by
      intro x l hx
      have hxk : x ∈ W ∧ x ∉ K := (hmisk x).1 ((get?_isSome_iff _ _).1 ⟨l, hx⟩)
      have hold : Sorted ((s1.missing.get? x).getD []) ∧
          ∀ rid, rid ∈ (s1.missing.get? x).getD [] ↔ ∃ rr, (rid, rr) ∈ s1.repairs ∧ x ∈ rr.ids := by
        obtain ⟨l0, hg⟩ := (get?_isSome_iff _ _).2 ((C1.misKeys x).2 hxk)
        rw [hg]
        exact C1.links x l0 hg
      rw [k5 x] at hx
      by_cases hxr : x ∈ r.ids.reverse ∧ x ∉ K
      · rw [if_pos hxr] at hx
        rw [← Option.some.inj hx]
        refine ⟨sorted_setInsert _ hold.1 _, ?_⟩
        intro rid
        rw [mem_setInsert, hold.2]
        rw [List.mem_reverse] at hxr
        constructor
        · rintro (rfl | ⟨rr, h1, h2⟩)
          · exact ⟨r', (hRm _).2 (Or.inr rfl), (k3' x).2 hxr⟩
          · exact ⟨rr, (hRm _).2 (Or.inl h1), h2⟩
        · rintro ⟨rr, h1, h2⟩
          rcases (hRm _).1 h1 with h1 | h1
          · exact Or.inr ⟨rr, h1, h2⟩
          · exact Or.inl (Prod.mk.inj h1).1
      · rw [if_neg hxr] at hx
        rw [hx] at hold
        refine ⟨hold.1, fun rid => ?_⟩
        rw [show l = (some l).getD [] from rfl, hold.2]
        constructor
        · rintro ⟨rr, h1, h2⟩; exact ⟨rr, (hRm _).2 (Or.inl h1), h2⟩
        · rintro ⟨rr, h1, h2⟩
          rcases (hRm _).1 h1 with h1 | h1
          · exact ⟨rr, h1, h2⟩
          · exfalso
            rw [(Prod.mk.inj h1).2, k3'] at h2
            exact hxr ⟨List.mem_reverse.2 h2.1, h2.2⟩
    by_cases h1 : r'.ids.length = 1
    · rw [if_pos h1]
      obtain ⟨x, hx⟩ : ∃ x, r'.ids = [x] := List.length_eq_one_iff.1 h1
      have hxk : x ∈ r.ids ∧ x ∉ K := (k3' x).1 (by rw [hx]; simp)
      have hall : ∀ z, z ∈ r.ids → z ∉ K → z = x := by
        intro z hz hk
        have := (k3' z).2 ⟨hz, hk⟩
        rw [hx] at this; simpa using this
      rw [createSource_ok gf hv dbg data r' k2 x hx]
      simp only
      have hR0 : s1.repairs = [] := by
        rcases hone with h0 | h0
        · rw [h0] at sub1; exact List.eq_nil_of_sublist_nil sub1
        · exfalso
          apply h0
          have : r.ids.filter (fun x => !s.sources.has x) = r'.ids := by
            apply sorted_ext (hr.sorted.filter _) k2.sorted
            intro z
            rw [List.mem_filter, k3']
            constructor
            · rintro ⟨h2, h3⟩
              refine ⟨h2, fun hk => ?_⟩
              rw [(h.core.has_src z).2 ⟨hk, hge z h2⟩] at h3
              cases h3
            · rintro ⟨h2, h3⟩
              refine ⟨h2, ?_⟩
              rw [not_has h.core z h3]; rfl
          rw [this]; exact h1
      have hE0 : R.erase r.id = [] := by
        cases hh : R.erase r.id with
        | nil => rfl
        | cons p t =>
          exfalso
          have h2 : p ∈ R.erase r.id := by rw [hh]; simp
          rw [OMap.mem_erase, hRm, hR0] at h2
          rcases h2 with ⟨h2 | h2, h3⟩
          · simp at h2
          · rw [h2] at h3; exact h3 rfl
      rw [hE0]
      generalize hs3 : ({ s1 with nbDecoded := s1.nbDecoded + 1, missing := m'.erase x, repairs := [] } : Dec) = s3
      have f_src : s3.sources = s1.sources := by rw [← hs3]
      have f_mis : s3.missing = m'.erase x := by rw [← hs3]
      have f_rep : s3.repairs = [] := by rw [← hs3]
      have C3 : Core gf data P ρ L {z | z ∈ W ∧ z ≠ x} K s3 := by
        constructor
        · rw [f_src]; exact C1.srcSorted
        · rw [f_src]; exact C1.srcGet
        · rw [f_mis]; exact sorted_erase k4 _
        · intro z
          rw [f_mis, mem_keys_erase, hmisk]
          simp only [Set.mem_ofPred_eq]
          tauto
        · rw [f_rep]; simp [OMap.SortedKeys]
        · rw [f_rep]; intro q hq; simp at hq
        · rw [f_rep, f_mis]
          intro z l hz
          rw [get?_erase] at hz
          split at hz
          · cases hz
          · next hzx =>
            obtain ⟨g1, g2⟩ := hlinks z l hz
            refine ⟨g1, fun rid => ?_⟩
            rw [g2]
            constructor
            · rintro ⟨rr, h2, h3⟩
              rcases (hRm _).1 h2 with h2 | h2
              · rw [hR0] at h2; simp at h2
              · rw [(Prod.mk.inj h2).2, hx] at h3
                exact absurd (by simpa using h3) hzx
            · rintro ⟨rr, h2, _⟩; simp at h2
        · rw [f_rep]; intro q hq; simp at hq
        · intro z hz; exact h.core.lo z hz.1
        · intro z hz; exact h.core.dataOk z hz.1
        · rw [f_rep]; intro q hq; simp at hq
      have L3 : LogInv data L K s3 := by rw [← hs3]; exact l1.congr rfl rfl rfl rfl
      have hfu : s3.missing.length + 1 ≤ s3.fuel := by
        unfold Dec.fuel
        calc s3.missing.length + 1 ≤ 1 * (s3.missing.length + 3) := by omega
          _ ≤ _ := Nat.mul_le_mul_right _ (by omega)
      obtain ⟨s4, e4, b1, b2, b3, b4, b5, b6⟩ := addSource_plain dbg C3 (by rw [f_rep]; exact (cnt_nil []).two) L3 x hxk.2
        (by simp) (hge x hxk.1) (hb x hxk.1) s3.fuel hfu
      refine ⟨s4, insert x K, e4, ⟨?_, by rw [b3, f_rep]; exact cnt_nil _, b2, ?_, h.bound⟩, ?_, Set.subset_insert _ _, ?_, ?_, ?_⟩
      · constructor
        · exact b1.srcSorted
        · exact b1.srcGet
        · exact b1.misSorted
        · intro z
          rw [b1.misKeys]
          simp only [Set.mem_ofPred_eq, Set.mem_insert_iff]
          tauto
        · exact b1.repSorted
        · rw [b3, f_rep]; intro q hq; simp at hq
        · exact b1.links
        · rw [b3, f_rep]; intro q hq; simp at hq
        · exact h.core.lo
        · exact h.core.dataOk
        · rw [b3, f_rep]; intro q hq; simp at hq
      · right; rw [b5, ← hs3]; exact la1
      · rw [b6, ← hs3]; exact io1
      · rintro z (hz | hz)
        · rw [hz]; exact Or.inr (hW x hxk.1 hxk.2)
        · exact Or.inl hz
      · intro _ _ z hz
        by_cases hk : z ∈ K
        · exact Or.inr hk
        · exact Or.inl (hall z hz hk)
      · rintro ⟨y, g1, z, g2, g3, g4, g5⟩
        exact absurd ((hall y g1 g4).trans (hall z g2 g5).symm) g3
    · rw [if_neg h1]
      generalize hs3 : ({ s1 with repairs := R, missing := m' } : Dec) = s3
      have f_src : s3.sources = s1.sources := by rw [← hs3]
      have f_mis : s3.missing = m' := by rw [← hs3]
      have f_rep : s3.repairs = R := by rw [← hs3]
      have C3 : Core gf data P ρ L W K s3 := by
        constructor
        · rw [f_src]; exact C1.srcSorted
        · rw [f_src]; exact C1.srcGet
        · rw [f_mis]; exact k4
        · rw [f_mis]; exact hmisk
        · rw [f_rep]; exact hrsort
        · rw [f_rep]; exact hrep
        · rw [f_rep, f_mis]; exact hlinks
        · rw [f_rep]
          intro rr hrr z hz hk
          rcases (hRm _).1 hrr with hq | hq
          · exact C1.lastEq rr hq z hz hk
          · have := (Prod.mk.inj hq).1; omega
        · exact h.core.lo
        · exact h.core.dataOk
        · rw [f_rep]
          intro q hq z hz hk
          rcases (hRm _).1 hq with hq | hq
          · exact C1.full q hq z hz hk
          · rw [hq] at hz ⊢
            exact (k3' z).2 ⟨hP2 z hz, hk⟩
      have L3 : LogInv data L K s3 := by rw [← hs3]; exact l1.congr rfl rfl rfl rfl
      have hr2 : 2 ≤ r'.ids.length := by
        have := List.length_pos_of_ne_nil hne'
        omega
      have T3 : ∀ q ∈ s3.repairs, 2 ≤ q.2.ids.length := by
        rw [f_rep]
        intro q hq
        rcases (hRm _).1 hq with hq | hq
        · exact n1.two q hq
        · subst hq; exact hr2
      have N3 : WCnt s3.repairs s3.missing := by
        have hin : (r.id, r') ∈ s3.repairs := by rw [f_rep]; exact (hRm _).2 (Or.inr rfl)
        have hbig := C3.ids_le hin
        simp only at hbig
        refine ⟨⟨?_, ?_⟩, ?_, fun _ => by omega⟩
        · rw [f_rep, f_mis]
          intro q hq z hz x hx hxz
          have hx' := (hmisk x).1 hx
          rcases (hRm _).1 hq with hq | hq
          · exact n1.seg q hq z hz x ((C1.misKeys x).2 hx') hxz
          · subst hq
            exact (k3' x).2 ⟨hseg z ((k3' z).1 hz).1 x hx'.1 hxz, hx'.2⟩
        · rw [f_rep]
          intro q hq q' hq' hle
          rcases (hRm _).1 hq with hq | hq
          · rcases (hRm _).1 hq' with hq' | hq'
            · exact n1.mono q hq q' hq' hle
            · subst hq'
              intro x hx
              exact (k3' x).2 ⟨hup q ((hR1 q).1 hq) hle x hx, ((C1.rep q hq).2.2.1 x hx).2.1⟩
          · subst hq
            rcases (hRm _).1 hq' with hq' | hq'
            · intro x hx
              have := (k3' x).1 hx
              exact hdown q' ((hR1 q').1 hq') hle x this.1 this.2
            · subst hq'; exact fun x hx => hx
        · rw [f_rep, f_mis, hRlen, hmlen]
          rcases Nat.eq_zero_or_pos s1.repairs.length with h0 | h0
          · rw [f_mis] at hbig; omega
          · have h3 := n1.lt (List.ne_nil_of_length_pos h0)
            omega
      obtain ⟨s4, K4, e4, b1, b2, b3, b4, b5, b6, b7, _⟩ := fullDecode_ok dbg hv C3 N3 L3 h.bound
      refine ⟨s4, K4, e4, ⟨b1, b2 (Or.inl T3), b3, ?_, h.bound⟩, ?_, ?_, ?_, ?_, ?_⟩
      · right; rw [b4, ← hs3]; exact la1
      · rw [b5, ← hs3]; exact io1
      · rcases b6 with rfl | rfl
        · exact subset_rfl
        · exact Set.subset_union_left
      · rcases b6 with rfl | rfl
        · exact Set.subset_union_left
        · exact subset_rfl
      · intro x hx
        exfalso
        have hs := k2.sorted
        have h3 : ∀ z ∈ r'.ids, z = x := fun z hz => hx z ((k3' z).1 hz).1 ((k3' z).1 hz).2
        match hids : r'.ids with
        | [] => exact hne' hids
        | [z] => rw [hids] at h1; simp at h1
        | a :: b :: u =>
          rw [hids] at hs h3
          have := (List.pairwise_cons.1 hs).1 b (by simp)
          have := h3 a (by simp)
          have := h3 b (by simp)
          omega
      · intro _ hlen hind
        have hQ : s1.repairs.Perm s.repairs := by
          refine (List.perm_ext_iff_of_nodup ?_ ?_).2 hR1
          · exact List.Nodup.of_map (Prod.fst) (List.Pairwise.imp (fun h => Nat.ne_of_lt h) (show List.Pairwise (· < ·) (List.map Prod.fst _) from C1.repSorted))
          · exact List.Nodup.of_map (Prod.fst) (List.Pairwise.imp (fun h => Nat.ne_of_lt h) (show List.Pairwise (· < ·) (List.map Prod.fst _) from h.core.repSorted))
        have hkU : m'.map (·.1) = s.missing.keys :=
          sorted_ext k4 h.core.misSorted (fun x => by rw [hmisk, ← h.core.misKeys]; rfl)
        have hkl : s.missing.keys.length = s.missing.length := by simp [OMap.keys]
        have hm3 : s3.missing.length = s.missing.keys.length := by rw [f_mis, ← hkU, List.length_map]
        have hn3 : s3.repairs.length = s.missing.keys.length := by rw [f_rep, hRlen, hQ.length_eq, hkl, hlen]
        cases hinv : invert gf s3.repairs.length (coeffMatrix w s3.repairs s3.missing) with
        | ok inv => exact b7 inv (by rw [f_rep]; exact List.ne_nil_of_length_pos (by omega)) (by rw [hn3, hm3]) hinv
        | error c =>
          exfalso
          refine no_kernel (by rw [f_mis]; exact hkU) h.core.misSorted hm3 hn3 ?_ hinv
          intro v hv0
          refine hind v ?_
          intro q hq
          rcases List.mem_append.1 hq with hq | hq
          · obtain ⟨q0, hq0, rfl⟩ := List.mem_map.1 hq
            exact hv0 q0 (by rw [f_rep, hRm]; exact Or.inl ((hR1 q0).2 hq0))
          · rw [List.mem_singleton] at hq
            subst hq
            have := hv0 (r.id, r') (by rw [f_rep, hRm]; exact Or.inr rfl)
            rw [← this]
            simp only
            congr 1
            apply List.filter_congr
            intro x hx
            have h2 := (h.core.misKeys x).1 hx
            simp only [decide_eq_decide]
            rw [k3']; tauto

end

end Netcode
