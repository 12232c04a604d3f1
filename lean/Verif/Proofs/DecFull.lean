import Verif.Proofs.DecInv

/-!
# Adding a source, and the full decoding
-/

set_option linter.unusedSectionVars false

namespace Netcode

open OMap

variable {w : Nat} [Fact (0 < w)]

section
variable {gf : GF w} {data : Nat → List Byte} {P : Nat → Nat → Prop} {ρ L : Nat} {W K : Set Nat} {s : Dec}

/-- Withheld sources are in `m_sources`. -/
theorem ord_src (hC : Core gf data P ρ L W K s) (hL : LogInv data L K s) :
    ∀ y ∈ s.ordered, s.sources.get? y = some ⟨y, data y⟩ := by
  intro y hy
  cases hio : s.inOrder with
  | false => rw [(hL.unord hio).2.2] at hy; simp at hy
  | true =>
    obtain ⟨hp, _⟩ := hL.ord hio
    have h1 := (hp.ordMem y).1 hy
    have := hp.lo
    exact hC.get_src h1.1 (by omega)

/-- Lines 252-265 of the decoder: the callback part of `add_source_recursive`. -/
theorem addHead_give (dbg : Bool) (hC : Core gf data P ρ L W K s) (hL : LogInv data L K s) (x : Nat)
    (hx : x ∉ K) (hLx : L ≤ x) (hb : x + 1 < 2 ^ 32) :
    ∃ s1, s.giveNew dbg ⟨x, data x⟩ = .ok s1 ∧ SameCore s s1 ∧
      ((s1.inOrder && decide (x > s1.firstMissing)) = false → LogInv data L (insert x K) s1) ∧
      ((s1.inOrder && decide (x > s1.firstMissing)) = true →
        LogInv data L (insert x K) { s1 with ordered := setInsert s1.ordered x }) := by
  have hkeys : ∀ y ∈ s.sources.keys, y ∈ insert x K := fun y hy => Or.inr (hC.src_keys y hy)
  unfold Dec.giveNew
  cases hio : s.inOrder with
  | false =>
    refine ⟨s.callback ⟨x, data x⟩, rfl, ⟨rfl, List.prefix_append _ _⟩, ?_, ?_⟩
    · intro _; exact give_unord hL hio x hx hb hkeys
    · intro hc
      rw [show (s.callback ⟨x, data x⟩).inOrder = s.inOrder from rfl, hio] at hc
      simp at hc
  | true =>
    simp only [Bool.not_true, Bool.false_eq_true, if_false]
    by_cases hfm : x = s.firstMissing
    · rw [if_pos hfm]
      obtain ⟨s1, e, c, r1, r2⟩ := give_flush dbg hL hio x hx hb hfm (ord_src hC hL) hkeys
      refine ⟨s1, e, c, fun _ => r1, ?_⟩
      intro hc
      simp only [Bool.and_eq_true, decide_eq_true_eq] at hc
      omega
    · rw [if_neg hfm]
      obtain ⟨r1, r2⟩ := give_hold hL hio x hx hLx hb hfm
      refine ⟨s, rfl, SameCore.refl s, ?_, fun _ => r2⟩
      intro hc
      simp [hio] at hc
      omega

/-- Insertion of a source in `m_sources`. -/
theorem src_insert (hC : Core gf data P ρ L W K s) (x : Nat) (hx : x ∉ K) (hLx : L ≤ x) :
    (s.sources.emplace x ⟨x, data x⟩).SortedKeys ∧
    ∀ y v, (s.sources.emplace x ⟨x, data x⟩).get? y = some v ↔ y ∈ insert x K ∧ L ≤ y ∧ v = ⟨y, data y⟩ := by
  have hnot : x ∉ s.sources.map (·.1) := by
    rw [← has_false_iff]
    cases hh : s.sources.has x with
    | false => rfl
    | true => exact absurd ((hC.has_src x).1 hh).1 hx
  refine ⟨sorted_emplace _ hC.srcSorted _ _, ?_⟩
  intro y v
  rw [get?_emplace _ hC.srcSorted _ _ hnot]
  by_cases hy : y = x
  · subst hy
    rw [if_pos rfl]
    constructor
    · intro h
      exact ⟨Or.inl rfl, hLx, (Option.some.inj h).symm⟩
    · rintro ⟨_, _, rfl⟩; rfl
  · rw [if_neg hy, hC.srcGet]
    constructor
    · rintro ⟨a, b, c⟩; exact ⟨Or.inr a, b, c⟩
    · rintro ⟨a | a, b, c⟩
      · exact absurd a hy
      · exact ⟨a, b, c⟩

theorem not_has (hC : Core gf data P ρ L W K s) (x : Nat) (hx : x ∉ K) : s.sources.has x = false := by
  cases hh : s.sources.has x with
  | false => rfl
  | true => exact absurd ((hC.has_src x).1 hh).1 hx

/-- A source that no held repair and no missing entry refers to. -/
theorem addSource_plain (dbg : Bool) (hC : Core gf data P ρ L W K s) (htwo : ∀ q ∈ s.repairs, 2 ≤ q.2.ids.length)
    (hL : LogInv data L K s) (x : Nat) (hx : x ∉ K) (hW : x ∉ W) (hLx : L ≤ x) (hb : x + 1 < 2 ^ 32) (fuel : Nat)
    (hf : s.missing.length + 1 ≤ fuel) :
    ∃ s', addSource gf dbg fuel ⟨x, data x⟩ s = .ok s' ∧ Core gf data P ρ L W (insert x K) s' ∧
      LogInv data L (insert x K) s' ∧ s'.repairs = s.repairs ∧ s'.missing = s.missing ∧ s'.lastId = s.lastId ∧
      s'.inOrder = s.inOrder := by
  obtain ⟨s1, e1, c1, g1, g2⟩ := addHead_give dbg hC hL x hx hLx hb
  have hC1 : Core gf data P ρ L W K s1 := hC.congr c1.sources c1.missing c1.repairs
  have hmis : s1.missing.get? x = none := by
    rw [get?_eq_none_iff, hC1.misKeys]; tauto
  obtain ⟨f, rfl⟩ : ∃ f, fuel = f + 1 := ⟨fuel - 1, by omega⟩
  have eh : addSourceHead gf dbg ⟨x, data x⟩ s = .ok s1 := by
    unfold addSourceHead
    simp only [bind, Except.bind, e1]
    rw [hmis]
    rfl
  have es : scanMissing gf dbg f (s1.missing.keys.head?) s1 = .ok s1 := by
    apply scan_noop' gf dbg s1 hC1.links hC1.repSorted
    · intro _ rid r _ hr
      rw [c1.repairs] at hr
      have := htwo _ hr
      simp only at this
      omega
    · rw [c1.missing]; omega
  obtain ⟨i1, i2⟩ := src_insert hC1 x hx hLx
  have core : ∀ s' : Dec, s'.sources = s1.sources.emplace x ⟨x, data x⟩ → s'.missing = s1.missing →
      s'.repairs = s1.repairs → Core gf data P ρ L W (insert x K) s' := by
    intro s' h1 h2 h3
    have hne : ∀ y, y ∈ W → y ≠ x := by rintro y hy rfl; exact hW hy
    constructor
    · rw [h1]; exact i1
    · rw [h1]; exact i2
    · rw [h2]; exact hC1.misSorted
    · intro y
      rw [h2, hC1.misKeys, Set.mem_insert_iff]
      constructor
      · rintro ⟨a, b⟩; exact ⟨a, fun h => h.elim (hne y a) b⟩
      · rintro ⟨a, b⟩; exact ⟨a, fun h => b (Or.inr h)⟩
    · rw [h3]; exact hC1.repSorted
    · rw [h3]
      intro q hq
      obtain ⟨a, b, c, d⟩ := hC1.rep q hq
      refine ⟨a, b, ?_, d⟩
      intro y hy
      obtain ⟨c1, c2, c3⟩ := c y hy
      exact ⟨c1, fun h => h.elim (hne y c1) c2, c3⟩
    · rw [h2, h3]; exact hC1.links
    · rw [h3]
      intro r hr y hy hk
      exact hC1.lastEq r hr y hy (fun h => hk (Or.inr h))
    · exact hC1.lo
    · exact hC1.dataOk
    · rw [h3]
      intro q hq y hP hk
      exact hC1.full q hq y hP (fun h => hk (Or.inr h))
  have hadd : addSource gf dbg (f + 1) ⟨x, data x⟩ s = addSourceTail dbg ⟨x, data x⟩ s1 := by
    conv_lhs => unfold addSource
    simp only [bind, Except.bind, eh, es]
  rw [hadd]
  unfold addSourceTail
  rw [cassert_true _ (by simp [not_has hC1 x hx])]
  simp only [bind, Except.bind]
  split
  · rename_i hc
    exact ⟨_, rfl, core _ rfl rfl rfl, (g2 hc).congr rfl rfl rfl rfl, c1.repairs, c1.missing, c1.lastId, c1.inOrder⟩
  · rename_i hc
    exact ⟨_, rfl, core _ rfl rfl rfl, (g1 (by simpa using hc)).congr rfl rfl rfl rfl, c1.repairs, c1.missing, c1.lastId,
      c1.inOrder⟩

/-! ## The loop of the full decoding -/

/-- What the loop of the full decoding keeps true: like `Core`, about the sources only. -/
structure SrcInv (data : Nat → List Byte) (L : Nat) (K : Set Nat) (s : Dec) : Prop where
  srcSorted : s.sources.SortedKeys
  srcGet : ∀ x v, s.sources.get? x = some v ↔ x ∈ K ∧ L ≤ x ∧ v = ⟨x, data x⟩

theorem SrcInv.keys {s : Dec} (h : SrcInv data L K s) (x : Nat) (hx : x ∈ s.sources.keys) : x ∈ K := by
  obtain ⟨v, hv⟩ := (get?_isSome_iff s.sources x).2 hx
  exact ((h.srcGet x v).1 hv).1

theorem decodeLoop_ok (dbg : Bool) (hv : ValidW w) (repairs : OMap DRepair) (missing : OMap (List Nat))
    (inv : Mat w) (n : Nat) (hn1 : repairs.length = n) (hn2 : missing.length = n) (hsort : missing.SortedKeys)
    (hinv : invert gf n (coeffMatrix w repairs missing) = .ok inv)
    (hrep : ∀ q ∈ repairs, q.2.id = q.1 ∧ RepOk gf data q.2 ∧ ∀ x ∈ q.2.ids, x ∈ missing.map (·.1))
    (hd : ∀ x ∈ missing.map (·.1), DataOk w (data x) ∧ L ≤ x ∧ x + 1 < 2 ^ 32)
    (rest : List Nat) (col : Nat) (hrest : (missing.map (·.1)).drop col = rest) (K : Set Nat) (s : Dec)
    (hfresh : ∀ x ∈ rest, x ∉ K) (hS : SrcInv data L K s) (hL : LogInv data L K s) :
    ∃ s', decodeLoop gf dbg inv (repairs.map (·.2)) col rest s = .ok s' ∧
      SrcInv data L (K ∪ {x | x ∈ rest}) s' ∧ LogInv data L (K ∪ {x | x ∈ rest}) s' ∧ s'.lastId = s.lastId ∧
      s'.inOrder = s.inOrder := by
  induction rest generalizing col K s with
  | nil => exact ⟨s, rfl, by simpa using hS, by simpa using hL, rfl, rfl⟩
  | cons x t ih =>
    have hx : (missing.map (·.1))[col]? = some x := by
      have : ((missing.map (·.1)).drop col)[0]? = some x := by rw [hrest]; rfl
      rw [List.getElem?_drop] at this
      simpa using this
    have hcol : col < n := by
      have := (List.getElem?_eq_some_iff.1 hx).1
      simp at this; omega
    have hxm : x ∈ missing.map (·.1) := List.mem_of_getElem? hx
    obtain ⟨hdx, hLx, hbx⟩ := hd x hxm
    have hxK : x ∉ K := hfresh x (by simp)
    obtain ⟨d1, d2⟩ := decode_ok gf hv data repairs missing inv n hn1 hn2 hsort hinv hrep col hcol x hx hdx
    have hfound : (List.range (repairs.map (·.2)).length).any (fun row => inv col row != 0#w) = true := by
      rw [List.length_map, hn1]
      exact inverse_row_ne_zero gf n _ inv hinv col hcol
    have hnot : x ∉ s.sources.map (·.1) := fun h => hxK (hS.keys x h)
    have hdrop : (missing.map (·.1)).drop (col + 1) = t := by
      rw [← List.drop_drop, hrest]; rfl
    have ht : x ∉ t := by
      have h1 : (x :: t).Nodup := by
        rw [← hrest]; exact (nodup_keys hsort).sublist (List.drop_sublist _ _)
      exact (List.nodup_cons.1 h1).1
    -- the sources after insertion
    have i1 : (s.sources.emplace x ⟨x, data x⟩).SortedKeys := sorted_emplace _ hS.srcSorted _ _
    have i2 : ∀ y v, (s.sources.emplace x ⟨x, data x⟩).get? y = some v
        ↔ y ∈ insert x K ∧ L ≤ y ∧ v = ⟨y, data y⟩ := by
      intro y v
      rw [get?_emplace _ hS.srcSorted _ _ hnot]
      by_cases hy : y = x
      · subst hy
        rw [if_pos rfl]
        constructor
        · intro h
          exact ⟨Or.inl rfl, hLx, (Option.some.inj h).symm⟩
        · rintro ⟨_, _, rfl⟩; rfl
      · rw [if_neg hy, hS.srcGet]
        constructor
        · rintro ⟨a, b, c⟩; exact ⟨Or.inr a, b, c⟩
        · rintro ⟨a | a, b, c⟩
          · exact absurd a hy
          · exact ⟨a, b, c⟩
    generalize hs1 : ({ s with sources := s.sources.emplace x ⟨x, data x⟩ } : Dec) = s1
    have hL1 : LogInv data L K s1 := by rw [← hs1]; exact hL.congr rfl rfl rfl rfl
    have f_src : s1.sources = s.sources.emplace x ⟨x, data x⟩ := by rw [← hs1]
    have hget : s1.sources.get? x = some ⟨x, data x⟩ := by
      rw [f_src]; exact (i2 x _).2 ⟨Or.inl rfl, hLx, rfl⟩
    have hkeys1 : ∀ y ∈ s1.sources.keys, y ∈ insert x K := by
      intro y hy
      rw [f_src] at hy
      obtain ⟨v, hv⟩ := (get?_isSome_iff _ y).2 hy
      exact ((i2 y v).1 hv).1
    have hord : s1.inOrder = true → ∀ y ∈ s1.ordered, s1.sources.get? y = some ⟨y, data y⟩ := by
      intro hio y hy
      obtain ⟨hp, _⟩ := hL1.ord hio
      have h1 := (hp.ordMem y).1 hy
      have := hp.lo
      rw [f_src]
      exact (i2 y _).2 ⟨Or.inr h1.1, by omega, rfl⟩
    -- delivery
    have hgive : ∃ s2, s1.giveDecoded dbg ⟨x, data x⟩ = .ok s2 ∧
        LogInv data L (insert x K) s2 ∧ s2.sources = s1.sources ∧ s2.lastId = s1.lastId ∧
        s2.inOrder = s1.inOrder := by
      unfold Dec.giveDecoded
      cases hio : s1.inOrder with
      | false =>
        exact ⟨_, rfl, give_unord hL1 hio x hxK hbx hkeys1, rfl, rfl, hio⟩
      | true =>
        simp only [Bool.not_true, Bool.false_eq_true, if_false]
        by_cases hfm : x = s1.firstMissing
        · rw [if_pos hfm]
          obtain ⟨s2, e, c, r1, r2⟩ := give_flush dbg hL1 hio x hxK hbx hfm (hord hio) hkeys1
          exact ⟨s2, e, r1, c.sources, c.lastId, by rw [c.inOrder, hio]⟩
        · rw [if_neg hfm]
          obtain ⟨r1, r2⟩ := give_hold hL1 hio x hxK hLx hbx hfm
          rw [← hio] at *
          exact ⟨_, rfl, r2, rfl, rfl, rfl⟩
    obtain ⟨s2, e2, hL2, f2, f3, f4⟩ := hgive
    have hS2 : SrcInv data L (insert x K) s2 := by
      constructor
      · rw [f2, f_src]; exact i1
      · rw [f2, f_src]; exact i2
    obtain ⟨s', e', a1, a2, a3, a4⟩ := ih (col + 1) hdrop (insert x K) s2 (by
      intro y hy hc
      rcases hc with rfl | hc
      · exact ht hy
      · exact hfresh y (by simp [hy]) hc) hS2 hL2
    have hset : insert x K ∪ {y | y ∈ t} = K ∪ {y | y ∈ x :: t} := by
      ext y
      simp only [Set.mem_union, Set.mem_insert_iff, Set.mem_ofPred_eq, List.mem_cons]
      tauto
    rw [hset] at a1 a2
    refine ⟨s', ?_, a1, a2, by rw [a3, f3, ← hs1], by rw [a4, f4, ← hs1]⟩
    have hh : s.sources.has x = false := (has_false_iff _ _).2 hnot
    have eo : decodeOne gf dbg inv (repairs.map (·.2)) col = .ok (data x) := by
      unfold decodeOne
      simp only [d1, d2]
      rw [cassert_true _ hfound, ensure_true _ hfound]
      rfl
    have ei : s.insertDecoded dbg ⟨x, data x⟩ = .ok s2 := by
      unfold Dec.insertDecoded
      rw [cassert_true _ (by simp only [hh]; rfl)]
      simp only [bind, Except.bind]
      rw [f_src] at hget
      rw [hget]
      simp only
      rw [hs1]
      exact e2
    unfold decodeLoop
    simp only [eo, ei, bind, Except.bind]
    exact e'

/-! ## Unlinking a repair -/

theorem unlinkAll_get (rid : Nat) (t : List Nat) (m : OMap (List Nat)) (hs : m.SortedKeys) (ht : t.Nodup)
    (hm : ∀ x ∈ t, x ∈ m.map (·.1)) :
    unlinkAll rid t m = .ok (unlinkOrCreate rid t m) ∧ (unlinkOrCreate rid t m).map (·.1) = m.map (·.1) ∧
    ∀ x, (unlinkOrCreate rid t m).get? x = if x ∈ t then (m.get? x).map (fun l => l.erase rid) else m.get? x := by
  induction t generalizing m with
  | nil => exact ⟨rfl, rfl, fun x => by simp [unlinkOrCreate]⟩
  | cons y t ih =>
    rw [List.nodup_cons] at ht
    have hy : y ∈ m.map (·.1) := hm y (by simp)
    have e : unlinkOrCreate rid (y :: t) m = unlinkOrCreate rid t (m.modify y (fun l => l.erase rid)) := by
      conv_lhs => unfold unlinkOrCreate
      rw [emplace_of_mem _ hs _ _ hy]
    obtain ⟨a, b, c⟩ := ih (m.modify y (fun l => l.erase rid)) (sorted_modify hs _ _) ht.2 (by
      intro x hx; rw [keys_modify]; exact hm x (by simp [hx]))
    rw [e]
    refine ⟨?_, by rw [b, keys_modify], ?_⟩
    · unfold unlinkAll
      rw [if_pos ((has_iff _ _).2 hy), a]
    · intro x
      rw [c x, get?_modify]
      by_cases hx : x = y
      · subst hx; simp [ht.1]
      · simp [hx]

theorem links_unlink (R : OMap DRepair) (m : OMap (List Nat)) (hR : R.SortedKeys) (hs : m.SortedKeys)
    (hl : LinksOk R m) (rid : Nat) (r : DRepair) (hr : (rid, r) ∈ R) (hsort : Sorted r.ids)
    (hm : ∀ x ∈ r.ids, x ∈ m.map (·.1)) :
    unlinkAll rid r.ids m = .ok (unlinkOrCreate rid r.ids m) ∧
    (unlinkOrCreate rid r.ids m).map (·.1) = m.map (·.1) ∧
    LinksOk (R.erase rid) (unlinkOrCreate rid r.ids m) := by
  obtain ⟨a, b, c⟩ := unlinkAll_get rid r.ids m hs (hsort.imp (fun h => Nat.ne_of_lt h)) hm
  refine ⟨a, b, ?_⟩
  intro x l hx
  rw [c x] at hx
  have key : ∀ r', (rid, r') ∈ R → r' = r := by
    intro r' h'
    have h1 := get?_of_mem hR h'
    rw [get?_of_mem hR hr] at h1
    exact (Option.some.inj h1).symm
  by_cases hxr : x ∈ r.ids
  · rw [if_pos hxr] at hx
    rw [Option.map_eq_some_iff] at hx
    obtain ⟨l0, h0, rfl⟩ := hx
    obtain ⟨h1, h2⟩ := hl x l0 h0
    refine ⟨sorted_erase' h1 rid, ?_⟩
    intro q
    rw [mem_erase_sorted h1, h2]
    constructor
    · rintro ⟨⟨r', h3, h4⟩, h5⟩
      exact ⟨r', (OMap.mem_erase _ _ _).2 ⟨h3, h5⟩, h4⟩
    · rintro ⟨r', h3, h4⟩
      rw [OMap.mem_erase] at h3
      exact ⟨⟨r', h3.1, h4⟩, h3.2⟩
  · rw [if_neg hxr] at hx
    obtain ⟨h1, h2⟩ := hl x l hx
    refine ⟨h1, ?_⟩
    intro q
    rw [h2]
    constructor
    · rintro ⟨r', h3, h4⟩
      refine ⟨r', (OMap.mem_erase _ _ _).2 ⟨h3, ?_⟩, h4⟩
      rintro h5
      simp only at h5
      subst h5
      rw [key r' h3] at h4
      exact hxr h4
    · rintro ⟨r', h3, h4⟩
      rw [OMap.mem_erase] at h3
      exact ⟨r', h3.1, h4⟩

/-! ## The full decoding -/

theorem erase_sublist {V : Type} (R : OMap V) (k : Nat) : List.Sublist (R.erase k) R := List.filter_sublist

theorem fullDecode_ok (dbg : Bool) (hv : ValidW w) (hC : Core gf data P ρ L W K s) (hcnt : WCnt s.repairs s.missing)
    (hL : LogInv data L K s) (hbW : ∀ x ∈ W, x + 1 < 2 ^ 32) :
    ∃ s' K', s.fullDecode gf dbg = .ok s' ∧ Core gf data P ρ L W K' s' ∧
      ((∀ q ∈ s.repairs, 2 ≤ q.2.ids.length) ∨ K' = K ∪ W → Cnt s'.repairs s'.missing) ∧
      LogInv data L K' s' ∧ s'.lastId = s.lastId ∧ s'.inOrder = s.inOrder ∧ (K' = K ∨ K' = K ∪ W) ∧
      (∀ inv, s.repairs ≠ [] → s.repairs.length = s.missing.length →
        invert gf s.repairs.length (coeffMatrix w s.repairs s.missing) = .ok inv → K' = K ∪ W) ∧
      ((K' = K ∪ W ∧ s'.repairs = []) ∨ (K' = K ∧ List.Sublist s'.repairs s.repairs)) ∧
      (s.repairs.length < s.missing.length → K' = K ∧ s'.repairs = s.repairs) ∧
      (∀ c, s.repairs ≠ [] → s.repairs.length = s.missing.length →
        invert gf s.repairs.length (coeffMatrix w s.repairs s.missing) = .error c →
        K' = K ∧ ∃ q, s.repairs[c]? = some q ∧ s'.repairs = s.repairs.erase q.1) := by
  unfold Dec.fullDecode
  have hle := hcnt.le
  by_cases h0 : (s.repairs.isEmpty || s.missing.isEmpty) = true
  · rw [if_pos h0]
    have hR : s.repairs = [] := by
      rw [Bool.or_eq_true] at h0
      rcases h0 with h | h
      · exact List.isEmpty_iff.1 h
      · exact hC.rep_nil hcnt (List.isEmpty_iff.1 h)
    exact ⟨s, K, rfl, hC, fun _ => by rw [hR]; exact cnt_nil _, hL, rfl, rfl, Or.inl rfl, fun _ h => absurd hR h,
      Or.inr ⟨rfl, List.Sublist.refl _⟩, fun _ => ⟨rfl, rfl⟩, fun _ h => absurd hR h⟩
  · rw [if_neg h0]
    simp only [bind, Except.bind]
    by_cases h1 : s.missing.length > s.repairs.length
    · rw [if_pos h1]
      refine ⟨s, K, rfl, hC, ?_, hL, rfl, rfl, Or.inl rfl, fun _ _ h => by omega, Or.inr ⟨rfl, List.Sublist.refl _⟩,
        fun _ => ⟨rfl, rfl⟩, fun _ _ h => by omega⟩
      intro h
      refine ⟨hcnt.toNest, ?_, fun _ => h1⟩
      rcases h with h | h
      · exact h
      · intro q hq
        obtain ⟨x, hx⟩ : ∃ x, x ∈ s.missing.map (·.1) := by
          apply List.exists_mem_of_length_pos
          rw [List.length_map]; omega
        have := (hC.misKeys x).1 hx
        rw [h] at this
        exact absurd (Or.inr this.1) this.2
    · rw [if_neg h1]
      have hlen : s.missing.length = s.repairs.length := by omega
      have hne : s.repairs ≠ [] := by
        intro h; apply h0; simp [h]
      obtain ⟨q0, hq0⟩ := List.exists_mem_of_ne_nil _ hne
      have h3 := hcnt.big hne
      rw [cassert_true _ (by simpa using hlen), cassert_true _ (by simp; omega), ensure_true _ (by simpa using hlen)]
      simp only
      cases hinv : invert gf s.repairs.length (coeffMatrix w s.repairs s.missing) with
      | error c =>
        simp only
        have hc : c < s.repairs.length := by
          have := (invert_error_spec hinv).1
          omega
        rw [List.getElem?_eq_getElem hc]
        have hmem : s.repairs[c] ∈ s.repairs := List.getElem_mem hc
        generalize hq : s.repairs[c] = q at hmem
        obtain ⟨rid, r⟩ := q
        simp only
        obtain ⟨a1, a2, a3, a4⟩ := hC.rep _ hmem
        obtain ⟨u1, u2, u3⟩ := links_unlink s.repairs s.missing hC.repSorted hC.misSorted hC.links rid r hmem a2.sorted
          (by intro x hx; have := a3 x hx; exact (hC.misKeys x).2 ⟨this.1, this.2.1⟩)
        rw [ensure_true _ (hC.links.alive _)]
        refine ⟨_, K, rfl, ?_, ?_, hL.congr rfl rfl rfl rfl, rfl, rfl, Or.inl rfl, by simp,
          Or.inr ⟨rfl, erase_sublist _ _⟩, fun h => by omega, ?_⟩
        rotate_right
        · intro c' _ _ hc'
          cases hc'
          exact ⟨rfl, _, by rw [List.getElem?_eq_getElem hc, hq], rfl⟩
        · constructor
          · exact hC.srcSorted
          · exact hC.srcGet
          · show OMap.SortedKeys _
            unfold OMap.SortedKeys; rw [u2]; exact hC.misSorted
          · show ∀ x, x ∈ (unlinkOrCreate rid r.ids s.missing).map (·.1) ↔ _
            rw [u2]; exact hC.misKeys
          · exact sorted_erase hC.repSorted _
          · intro q hq
            exact hC.rep q ((erase_sublist _ _).subset hq)
          · exact u3
          · intro r' hr'
            exact hC.lastEq r' ((erase_sublist _ _).subset hr')
          · exact hC.lo
          · exact hC.dataOk
          · intro q hq
            exact hC.full q ((erase_sublist _ _).subset hq)
        · intro h
          have hlt : (s.repairs.erase rid).length + 1 = s.repairs.length :=
            length_erase_of_mem _ hC.repSorted _ (List.mem_map_of_mem hmem)
          have hml : (unlinkOrCreate rid r.ids s.missing).length = s.missing.length := by
            have := congrArg List.length u2
            simpa using this
          refine ⟨hcnt.toNest.sub (fun q hq => (erase_sublist _ _).subset hq) ?_, ?_, ?_⟩
          · show ∀ x ∈ (unlinkOrCreate rid r.ids s.missing).map (·.1), _
            rw [u2]; exact fun x hx => hx
          · rcases h with h | h
            · exact fun q hq => h q ((erase_sublist _ _).subset hq)
            · intro q hq
              obtain ⟨x, hx⟩ : ∃ x, x ∈ s.missing.map (·.1) := by
                apply List.exists_mem_of_length_pos
                rw [List.length_map]; omega
              have := (hC.misKeys x).1 hx
              rw [h] at this
              exact absurd (Or.inr this.1) this.2
          · intro _
            show (s.repairs.erase rid).length < (unlinkOrCreate rid r.ids s.missing).length
            omega
      | ok inv =>
        simp only
        obtain ⟨s1, e1, b1, b2, b3, b4⟩ := decodeLoop_ok (gf := gf) (data := data) (L := L) dbg hv s.repairs s.missing inv
          s.repairs.length rfl hlen hC.misSorted hinv
          (by
            intro q hq
            obtain ⟨a1, a2, a3, a4⟩ := hC.rep q hq
            refine ⟨a1, a2, ?_⟩
            intro x hx; have := a3 x hx; exact (hC.misKeys x).2 ⟨this.1, this.2.1⟩)
          (by
            intro x hx
            have := (hC.misKeys x).1 hx
            exact ⟨hC.dataOk x this.1, hC.lo x this.1, hbW x this.1⟩)
          (s.missing.map (·.1)) 0 rfl K s (by intro x hx; exact ((hC.misKeys x).1 hx).2) ⟨hC.srcSorted, hC.srcGet⟩ hL
        have hset : K ∪ {x | x ∈ s.missing.map (·.1)} = K ∪ W := by
          ext x
          simp only [Set.mem_union, Set.mem_ofPred_eq]
          rw [hC.misKeys]
          tauto
        rw [hset] at b1 b2
        rw [show s.missing.keys = s.missing.map (·.1) from rfl, e1]
        refine ⟨_, K ∪ W, rfl, ?_, fun _ => cnt_nil _, b2.congr rfl rfl rfl rfl, b3, b4, Or.inr rfl, fun _ _ _ _ => rfl,
          Or.inl ⟨rfl, rfl⟩, fun h => by omega, fun _ _ _ h => by cases h⟩
        constructor
        · exact b1.srcSorted
        · exact b1.srcGet
        · simp [OMap.SortedKeys]
        · intro x
          simp only [List.map_nil, List.not_mem_nil, Set.mem_union, false_iff]
          tauto
        · simp [OMap.SortedKeys]
        · intro q hq; simp at hq
        · intro x l hx; simp at hx
        · intro r hr; simp at hr
        · exact hC.lo
        · exact hC.dataOk
        · intro q hq; simp at hq

end

end Netcode
