import Verif.Proofs.SysStep

/-!
# A source that arrives too late
-/

set_option linter.unusedSectionVars false

namespace Netcode

open OMap

variable {w : Nat} [Fact (0 < w)]

section
variable {gf : GF w} {data : Nat → List Byte} {P : Nat → Nat → Prop} {ρ L : Nat} {W K : Set Nat} {s : Dec}

/-- Two lists of sources that differ in a source that is removed anyway. -/
theorem rows_filter {rows : List (Nat × List Nat)} {U : List Nat} {x : Nat} :
    Independent gf (rows.map (fun q => (q.1, q.2.filter (fun y => decide (y ≠ x))))) (U.filter (fun y => decide (y ≠ x))) ↔
      Independent gf rows (U.filter (fun y => decide (y ≠ x))) := by
  have key : ∀ q : Nat × List Nat,
      (U.filter (fun y => decide (y ≠ x))).filter (fun z => decide (z ∈ q.2.filter (fun y => decide (y ≠ x)))) =
      (U.filter (fun y => decide (y ≠ x))).filter (fun z => decide (z ∈ q.2)) := by
    intro q
    apply List.filter_congr
    intro z hz
    rw [List.mem_filter] at hz
    have hzx : z ≠ x := by simpa using hz.2
    rw [decide_eq_decide, List.mem_filter]
    simp [hzx]
  unfold Independent
  refine forall_congr' fun v => imp_congr ?_ Iff.rfl
  constructor
  · intro h q hq
    have := h _ (List.mem_map_of_mem hq)
    simp only [key] at this
    exact this
  · intro h q hq
    obtain ⟨p, hp, rfl⟩ := List.mem_map.1 hq
    simp only [key]
    exact h p hp

/-- The same for the statement about the rows. -/
theorem indep_of_invert {R : OMap DRepair} {m : OMap (List Nat)} {U : List Nat} (hk : m.map (·.1) = U)
    (hR : R.length = m.length) {inv : Mat w} (h : invert gf R.length (coeffMatrix w R m) = .ok inv) :
    Independent gf (R.map (fun q => (q.1, q.2.ids))) U := by
  have hm : m.length = U.length := by rw [← hk]; simp
  unfold Independent
  intro v hv0
  have h2 : ∀ q ∈ R, xorOver (U.filter (fun x => decide (x ∈ q.2.ids))) (fun x => gf.mul (coefficient w q.1 x) (v x)) = 0#w := by
    intro q hq
    exact hv0 (q.1, q.2.ids) (List.mem_map.2 ⟨q, hq, rfl⟩)
  exact kernel_of_invert hk hm (hR.trans hm) h v h2

/-- The rows of the repairs after a source was removed from all of them. -/
theorem rows_erased {R R' : OMap DRepair} {x : Nat} (hs : R.SortedKeys) (hk : R'.map (·.1) = R.map (·.1))
    (hr : ∀ rid r, (rid, r) ∈ R' → ∃ r0, (rid, r0) ∈ R ∧ r.ids = r0.ids.filter (fun y => decide (y ≠ x))) :
    R'.map (fun q => (q.1, q.2.ids)) =
      (R.map (fun q => (q.1, q.2.ids))).map (fun q => (q.1, q.2.filter (fun y => decide (y ≠ x)))) := by
  have hlen : R'.length = R.length := by simpa using congrArg List.length hk
  rw [List.map_map]
  apply List.ext_getElem (by simp [hlen])
  intro k h1 h2
  rw [List.length_map] at h1 h2
  obtain ⟨p, hp⟩ : ∃ p, R[k]'h2 = p := ⟨_, rfl⟩
  obtain ⟨p', hp'⟩ : ∃ p, R'[k]'h1 = p := ⟨_, rfl⟩
  have hm : p ∈ R := hp ▸ List.getElem_mem h2
  have hm' : p' ∈ R' := hp' ▸ List.getElem_mem h1
  have hkk : p'.1 = p.1 := by
    have := congrArg (fun l => l[k]?) hk
    simp only [List.getElem?_map] at this
    rw [List.getElem?_eq_getElem h1, List.getElem?_eq_getElem h2, hp, hp'] at this
    simpa using this
  obtain ⟨r0, g1, g2⟩ := hr p'.1 p'.2 hm'
  have e1 := get?_of_mem hs g1
  have e2 : R.get? p.1 = some p.2 := get?_of_mem hs hm
  rw [hkk, e2] at e1
  rw [List.getElem_map, List.getElem_map, hp, hp']
  simp only [Function.comp, hkk]
  rw [g2, ← Option.some.inj e1]

/-- The arrival of a source that clashes leaves a repair that lists a single source. -/
theorem onSource_clash (dbg : Bool) (hv : ValidW w) (h : DInv gf data P ρ L W K s) (hio : s.inOrder = false) (x : Nat)
    (hn : ¬ s.NoClash gf x) :
    ∃ s' rid r u y, s.onSource gf dbg ⟨x, data x⟩ = .ok s' ∧ Core gf data P ρ L W (insert x K) s' ∧
      LogInv data L (insert x K) s' ∧ s'.lastId = s.lastId ∧ s'.inOrder = false ∧ s'.repairs = (rid, r) :: u ∧ r.ids = [y] := by
  unfold Dec.NoClash at hn
  rw [not_or] at hn
  obtain ⟨hn1, hn2⟩ := hn
  push Not at hn1
  obtain ⟨q, hq, q', hq', hxq, hxq', hlen2, hne⟩ := hn1
  obtain ⟨hxW, hxK, -⟩ := (h.core.rep q hq).2.2.1 x hxq
  have hLx := h.core.lo x hxW
  have hl2 : 2 ≤ s.repairs.length := by
    match hh : s.repairs with
    | [] => rw [hh] at hq; simp at hq
    | [p] => rw [hh] at hq hq'; simp at hq hq'; rw [hq, hq'] at hne; exact absurd rfl hne
    | _ :: _ :: _ => simp
  have hfuel : s.missing.length + 3 ≤ s.fuel := by
    unfold Dec.fuel
    calc s.missing.length + 3 = 1 * (s.missing.length + 3) := by omega
      _ ≤ _ := Nat.mul_le_mul_right _ (by omega)
  have hlast : ∀ l, s.lastId = some l → l = L := by
    intro l hl
    rcases h.last with ⟨h1, _, _⟩ | h1
    · rw [h1] at hl; cases hl
    · rw [h1] at hl; exact (Option.some.inj hl).symm
  obtain ⟨s1, K1, e, a1, a2, a3, a4, a5, a6, a7, a8, a9⟩ :=
    addSource_late dbg hv h.core h.cnt h.log hio x hxK hxW h.bound hlast _ hfuel
  obtain ⟨rfl, b2, b3, b4⟩ := a9 hl2
  have hlen : s1.repairs.length = s.repairs.length := by
    have := congrArg List.length b3
    simpa using this
  have hxm : x ∈ s.missing.map (·.1) := (h.core.misKeys x).2 ⟨hxW, hxK⟩
  have hml : s1.missing.length + 1 = s.missing.length := by
    rw [b2]; exact length_erase_of_mem _ h.core.misSorted _ hxm
  -- the oldest repair lists one source
  obtain ⟨⟨rid, r⟩, u, hR⟩ : ∃ p u, s1.repairs = p :: u := by
    match hh : s1.repairs with
    | [] => rw [hh] at hlen; simp at hlen; omega
    | p :: u => exact ⟨p, u, rfl⟩
  have hmem : (rid, r) ∈ s1.repairs := by rw [hR]; simp
  have hone : ∃ y, r.ids = [y] := by
    obtain ⟨r0, g1, g2⟩ := b4 rid r hmem
    have htwo := h.cnt.two _ g1
    simp only at htwo
    have hle : rid ≤ q.1 := by
      have hk : q.1 ∈ s1.repairs.map (·.1) := by rw [b3]; exact List.mem_map_of_mem hq
      have hs := a1.repSorted
      unfold OMap.SortedKeys at hs
      rw [hR, List.map_cons] at hk hs
      rcases List.mem_cons.1 hk with hk | hk
      · exact le_of_eq hk.symm
      · exact le_of_lt ((List.pairwise_cons.1 hs).1 _ hk)
    have hsub : r0.ids ⊆ q.2.ids := h.cnt.mono _ g1 q hq hle
    have ok0 := (h.core.rep _ g1).2.1
    have hn0 : r0.ids.Nodup := ok0.sorted.imp (fun h => Nat.ne_of_lt h)
    have hl0 : r0.ids.length = 2 := by
      have := (hn0.subperm hsub).length_le
      omega
    have hx0 : x ∈ r0.ids := by
      have hp := List.Subperm.perm_of_length_le (hn0.subperm hsub) (by omega)
      exact hp.mem_iff.2 hxq
    rw [g2]
    match hh : r0.ids, hl0 with
    | [a, b], _ =>
      rw [hh] at hx0 hn0
      simp only [List.mem_cons, List.not_mem_nil, or_false] at hx0
      simp only [List.nodup_cons, List.mem_singleton, List.not_mem_nil, not_false_eq_true, List.nodup_nil, and_true] at hn0
      rcases hx0 with rfl | rfl
      · refine ⟨b, ?_⟩
        simp [Ne.symm hn0]
      · refine ⟨a, ?_⟩
        simp [hn0]
  obtain ⟨y, hy⟩ := hone
  obtain ⟨s2, K2, e2, c1, c2, c3, c4, c5, c6, c7, c8, c9, c10⟩ := fullDecode_ok dbg hv a1 a2 a3 h.bound
  have hon : s.onSource gf dbg ⟨x, data x⟩ = .ok s2 := by
    unfold Dec.onSource
    simp only
    have e1 : s.lastId.any (fun l => decide (x < l)) = false := by
      cases hl : s.lastId with
      | none => rfl
      | some l => have := hlast l hl; simp; omega
    rw [e1]
    simp only [Bool.false_eq_true, if_false]
    rw [if_neg (by rw [not_has h.core x hxK]; simp)]
    simp only [bind, Except.bind, e]
    exact e2
  have fin : K2 = insert x K → (∃ u', s2.repairs = (rid, r) :: u') →
      ∃ s' rid r u y, s.onSource gf dbg ⟨x, data x⟩ = .ok s' ∧ Core gf data P ρ L W (insert x K) s' ∧
      LogInv data L (insert x K) s' ∧ s'.lastId = s.lastId ∧ s'.inOrder = false ∧ s'.repairs = (rid, r) :: u ∧ r.ids = [y] := by
    rintro rfl ⟨u', hu⟩
    exact ⟨s2, rid, r, u', y, hon, c1, c3, by rw [c4, a4], by rw [c5, a5, hio], hu, hy⟩
  rcases Nat.lt_or_ge s1.repairs.length s1.missing.length with hlt | hge
  · obtain ⟨d1, d2⟩ := c9 hlt
    exact fin d1 ⟨u, by rw [d2, hR]⟩
  · have hlt := h.cnt.lt (List.ne_nil_of_length_pos (by omega))
    have heq : s1.repairs.length = s1.missing.length := by omega
    have hne1 : s1.repairs ≠ [] := by rw [hR]; simp
    cases hinv : invert gf s1.repairs.length (coeffMatrix w s1.repairs s1.missing) with
    | ok inv =>
      exfalso
      apply hn2
      refine ⟨by omega, ?_⟩
      have hU : s1.missing.map (·.1) = s.missing.keys.filter (fun y => decide (y ≠ x)) := by
        rw [b2]
        apply sorted_ext (sorted_erase h.core.misSorted x)
        · exact h.core.misSorted.filter _
        · intro y
          rw [mem_keys_erase, List.mem_filter, OMap.keys_eq]; simp
      have hrows := rows_erased h.core.repSorted b3 b4
      rw [← rows_filter, ← hrows]
      exact indep_of_invert hU heq hinv
    | error cc =>
      obtain ⟨d1, p, d2, d3⟩ := c10 cc hne1 heq hinv
      obtain ⟨d4, -⟩ := invert_fail _ _ _ hinv
      refine fin d1 ⟨OMap.erase u p.1, ?_⟩
      rw [d3, hR]
      have hp : p ∈ u := by
        rw [d4, hR] at d2
        rw [hR] at hlen
        have : u ≠ [] := by rintro rfl; simp at hlen; omega
        have h3 : ((rid, r) :: u).length - 1 = (u.length - 1) + 1 := by
          have := List.length_pos_of_ne_nil this
          simp; omega
        rw [h3, List.getElem?_cons_succ] at d2
        exact List.mem_of_getElem? d2
      have hs := a1.repSorted
      unfold OMap.SortedKeys at hs
      rw [hR, List.map_cons] at hs
      have hlt := (List.pairwise_cons.1 hs).1 p.1 (List.mem_map_of_mem hp)
      unfold OMap.erase
      rw [List.filter_cons_of_pos (by simp; simp only at hlt; omega)]

/-- The arrival of the single source that a repair that is held lists fails an assertion. -/
theorem onSource_single (h : Core gf data P ρ L W K s) (hlast : ∀ l, s.lastId = some l → l = L) (hio : s.inOrder = false)
    {rid : Nat} {r : DRepair} {u : OMap DRepair} {y : Nat} (hR : s.repairs = (rid, r) :: u) (hy : r.ids = [y]) :
    s.onSource gf true ⟨y, data y⟩ = .error .assertion := by
  have hmem : (rid, r) ∈ s.repairs := by rw [hR]; simp
  obtain ⟨a1, a2, a3, a4⟩ := h.rep _ hmem
  obtain ⟨hyW, hyK, -⟩ := a3 y (by simp only; rw [hy]; simp)
  have hLy := h.lo y hyW
  unfold Dec.onSource
  simp only
  have e1 : s.lastId.any (fun l => decide (y < l)) = false := by
    cases hl : s.lastId with
    | none => rfl
    | some l => have := hlast l hl; simp; omega
  rw [e1]
  simp only [Bool.false_eq_true, if_false]
  rw [if_neg (by rw [not_has h y hyK]; simp)]
  obtain ⟨l, hl⟩ := (get?_isSome_iff _ _).2 ((h.misKeys y).2 ⟨hyW, hyK⟩)
  obtain ⟨hls, hlm⟩ := h.links y l hl
  obtain ⟨t, rfl⟩ : ∃ t, l = rid :: t := by
    have h1 : rid ∈ l := (hlm rid).2 ⟨r, hmem, by rw [hy]; simp⟩
    match l, hls, h1, hlm with
    | a :: t, hls, h1, hlm =>
      rcases List.mem_cons.1 h1 with h1 | h1
      · exact ⟨t, by rw [h1]⟩
      · exfalso
        have h2 := (List.pairwise_cons.1 hls).1 rid h1
        obtain ⟨ra, h3, -⟩ := (hlm a).1 (by simp)
        have hs := h.repSorted
        unfold OMap.SortedKeys at hs
        rw [hR] at h3
        rw [hR, List.map_cons] at hs
        rcases List.mem_cons.1 h3 with h3 | h3
        · have := congrArg Prod.fst h3; simp only at this; omega
        · have := (List.pairwise_cons.1 hs).1 a (List.mem_map_of_mem (f := Prod.fst) h3)
          simp only at this; omega
  have hg : s.repairs.get? rid = some r := get?_of_mem h.repSorted hmem
  obtain ⟨f, hf⟩ : ∃ f, s.fuel = f + 1 := ⟨s.fuel - 1, by unfold Dec.fuel; have : 0 < (s.repairs.length + 2) * (s.missing.length + 3) := by positivity
                                                          omega⟩
  rw [hf]
  unfold addSource addSourceHead
  have egive : s.giveNew true ⟨y, data y⟩ = .ok (s.callback ⟨y, data y⟩) := by
    unfold Dec.giveNew; rw [hio]; rfl
  simp only [egive, bind, Except.bind]
  have e2 : (s.callback ⟨y, data y⟩).missing = s.missing := rfl
  rw [e2, hl]
  simp only
  unfold removeFromAll
  have e3 : (s.callback ⟨y, data y⟩).repairs = s.repairs := rfl
  rw [e3, hg]
  simp only [removeFromRepair, removeData, bind, Except.bind]
  rw [show cassert true (decide (r.ids.length > 1)) = .error .assertion by rw [hy]; rfl]

end

end Netcode
