import Verif.Proofs.DecStep
import Verif.Proofs.Rank

/-!
# Reception of a repair keeps the invariant of the decoder
-/

set_option linter.unusedSectionVars false

namespace Netcode

open OMap

variable {w : Nat} [Fact (0 < w)]

section
variable {gf : GF w} {data : Nat → List Byte} {P : Nat → Nat → Prop} {ρ L : Nat} {W K : Set Nat} {s : Dec}

/-! ## Dropping outdated repairs and sources -/

theorem dropRepairs_ok (dbg : Bool) (id : Nat) (l : OMap DRepair) (s : Dec) (hl : l.SortedKeys)
    (hsub : ∀ q ∈ l, q ∈ s.repairs) (hR : s.repairs.SortedKeys) (hm : s.missing.SortedKeys)
    (hlinks : LinksOk s.repairs s.missing)
    (hne : ∀ q ∈ s.repairs, q.2.ids ≠ [] ∧ Sorted q.2.ids ∧ ∀ x ∈ q.2.ids, x ∈ s.missing.map (·.1)) :
    ∃ R' m', dropRepairs dbg id l s = .ok { s with repairs := R', missing := m' } ∧ List.Sublist R' s.repairs ∧
      m'.map (·.1) = s.missing.map (·.1) ∧ LinksOk R' m' ∧ (∀ q ∈ R', q ∈ l → ∀ x ∈ q.2.ids, id ≤ x) ∧
      ∀ q ∈ s.repairs, (∀ x ∈ q.2.ids, id ≤ x) → q ∈ R' := by
  induction l generalizing s with
  | nil => exact ⟨s.repairs, s.missing, rfl, List.Sublist.refl _, rfl, hlinks, by simp, fun q hq _ => hq⟩
  | cons q t ih =>
    obtain ⟨rid, r⟩ := q
    have hq : (rid, r) ∈ s.repairs := hsub _ (by simp)
    obtain ⟨n1, n2, n3⟩ := hne _ hq
    have ht := sorted_tail hl
    have hh := sorted_head hl
    unfold dropRepairs
    simp only at n1 n2 n3
    rw [cassert_true _ (by simpa using n1)]
    cases hids : r.ids with
    | nil => exact absurd hids n1
    | cons x u =>
      simp only [bind, Except.bind]
      by_cases hid : id > x
      · rw [if_pos hid]
        obtain ⟨u1, u2, u3⟩ := links_unlink s.repairs s.missing hR hm hlinks rid r hq n2 n3
        rw [← hids, ensure_true _ (hlinks.alive _), u1]
        simp only
        obtain ⟨R', m', e, a1, a2, a3, a4, a5⟩ := ih
          { s with missing := unlinkOrCreate rid r.ids s.missing, repairs := s.repairs.erase rid } ht (by
            intro p hp
            show p ∈ s.repairs.erase rid
            rw [OMap.mem_erase]
            have := hh p hp
            exact ⟨hsub p (by simp [hp]), by simp only at this; omega⟩) (sorted_erase hR _) (by
            show OMap.SortedKeys _
            unfold OMap.SortedKeys; rw [u2]; exact hm) u3 (by
            intro p hp
            have := hne p ((erase_sublist _ _).subset hp)
            refine ⟨this.1, this.2.1, ?_⟩
            show ∀ x ∈ p.2.ids, x ∈ (unlinkOrCreate rid r.ids s.missing).map (·.1)
            rw [u2]; exact this.2.2)
        refine ⟨R', m', e, a1.trans (erase_sublist _ _), by rw [a2]; exact u2, a3, ?_, ?_⟩
        · intro p hp hpl
          rcases List.mem_cons.1 hpl with rfl | hpl
          · have := a1.subset hp
            rw [OMap.mem_erase] at this
            exact absurd rfl this.2
          · exact a4 p hp hpl
        · intro p hp hx
          refine a5 p ?_ hx
          show p ∈ s.repairs.erase rid
          rw [OMap.mem_erase]
          refine ⟨hp, ?_⟩
          intro hc
          obtain ⟨p1, p2⟩ := p
          simp only at hc
          subst hc
          have e1 := get?_of_mem hR hp
          rw [get?_of_mem hR hq] at e1
          obtain rfl : r = p2 := by simpa using e1
          have := hx x (by simp only; rw [hids]; simp)
          omega
      · rw [if_neg hid]
        obtain ⟨R', m', e, a1, a2, a3, a4, a5⟩ := ih s ht (fun p hp => hsub p (by simp [hp])) hR hm hlinks hne
        refine ⟨R', m', e, a1, a2, a3, ?_, a5⟩
        intro p hp hpl
        rcases List.mem_cons.1 hpl with rfl | hpl
        · intro y hy
          simp only at hy
          rw [hids] at hy n2
          rcases List.mem_cons.1 hy with rfl | hy
          · omega
          · have := (List.pairwise_cons.1 n2).1 y hy
            omega
        · exact a4 p hp hpl

theorem split_sorted (l : List Nat) (hl : Sorted l) (id y : Nat) :
    (y ∈ l.takeWhile (fun k => decide (k < id)) ↔ y ∈ l ∧ y < id) ∧
    (y ∈ l.dropWhile (fun k => decide (k < id)) ↔ y ∈ l ∧ id ≤ y) := by
  induction l with
  | nil => simp
  | cons a t ih =>
    unfold Sorted at hl
    rw [List.pairwise_cons] at hl
    obtain ⟨h1, h2⟩ := ih hl.2
    rw [List.takeWhile_cons, List.dropWhile_cons]
    by_cases ha : a < id
    · simp only [ha, decide_true, if_true, List.mem_cons, h1, h2]
      constructor
      · constructor
        · rintro (rfl | ⟨h3, h4⟩)
          · exact ⟨Or.inl rfl, ha⟩
          · exact ⟨Or.inr h3, h4⟩
        · rintro ⟨rfl | h3, h4⟩
          · exact Or.inl rfl
          · exact Or.inr ⟨h3, h4⟩
      · constructor
        · rintro ⟨h3, h4⟩; exact ⟨Or.inr h3, h4⟩
        · rintro ⟨rfl | h3, h4⟩
          · omega
          · exact ⟨h3, h4⟩
    · simp only [ha, decide_false, Bool.false_eq_true, if_false, List.not_mem_nil, false_iff, List.mem_cons]
      constructor
      · rintro ⟨rfl | h3, h4⟩
        · omega
        · have := hl.1 y h3; omega
      · constructor
        · rintro (rfl | h3)
          · exact ⟨Or.inl rfl, by omega⟩
          · have := hl.1 y h3
            exact ⟨Or.inr h3, by omega⟩
        · rintro ⟨h3, _⟩; exact h3

/-- In-order mode, when the decoder learns that sources older than `id` are outdated. -/
theorem giveAllOutdated_ok (dbg : Bool) (hL : LogInv data L K s) (id : Nat) (hid : L ≤ id)
    (hsrc : ∀ y ∈ s.ordered, s.sources.get? y = some ⟨y, data y⟩) (hkeys : ∀ y ∈ s.sources.keys, y ∈ K) :
    ∃ s', s.giveAllOutdated dbg id = .ok s' ∧ SameCore s s' ∧ LogInv data id K s' := by
  unfold Dec.giveAllOutdated
  cases hio : s.inOrder with
  | false =>
    rw [if_neg (by simp)]
    refine ⟨s, rfl, SameCore.refl s, hL.toLogOk, hL.unord, ?_⟩
    intro hc; rw [hio] at hc; cases hc
  | true =>
    rw [if_pos rfl]
    obtain ⟨hp, hfmK⟩ := hL.ord hio
    obtain ⟨s1, e1, c1, a1, a2, a3, a4⟩ := giveOutdated_ok data K (s.ordered.takeWhile (fun k => decide (k < id))) s
      (s.ordered.dropWhile (fun k => decide (k < id))) (List.takeWhile_append_dropWhile).symm hp.ordSorted hL.toLogOk hsrc hkeys
    simp only [bind, Except.bind, e1]
    generalize hs2 : ({ s1 with firstMissing := if s1.firstMissing < id then id else s1.firstMissing } : Dec) = s2
    have f_fm : s2.firstMissing = max s.firstMissing id := by
      rw [← hs2]; show (if s1.firstMissing < id then id else s1.firstMissing) = _
      rw [a3]
      split
      · omega
      · omega
    have f_ord : s2.ordered = s.ordered.dropWhile (fun k => decide (k < id)) := by rw [← hs2]; exact a1
    have f_log : s2.log = s1.log := by rw [← hs2]
    have f_ids : s2.logIds = s.logIds ++ s.ordered.takeWhile (fun k => decide (k < id)) := by
      rw [← a2]; unfold Dec.logIds; rw [f_log]
    have f_src : s2.sources = s.sources := by rw [← hs2]; exact c1.sources
    have f_core : SameCore s s2 := by
      constructor
      · rw [← hs2]
        have := c1.1
        cases s; cases s1; simp_all
      · rw [f_log]; exact c1.2
    have htd : s.ordered.takeWhile (fun k => decide (k < id)) ++ s.ordered.dropWhile (fun k => decide (k < id)) = s.ordered :=
      List.takeWhile_append_dropWhile
    have hto : ∀ y, y ∈ s.ordered.takeWhile (fun k => decide (k < id)) ↔ y ∈ s.ordered ∧ y < id :=
      fun y => (split_sorted s.ordered hp.ordSorted id y).1
    have hdo : ∀ y, y ∈ s.ordered.dropWhile (fun k => decide (k < id)) ↔ y ∈ s.ordered ∧ id ≤ y :=
      fun y => (split_sorted s.ordered hp.ordSorted id y).2
    have hp2 : OrdPre id K s2 := by
      constructor
      · rw [f_ids]
        unfold Sorted
        rw [List.pairwise_append]
        refine ⟨hp.logSorted, List.Pairwise.sublist (List.takeWhile_sublist _) hp.ordSorted, ?_⟩
        intro a ha b hb
        have h1 := ((hp.logMem a).1 ha).2
        have h2 := ((hp.ordMem b).1 ((hto b).1 hb).1).2
        omega
      · intro y
        rw [f_ids, f_fm, List.mem_append, hp.logMem, hto, hp.ordMem]
        constructor
        · rintro (⟨h1, h2⟩ | ⟨⟨h1, h2⟩, h3⟩)
          · exact ⟨h1, by omega⟩
          · exact ⟨h1, by omega⟩
        · rintro ⟨h1, h2⟩
          by_cases h3 : y < s.firstMissing
          · exact Or.inl ⟨h1, h3⟩
          · exact Or.inr ⟨⟨h1, by omega⟩, by omega⟩
      · rw [f_ord]; exact List.Pairwise.sublist (List.dropWhile_sublist _) hp.ordSorted
      · intro y
        rw [f_ord, f_fm, hdo, hp.ordMem]
        constructor
        · rintro ⟨⟨h1, h2⟩, h3⟩; exact ⟨h1, by omega⟩
        · rintro ⟨h1, h2⟩; exact ⟨⟨h1, by omega⟩, by omega⟩
      · rw [f_fm]; omega
      · intro y h1 h2
        rw [f_fm] at h2
        exact hp.full y (by omega) (by omega)
    have hk2 : LogOk data K s2 := ⟨by rw [f_log]; exact a4.logData, by rw [f_log]; exact a4.held, a4.bound⟩
    obtain ⟨s', e, c, r1, r2, r3⟩ := flush_ok data dbg id K s2 hp2 hk2
      (by
        rw [f_ord, f_src]
        intro y hy
        exact hsrc y ((hdo y).1 hy).1) (by rw [f_src]; exact hkeys)
    have c' := f_core.trans c
    refine ⟨s', e, c', r3, ?_, fun _ => ⟨r1, r2⟩⟩
    intro hc
    rw [c'.inOrder, hio] at hc; cases hc

theorem dropOutdated_ok (dbg : Bool) (h : DInv gf data P ρ L W K s) (id : Nat) (hid : L ≤ id) :
    ∃ s', s.dropOutdated dbg id = .ok s' ∧ Core gf data P ρ id {x | x ∈ W ∧ id ≤ x} K s' ∧ Cnt s'.repairs s'.missing ∧
      LogInv data id K s' ∧ s'.lastId = some id ∧ s'.inOrder = s.inOrder ∧ List.Sublist s'.repairs s.repairs ∧
      ∀ q ∈ s.repairs, (∀ x ∈ q.2.ids, id ≤ x) → q ∈ s'.repairs := by
  have hC := h.core
  unfold Dec.dropOutdated
  obtain ⟨R', m', e1, a1, a2, a3, a4, a5⟩ := dropRepairs_ok dbg id s.repairs { s with lastId := some id } hC.repSorted
    (fun q hq => hq) hC.repSorted hC.misSorted hC.links (by
      intro q hq
      obtain ⟨b1, b2, b3, b4⟩ := hC.rep q hq
      refine ⟨?_, b2.sorted, ?_⟩
      · intro hc
        have := h.cnt.two q hq
        rw [hc] at this; simp at this
      · intro x hx
        have := b3 x hx
        exact (hC.misKeys x).2 ⟨this.1, this.2.1⟩)
  simp only [bind, Except.bind, e1]
  obtain ⟨s2, e2, c2, l2⟩ := giveAllOutdated_ok (s := { s with lastId := some id, repairs := R', missing := m' })
    (K := K) (L := L) dbg (h.log.congr rfl rfl rfl rfl) id hid
    (fun y hy => ord_src hC h.log y hy) (fun y hy => hC.src_keys y hy)
  rw [e2]
  refine ⟨_, rfl, ?_, ?_, l2.congr rfl rfl rfl rfl, c2.lastId, c2.inOrder, ?_, ?_⟩
  · have fs : s2.sources = s.sources := c2.sources
    have fm : s2.missing = m' := c2.missing
    have fr : s2.repairs = R' := c2.repairs
    have hm's : m'.SortedKeys := by unfold OMap.SortedKeys; rw [a2]; exact hC.misSorted
    constructor
    · show (s2.sources.eraseBelow id).SortedKeys
      rw [fs]; exact sorted_eraseBelow hC.srcSorted _
    · intro x v
      show (s2.sources.eraseBelow id).get? x = some v ↔ _
      rw [fs, get?_eraseBelow]
      by_cases hx : id ≤ x
      · rw [if_pos hx, hC.srcGet]
        constructor
        · rintro ⟨b1, b2, b3⟩; exact ⟨b1, hx, b3⟩
        · rintro ⟨b1, b2, b3⟩; exact ⟨b1, by omega, b3⟩
      · rw [if_neg hx]
        constructor
        · intro hc; cases hc
        · rintro ⟨_, b2, _⟩; exact absurd b2 hx
    · show (s2.missing.eraseBelow id).SortedKeys
      rw [fm]; exact sorted_eraseBelow hm's _
    · intro x
      show x ∈ (s2.missing.eraseBelow id).map (·.1) ↔ _
      rw [fm, mem_keys_eraseBelow, a2]
      show x ∈ s.missing.map (·.1) ∧ id ≤ x ↔ (x ∈ W ∧ id ≤ x) ∧ x ∉ K
      rw [hC.misKeys]; tauto
    · show s2.repairs.SortedKeys
      rw [fr]
      exact List.Pairwise.sublist (a1.map _) hC.repSorted
    · intro q hq
      have hq' : q ∈ R' := by rw [← fr]; exact hq
      obtain ⟨b1, b2, b3, b4⟩ := hC.rep q (a1.subset hq')
      refine ⟨b1, b2, ?_, b4⟩
      intro x hx
      obtain ⟨d1, d2, d3⟩ := b3 x hx
      exact ⟨⟨d1, a4 q hq' (a1.subset hq') x hx⟩, d2, d3⟩
    · show LinksOk s2.repairs (s2.missing.eraseBelow id)
      rw [fr, fm]
      intro x l hx
      rw [get?_eraseBelow] at hx
      split at hx
      · exact a3 x l hx
      · cases hx
    · intro r hr x hx hk
      have hr' : (ρ, r) ∈ R' := by rw [← fr]; exact hr
      exact hC.lastEq r (a1.subset hr') x hx.1 hk
    · intro x hx; exact hx.2
    · intro x hx; exact hC.dataOk x hx.1
    · intro q hq x hP hk
      have hq' : q ∈ R' := by rw [← fr]; exact hq
      exact hC.full q (a1.subset hq') x hP hk
  · show Cnt s2.repairs (s2.missing.eraseBelow id)
    have fm : s2.missing = m' := c2.missing
    have fr : s2.repairs = R' := c2.repairs
    rw [fr, fm]
    have hk : ∀ x ∈ (m'.eraseBelow id).map (·.1), x ∈ s.missing.map (·.1) := by
      intro x hx
      rw [mem_keys_eraseBelow, a2] at hx
      exact hx.1
    refine ⟨h.cnt.toNest.sub (fun q hq => a1.subset hq) hk, fun q hq => h.cnt.two q (a1.subset hq), fun hne => ?_⟩
    -- a repair that is kept lists all older missing sources: none of them is outdated
    obtain ⟨q, hq⟩ := List.exists_mem_of_ne_nil _ hne
    have hq0 := a1.subset hq
    obtain ⟨y, hy⟩ : ∃ y, y ∈ q.2.ids := List.exists_mem_of_length_pos (by have := h.cnt.two q hq0; omega)
    have hsub : s.missing.map (·.1) ⊆ (m'.eraseBelow id).map (·.1) := by
      intro x hx
      rw [mem_keys_eraseBelow, a2]
      refine ⟨hx, ?_⟩
      by_contra hc
      have hy1 := a4 q hq hq0 y hy
      exact hc (a4 q hq hq0 x (h.cnt.seg q hq0 y hy x hx (by omega)))
    have h1 := ((nodup_keys hC.misSorted).subperm hsub).length_le
    rw [List.length_map, List.length_map] at h1
    have h2 := h.cnt.lt (List.ne_nil_of_mem hq0)
    have h3 : R'.length ≤ s.repairs.length := a1.length_le
    omega
  · show List.Sublist s2.repairs s.repairs
    rw [c2.repairs]; exact a1
  · show ∀ q ∈ s.repairs, _ → q ∈ s2.repairs
    rw [c2.repairs]; exact a5

/-! ## Linking a new repair -/

open Classical in
theorem linkFold_ok (dbg : Bool) (hv : ValidW w) (sources : OMap DSource)
    (hsrc : ∀ x v, sources.get? x = some v ↔ x ∈ K ∧ L ≤ x ∧ v = ⟨x, data x⟩)
    (t : List Nat) (r : DRepair) (m : OMap (List Nat)) (ht : t.Nodup) (hsub : ∀ x ∈ t, x ∈ r.ids ∧ L ≤ x)
    (hr : RepOk gf data r) (y : Nat) (hy : y ∈ r.ids) (hyK : y ∉ K) (hm : m.SortedKeys) :
    ∃ r' m', t.foldlM (linkStep gf dbg sources) (r, m) = .ok (r', m') ∧ r'.id = r.id ∧ RepOk gf data r' ∧
      (∀ x, x ∈ r'.ids ↔ x ∈ r.ids ∧ ¬ (x ∈ t ∧ x ∈ K)) ∧ m'.SortedKeys ∧
      (∀ x, m'.get? x = if x ∈ t ∧ x ∉ K then some (setInsert ((m.get? x).getD []) r.id) else m.get? x) := by
  induction t generalizing r m with
  | nil => exact ⟨r, m, rfl, rfl, hr, by simp, hm, by simp⟩
  | cons x t ih =>
    rw [List.nodup_cons] at ht
    obtain ⟨hxr, hxL⟩ := hsub x (by simp)
    simp only [List.foldlM_cons, bind, Except.bind]
    by_cases hxK : x ∈ K
    · have hg := (hsrc x _).2 ⟨hxK, hxL, rfl⟩
      have hxy : x ≠ y := by rintro rfl; exact hyK hxK
      have hlen : 1 < r.ids.length := by
        by_contra hc
        match hids : r.ids with
        | [] => rw [hids] at hxr; simp at hxr
        | [z] =>
          rw [hids] at hxr hy
          simp at hxr hy
          exact hxy (by rw [hxr, hy])
        | _ :: _ :: _ => rw [hids] at hc; simp at hc
      obtain ⟨r1, e1, e1', ok1⟩ := removeData_ok gf hv dbg data r hr x hxr hlen
      have hids1 : r1.ids = r.ids := by rw [e1']
      have hid1 : r1.id = r.id := by rw [e1']
      have estep : linkStep gf dbg sources (r, m) x = .ok ({ r1 with ids := r.ids.erase x }, m) := by
        unfold linkStep
        simp only [hg, e1, bind, Except.bind, hids1]
        rfl
      rw [estep]
      simp only
      have hmem : ∀ z, z ∈ r.ids.erase x ↔ z ∈ r.ids ∧ z ≠ x := fun z => mem_erase_sorted hr.sorted x z
      obtain ⟨r', m', e, b1, b2, b3, b4, b5⟩ := ih { r1 with ids := r.ids.erase x } m ht.2 (by
        intro z hz
        obtain ⟨h1, h2⟩ := hsub z (by simp [hz])
        refine ⟨(hmem z).2 ⟨h1, ?_⟩, h2⟩
        rintro rfl; exact ht.1 hz) ok1 ((hmem y).2 ⟨hy, fun h => hxy h.symm⟩) hm
      refine ⟨r', m', e, by rw [b1]; exact hid1, b2, ?_, b4, ?_⟩
      · intro z
        rw [b3]
        show z ∈ r.ids.erase x ∧ _ ↔ _
        rw [hmem, List.mem_cons]
        constructor
        · rintro ⟨⟨h1, h2⟩, h3⟩
          exact ⟨h1, fun h => h.1.elim h2 (fun h4 => h3 ⟨h4, h.2⟩)⟩
        · rintro ⟨h1, h2⟩
          refine ⟨⟨h1, ?_⟩, fun h => h2 ⟨Or.inr h.1, h.2⟩⟩
          rintro rfl; exact h2 ⟨Or.inl rfl, hxK⟩
      · intro z
        rw [b5 z]
        show (if z ∈ t ∧ z ∉ K then some (setInsert ((m.get? z).getD []) r1.id) else m.get? z) = _
        rw [hid1]
        by_cases hz : z = x
        · subst hz; simp [hxK]
        · simp [hz]
    · have hg : sources.get? x = none := by
        cases hh : sources.get? x with
        | none => rfl
        | some v => exact absurd ((hsrc x v).1 hh).1 hxK
      -- the new links
      have estep : ∃ m1, linkStep gf dbg sources (r, m) x = .ok (r, m1) ∧ m1.SortedKeys ∧
          ∀ z, m1.get? z = if z = x then some (setInsert ((m.get? x).getD []) r.id) else m.get? z := by
        unfold linkStep
        simp only [hg]
        by_cases hh : x ∈ m.map (·.1)
        · rw [if_pos ((has_iff _ _).2 hh)]
          refine ⟨_, rfl, sorted_modify hm _ _, ?_⟩
          intro z
          rw [get?_modify]
          by_cases hz : z = x
          · subst hz
            rw [if_pos rfl, if_pos rfl]
            obtain ⟨l, hl⟩ := (get?_isSome_iff _ _).2 hh
            rw [hl]; rfl
          · rw [if_neg hz, if_neg hz]
        · rw [if_neg (by rw [(has_false_iff _ _).2 hh]; simp)]
          refine ⟨_, rfl, sorted_emplace _ hm _ _, ?_⟩
          intro z
          rw [get?_emplace _ hm _ _ hh]
          by_cases hz : z = x
          · rw [if_pos hz, if_pos hz, (get?_eq_none_iff _ _).2 hh]; rfl
          · rw [if_neg hz, if_neg hz]
      obtain ⟨m1, e1, s1, g1⟩ := estep
      rw [e1]
      simp only
      obtain ⟨r', m', e, b1, b2, b3, b4, b5⟩ := ih r m1 ht.2 (fun z hz => hsub z (by simp [hz])) hr hy s1
      refine ⟨r', m', e, b1, b2, ?_, b4, ?_⟩
      · intro z
        rw [b3, List.mem_cons]
        constructor
        · rintro ⟨h1, h2⟩
          refine ⟨h1, ?_⟩
          rintro ⟨rfl | h3, h4⟩
          · exact hxK h4
          · exact h2 ⟨h3, h4⟩
        · rintro ⟨h1, h2⟩
          exact ⟨h1, fun h => h2 ⟨Or.inr h.1, h.2⟩⟩
      · intro z
        rw [b5 z, g1 z]
        by_cases hz : z = x
        · subst hz; simp [hxK, ht.1]
        · simp [hz]

/-! ## Reception of a repair -/

set_option maxHeartbeats 700000 in
open Classical in
theorem onRepair_ok (dbg : Bool) (hv : ValidW w) (h : DInv gf data P ρ L W K s) (r : DRepair) (f : Nat)
    (hf : r.ids.head? = some f) (hr : RepOk gf data r) (hb : ∀ x ∈ r.ids, x + 1 < 2 ^ 32)
    (hρ : ∀ q ∈ s.repairs, q.1 ≤ r.id) (hρ' : ρ ≤ r.id)
    (hdup : (∃ rr, (r.id, rr) ∈ s.repairs) → r.id = ρ ∧ {x | x ∈ r.ids} = W ∧ f = L)
    (hLf : L ≤ f) (hF1 : ∀ x ∈ W, x ∉ K → x ∈ r.ids ∨ x < f) (hP : ∀ x ∈ r.ids, P r.id x)
    (hF2 : ∀ x ∈ r.ids, ∀ y ∈ W, x ≤ y → x ∈ W) (hP2 : ∀ x, P r.id x → x ∈ r.ids) :
    ∃ s' K', s.onRepair gf dbg r = .ok s' ∧ DInv gf data P r.id f {x | x ∈ r.ids} K' s' ∧ s'.inOrder = s.inOrder ∧
      (K' = K ∨ K' = K ∪ {x | x ∈ r.ids}) ∧
      (∀ x, (∀ y ∈ r.ids, y ∉ K → y = x) → K' = K ∪ {x | x ∈ r.ids} ∨ (∃ rr, (r.id, rr) ∈ s.repairs)) ∧
      (∀ U, Sorted U → (∀ x, x ∈ U ↔ x ∈ r.ids ∧ x ∉ K) → (rowsFor f s.repairs r.id r.ids).length = U.length →
        Independent gf (rowsFor f s.repairs r.id r.ids) U →
        K' = K ∪ {x | x ∈ r.ids} ∨ (∃ rr, (r.id, rr) ∈ s.repairs)) ∧
      (∀ U, Sorted U → (∀ x, x ∈ U ↔ x ∈ r.ids ∧ x ∉ K) → 2 ≤ U.length → (¬ ∃ rr, (r.id, rr) ∈ s.repairs) →
        (rowsFor f s.repairs r.id r.ids).length ≤ U.length ∧
        ((rowsFor f s.repairs r.id r.ids).length = U.length → ¬ Independent gf (rowsFor f s.repairs r.id r.ids) U →
          K' = K ∧ s'.repairs = s.repairs.filter (fun q => decide (∀ x ∈ q.2.ids, f ≤ x))) ∧
        ((rowsFor f s.repairs r.id r.ids).length < U.length →
          K' = K ∧ ∃ rr, rr.ids = U ∧ s'.repairs = s.repairs.filter (fun q => decide (∀ x ∈ q.2.ids, f ≤ x)) ++ [(r.id, rr)])) := by
  have hne : r.ids ≠ [] := by intro hc; rw [hc] at hf; cases hf
  have hge : ∀ x ∈ r.ids, f ≤ x := by
    intro x hx
    cases hids : r.ids with
    | nil => exact absurd hids hne
    | cons a t =>
      have hs := hr.sorted
      rw [hids] at hf hx hs
      simp only [List.head?_cons, Option.some.injEq] at hf
      subst hf
      rcases List.mem_cons.1 hx with rfl | hx
      · exact le_refl _
      · exact le_of_lt ((List.pairwise_cons.1 hs).1 x hx)
  unfold Dec.onRepair
  rw [cassert_true _ (by simpa using hne)]
  obtain ⟨lst, hlst⟩ : ∃ lst, r.ids.getLast? = some lst := by
    cases hl : r.ids.getLast? with
    | none => rw [List.getLast?_eq_none_iff] at hl; exact absurd hl hne
    | some q => exact ⟨q, rfl⟩
  have hlstm : lst ∈ r.ids := List.mem_of_getLast? hlst
  have hlstL := hge lst hlstm
  rw [hlst, hf]
  have e1 : s.lastId.any (fun l => decide (lst < l)) = false := by
    rcases h.last with ⟨h1, _, _⟩ | h1
    · rw [h1]; rfl
    · rw [h1]; simp; omega
  simp only [bind, Except.bind, e1]
  rw [if_neg (by simp)]
  by_cases hheld : s.repairs.has r.id = true
  · rw [if_pos hheld]
    obtain ⟨rr, hrr⟩ : ∃ rr, (r.id, rr) ∈ s.repairs := by
      obtain ⟨v, hv⟩ := (get?_isSome_iff _ _).2 ((has_iff _ _).1 hheld)
      exact ⟨v, mem_of_get? hv⟩
    obtain ⟨d1, d2, d3⟩ := hdup ⟨rr, hrr⟩
    refine ⟨s, K, rfl, ?_, rfl, Or.inl rfl, fun x _ => Or.inr ⟨rr, hrr⟩, fun _ _ _ _ _ => Or.inr ⟨rr, hrr⟩,
      fun _ _ _ _ hno => absurd ⟨rr, hrr⟩ hno⟩
    rw [d1, d2, d3]; exact h
  · rw [if_neg hheld]
    have hnk : r.id ∉ s.repairs.map (·.1) := fun hm => hheld ((has_iff _ _).2 hm)
    obtain ⟨s1, ed, C1, n1, l1, la1, io1, sub1, keep1⟩ := dropOutdated_ok dbg h f hLf
    rw [ed]
    simp only
    -- missing sources of the old window that are not outdated are in the new repair
    have hF : ∀ x, x ∈ W → f ≤ x → x ∉ K → x ∈ r.ids := by
      intro x h1 h2 h3
      rcases hF1 x h1 h3 with h4 | h4
      · exact h4
      · omega
    have hk1 : ∀ q ∈ s1.repairs, q.1 < r.id := by
      intro q hq
      have hq' := sub1.subset hq
      have h1 := hρ q hq'
      have h2 : q.1 ≠ r.id := fun e => hnk (e ▸ List.mem_map_of_mem hq')
      omega
    by_cases huse : r.ids.all (fun x => s1.sources.has x) = true
    · rw [if_pos huse]
      have hall : ∀ x ∈ r.ids, x ∈ K := by
        intro x hx
        rw [List.all_eq_true] at huse
        exact ((C1.has_src x).1 (huse x hx)).1
      have hm0 : s1.missing = [] := by
        cases hmm : s1.missing with
        | nil => rfl
        | cons p t =>
          exfalso
          have h1 : p.1 ∈ s1.missing.map (·.1) := by rw [hmm]; simp
          obtain ⟨⟨h2, h3⟩, h4⟩ := (C1.misKeys p.1).1 h1
          exact h4 (hall _ (hF _ h2 h3 h4))
      have hr0 := C1.rep_nil n1.weak hm0
      have hKK : K = K ∪ {x | x ∈ r.ids} := by
        ext x
        simp only [Set.mem_union, Set.mem_ofPred_eq]
        exact ⟨Or.inl, fun hh => hh.elim id (hall x)⟩
      refine ⟨_, K, rfl, ⟨?_, ?_, l1.congr rfl rfl rfl rfl, Or.inr la1, hb⟩, io1, Or.inl rfl, fun x _ => Or.inl hKK,
        fun _ _ _ _ _ => Or.inl hKK, ?_⟩
      rotate_right
      · intro U _ hUm h2 _
        exfalso
        obtain ⟨x, hx⟩ : ∃ x, x ∈ U := List.exists_mem_of_length_pos (by omega)
        exact ((hUm x).1 hx).2 (hall x ((hUm x).1 hx).1)
      · constructor
        · exact C1.srcSorted
        · exact C1.srcGet
        · exact C1.misSorted
        · intro x
          show x ∈ s1.missing.map (·.1) ↔ _
          rw [hm0]
          simp only [List.map_nil, List.not_mem_nil, false_iff, not_and, not_not]
          exact hall x
        · exact C1.repSorted
        · intro q hq
          have hq' : q ∈ s1.repairs := hq
          rw [hr0] at hq'; simp at hq'
        · exact C1.links
        · intro rr hrr
          have hq' : (r.id, rr) ∈ s1.repairs := hrr
          rw [hr0] at hq'; simp at hq'
        · exact hge
        · exact hr.dataOk
        · intro q hq
          have hq' : q ∈ s1.repairs := hq
          rw [hr0] at hq'; simp at hq'
      · exact n1
    · rw [if_neg huse]
      obtain ⟨y, hy, hyK⟩ : ∃ y ∈ r.ids, y ∉ K := by
        by_contra hc
        push Not at hc
        apply huse
        rw [List.all_eq_true]
        intro x hx
        exact (C1.has_src x).2 ⟨hc x hx, hge x hx⟩
      have hnd : r.ids.Nodup := hr.sorted.imp (fun h => Nat.ne_of_lt h)
      obtain ⟨r', m', el, k1, k2, k3, k4, k5⟩ := linkFold_ok (gf := gf) (data := data) (K := K) (L := f) dbg hv s1.sources
        C1.srcGet r.ids.reverse r s1.missing (List.nodup_reverse.2 hnd) (by
          intro x hx
          rw [List.mem_reverse] at hx
          exact ⟨hx, hge x hx⟩) hr y hy hyK C1.misSorted
      rw [ensure_true _ (C1.links.alive _), el]
      simp only [k1]
      have k3' : ∀ x, x ∈ r'.ids ↔ x ∈ r.ids ∧ x ∉ K := by
        intro x
        rw [k3, List.mem_reverse]; tauto
      have hne' : r'.ids ≠ [] := by
        intro hc
        have := (k3' y).2 ⟨hy, hyK⟩
        rw [hc] at this; simp at this
      rw [cassert_true _ (by simpa using hne')]
      simp only
      have hemp : s1.repairs.emplace r.id r' = s1.repairs ++ [(r.id, r')] := by
        apply emplace_append
        intro x hx
        obtain ⟨q, hq, rfl⟩ := List.mem_map.1 hx
        exact hk1 q hq
      rw [hemp]
      -- the state with the new repair
      have hmisk : ∀ x, x ∈ m'.map (·.1) ↔ x ∈ r.ids ∧ x ∉ K := by
        intro x
        rw [← get?_isSome_iff, k5 x]
        constructor
        · rintro ⟨v, hv⟩
          by_cases hx : x ∈ r.ids.reverse ∧ x ∉ K
          · rw [List.mem_reverse] at hx; exact hx
          · rw [if_neg hx] at hv
            have h1 : x ∈ s1.missing.map (·.1) := (get?_isSome_iff _ _).1 ⟨v, hv⟩
            obtain ⟨⟨h2, h3⟩, h4⟩ := (C1.misKeys x).1 h1
            exact ⟨hF x h2 h3 h4, h4⟩
        · rintro ⟨h1, h2⟩
          rw [if_pos ⟨List.mem_reverse.2 h1, h2⟩]
          exact ⟨_, rfl⟩
      have hrsort : (s1.repairs ++ [(r.id, r')] : OMap DRepair).SortedKeys := by
        unfold OMap.SortedKeys
        rw [List.map_append]
        apply sorted_append_singleton C1.repSorted
        intro z hz
        obtain ⟨q, hq, rfl⟩ := List.mem_map.1 hz
        exact hk1 q hq
      have hrep : ∀ q ∈ (s1.repairs ++ [(r.id, r')] : OMap DRepair), q.2.id = q.1 ∧ RepOk gf data q.2 ∧
          (∀ x ∈ q.2.ids, x ∈ {x | x ∈ r.ids} ∧ x ∉ K ∧ P q.1 x) ∧ q.1 ≤ r.id := by
        intro q hq
        rcases List.mem_append.1 hq with hq | hq
        · obtain ⟨b1, b2, b3, b4⟩ := C1.rep q hq
          refine ⟨b1, b2, ?_, le_of_lt (hk1 q hq)⟩
          intro x hx
          obtain ⟨⟨c1, c2⟩, c3, c4⟩ := b3 x hx
          exact ⟨hF x c1 c2 c3, c3, c4⟩
        · rw [List.mem_singleton] at hq
          subst hq
          refine ⟨k1, k2, ?_, le_refl _⟩
          intro x hx
          have := (k3' x).1 hx
          exact ⟨this.1, this.2, hP x this.1⟩
      have hlinks : LinksOk (s1.repairs ++ [(r.id, r')]) m' := by
        intro x l hx
        have hxk : x ∈ r.ids ∧ x ∉ K := (hmisk x).1 ((get?_isSome_iff _ _).1 ⟨l, hx⟩)
        rw [k5 x, if_pos ⟨List.mem_reverse.2 hxk.1, hxk.2⟩] at hx
        have hl := Option.some.inj hx
        have hold : Sorted ((s1.missing.get? x).getD []) ∧
            ∀ rid, rid ∈ (s1.missing.get? x).getD [] ↔ ∃ rr, (rid, rr) ∈ s1.repairs ∧ x ∈ rr.ids := by
          cases hg : s1.missing.get? x with
          | some l0 => exact C1.links x l0 hg
          | none =>
            refine ⟨by simp [Sorted], ?_⟩
            intro rid
            simp only [Option.getD_none, List.not_mem_nil, false_iff, not_exists, not_and]
            intro rr h1 h2
            have h3 := (C1.rep _ h1).2.2.1 x h2
            have : x ∈ s1.missing.map (·.1) := (C1.misKeys x).2 ⟨h3.1, h3.2.1⟩
            exact (get?_eq_none_iff _ _).1 hg this
        rw [← hl]
        refine ⟨sorted_setInsert _ hold.1 _, ?_⟩
        intro rid
        rw [mem_setInsert, hold.2]
        constructor
        · rintro (rfl | ⟨rr, h1, h2⟩)
          · exact ⟨r', by simp, (k3' x).2 hxk⟩
          · exact ⟨rr, by simp [h1], h2⟩
        · rintro ⟨rr, h1, h2⟩
          rcases List.mem_append.1 h1 with h1 | h1
          · exact Or.inr ⟨rr, h1, h2⟩
          · simp at h1; exact Or.inl h1.1
      by_cases h1 : r'.ids.length = 1
      · rw [if_pos h1]
        obtain ⟨x, hx⟩ : ∃ x, r'.ids = [x] := List.length_eq_one_iff.1 h1
        have hxk : x ∈ r.ids ∧ x ∉ K := (k3' x).1 (by rw [hx]; simp)
        have hall : ∀ z, z ∈ r.ids → z ∉ K → z = x := by
          intro z hz hk
          have := (k3' z).2 ⟨hz, hk⟩
          rw [hx] at this; simpa using this
        rw [createSource_ok gf hv dbg data r' k2 x hx]
        simp only
        have hR0 : s1.repairs = [] := by
          cases hrr : s1.repairs with
          | nil => rfl
          | cons q t =>
            exfalso
            have hq : q ∈ s1.repairs := by rw [hrr]; simp
            have h2 := n1.two q hq
            obtain ⟨b1, b2, b3, b4⟩ := hrep q (by simp [hq])
            have h3 : ∀ z ∈ q.2.ids, z = x := fun z hz => hall z (b3 z hz).1 (b3 z hz).2.1
            have hs := b2.sorted
            match hids : q.2.ids, h2 with
            | a :: b :: u, _ =>
              rw [hids] at hs h3
              have := (List.pairwise_cons.1 hs).1 b (by simp)
              have := h3 a (by simp)
              have := h3 b (by simp)
              omega
        have hM0 : m'.erase x = [] := by
          cases hmm : m'.erase x with
          | nil => rfl
          | cons p t =>
            exfalso
            have h2 : p.1 ∈ (m'.erase x).map (·.1) := by rw [hmm]; simp
            rw [mem_keys_erase, hmisk] at h2
            exact h2.2 (hall _ h2.1.1 h2.1.2)
        have hE0 : (s1.repairs ++ [(r.id, r')] : OMap DRepair).erase r.id = [] := by
          rw [hR0]; simp [OMap.erase]
        rw [hM0, hE0]
        generalize hs3 : ({ s1 with nbDecoded := s1.nbDecoded + 1, missing := [], repairs := [] } : Dec) = s3
        have f_src : s3.sources = s1.sources := by rw [← hs3]
        have f_mis : s3.missing = [] := by rw [← hs3]
        have f_rep : s3.repairs = [] := by rw [← hs3]
        have C3 : Core gf data P r.id f {z | z ∈ r.ids ∧ z ≠ x} K s3 := by
          constructor
          · rw [f_src]; exact C1.srcSorted
          · rw [f_src]; exact C1.srcGet
          · rw [f_mis]; simp [OMap.SortedKeys]
          · intro z
            rw [f_mis]
            simp only [List.map_nil, List.not_mem_nil, false_iff, not_and, not_not, Set.mem_ofPred_eq]
            rintro ⟨h2, h3⟩
            by_contra hc
            exact h3 (hall z h2 hc)
          · rw [f_rep]; simp [OMap.SortedKeys]
          · rw [f_rep]; intro q hq; simp at hq
          · rw [f_mis]; intro z l hz; simp at hz
          · rw [f_rep]; intro q hq; simp at hq
          · intro z hz; exact hge z hz.1
          · intro z hz; exact hr.dataOk z hz.1
          · rw [f_rep]; intro q hq; simp at hq
        have L3 : LogInv data f K s3 := by rw [← hs3]; exact l1.congr rfl rfl rfl rfl
        obtain ⟨s4, e4, b1, b2, b3, b4, b5, b6⟩ := addSource_plain dbg C3 (by rw [f_rep]; exact (cnt_nil []).two) L3 x hxk.2
          (by simp) (hge x hxk.1) (hb x hxk.1) s3.fuel (by rw [f_mis]; unfold Dec.fuel; rw [f_mis, f_rep]; decide)
        have hKK : insert x K = K ∪ {x | x ∈ r.ids} := by
          ext z
          simp only [Set.mem_union, Set.mem_ofPred_eq, Set.mem_insert_iff]
          constructor
          · rintro (rfl | hz)
            · exact Or.inr hxk.1
            · exact Or.inl hz
          · rintro (hz | hz)
            · exact Or.inr hz
            · by_cases hk : z ∈ K
              · exact Or.inr hk
              · exact Or.inl (hall z hz hk)
        refine ⟨s4, insert x K, e4, ⟨?_, by rw [b3, f_rep]; exact cnt_nil _, b2, ?_, hb⟩, ?_, Or.inr hKK,
          fun _ _ => Or.inl hKK, fun _ _ _ _ _ => Or.inl hKK, ?_⟩
        rotate_right
        · intro U hU hUm h2 _
          exfalso
          match U, h2 with
          | a :: b :: u, _ =>
            have e1 := (List.pairwise_cons.1 hU).1 b (by simp)
            have e2 := (hUm a).1 (by simp)
            have e3 := (hUm b).1 (by simp)
            have e4 := hall a e2.1 e2.2
            have e5 := hall b e3.1 e3.2
            omega
        · constructor
          · exact b1.srcSorted
          · exact b1.srcGet
          · exact b1.misSorted
          · intro z
            rw [b1.misKeys]
            simp only [Set.mem_ofPred_eq, Set.mem_insert_iff]
            tauto
          · exact b1.repSorted
          · rw [b3, f_rep]; intro q hq; simp at hq
          · exact b1.links
          · rw [b3, f_rep]; intro q hq; simp at hq
          · exact hge
          · exact hr.dataOk
          · rw [b3, f_rep]; intro q hq; simp at hq
        · right; rw [b5, ← hs3]; exact la1
        · rw [b6, ← hs3]; exact io1
      · rw [if_neg h1]
        generalize hs3 : ({ s1 with repairs := s1.repairs ++ [(r.id, r')], missing := m' } : Dec) = s3
        have f_src : s3.sources = s1.sources := by rw [← hs3]
        have f_mis : s3.missing = m' := by rw [← hs3]
        have f_rep : s3.repairs = s1.repairs ++ [(r.id, r')] := by rw [← hs3]
        have C3 : Core gf data P r.id f {z | z ∈ r.ids} K s3 := by
          constructor
          · rw [f_src]; exact C1.srcSorted
          · rw [f_src]; exact C1.srcGet
          · rw [f_mis]; exact k4
          · rw [f_mis]; exact hmisk
          · rw [f_rep]; exact hrsort
          · rw [f_rep]; exact hrep
          · rw [f_rep, f_mis]; exact hlinks
          · rw [f_rep]
            intro rr hrr z hz hk
            rcases List.mem_append.1 hrr with hq | hq
            · have := hk1 _ hq; simp at this
            · simp at hq
              rw [hq]; exact (k3' z).2 ⟨hz, hk⟩
          · exact hge
          · exact hr.dataOk
          · rw [f_rep]
            intro q hq z hz hk
            rcases List.mem_append.1 hq with hq | hq
            · exact C1.full q hq z hz hk
            · simp at hq
              rw [hq] at hz ⊢
              exact (k3' z).2 ⟨hP2 z hz, hk⟩
        have L3 : LogInv data f K s3 := by rw [← hs3]; exact l1.congr rfl rfl rfl rfl
        have hr2 : 2 ≤ r'.ids.length := by
          have := List.length_pos_of_ne_nil hne'
          omega
        have T3 : ∀ q ∈ s3.repairs, 2 ≤ q.2.ids.length := by
          rw [f_rep]
          intro q hq
          rcases List.mem_append.1 hq with hq | hq
          · exact n1.two q hq
          · rw [List.mem_singleton] at hq
            subst hq
            exact hr2
        have N3 : WCnt s3.repairs s3.missing := by
          have hin : (r.id, r') ∈ s3.repairs := by rw [f_rep]; simp
          have hbig := C3.ids_le hin
          simp only at hbig
          refine ⟨⟨?_, ?_⟩, ?_, fun _ => by omega⟩
          · rw [f_rep, f_mis]
            intro q hq y hy x hx hxy
            have hx' := (hmisk x).1 hx
            rcases List.mem_append.1 hq with hq | hq
            · obtain ⟨⟨c1, _⟩, _⟩ := (C1.rep q hq).2.2.1 y hy
              exact n1.seg q hq y hy x ((C1.misKeys x).2 ⟨⟨hF2 x hx'.1 y c1 hxy, hge x hx'.1⟩, hx'.2⟩) hxy
            · rw [List.mem_singleton] at hq
              subst hq
              exact (k3' x).2 hx'
          · rw [f_rep]
            intro q hq q' hq' hle
            rcases List.mem_append.1 hq' with hq' | hq'
            · rcases List.mem_append.1 hq with hq | hq
              · exact n1.mono q hq q' hq' hle
              · rw [List.mem_singleton] at hq
                subst hq
                have := hk1 q' hq'
                simp only at hle
                omega
            · rw [List.mem_singleton] at hq'
              subst hq'
              intro x hx
              have := (hrep q hq).2.2.1 x hx
              exact (k3' x).2 ⟨this.1, this.2.1⟩
          · rcases Nat.eq_zero_or_pos s1.repairs.length with h0 | h0
            · rw [f_rep, List.length_append, h0]
              simp only [List.length_singleton]; omega
            · have h3 := n1.lt (List.ne_nil_of_length_pos h0)
              have hsub : s1.missing.map (·.1) ⊆ m'.map (·.1) := by
                intro x hx
                obtain ⟨⟨h4, h5⟩, h6⟩ := (C1.misKeys x).1 hx
                exact (hmisk x).2 ⟨hF x h4 h5 h6, h6⟩
              have h4 := ((nodup_keys C1.misSorted).subperm hsub).length_le
              rw [List.length_map, List.length_map] at h4
              rw [f_rep, f_mis, List.length_append]
              simp only [List.length_singleton]; omega
        have hQ : List.Perm s1.repairs (s.repairs.filter (fun q => decide (∀ x ∈ q.2.ids, f ≤ x))) := by
          have hn := nodup_of_sortedKeys h.core.repSorted
          refine (List.perm_ext_iff_of_nodup (hn.sublist sub1) (hn.filter _)).2 ?_
          intro q
          rw [List.mem_filter, decide_eq_true_eq]
          constructor
          · intro hq
            exact ⟨sub1.subset hq, fun x hx => ((C1.rep q hq).2.2.1 x hx).1.2⟩
          · rintro ⟨h2, h3⟩
            exact keep1 q h2 h3
        have hQe : s1.repairs = s.repairs.filter (fun q => decide (∀ x ∈ q.2.ids, f ≤ x)) := by
          refine List.Perm.eq_of_pairwise (le := fun a b => a.1 < b.1) ?_ ?_ ?_ hQ
          · intro a b _ _ h1 h2; omega
          · exact List.pairwise_map.1 C1.repSorted
          · exact (List.pairwise_map.1 h.core.repSorted).filter _
        obtain ⟨s4, K4, e4, b1, b2, b3, b4, b5, b6, b7, _, b8, b9⟩ := fullDecode_ok dbg hv C3 N3 L3 hb
        refine ⟨s4, K4, e4, ⟨b1, b2 (Or.inl T3), b3, ?_, hb⟩, ?_, b6, ?_, ?_, ?_⟩
        · right; rw [b4, ← hs3]; exact la1
        · rw [b5, ← hs3]; exact io1
        · intro x hx
          exfalso
          have hs := k2.sorted
          have h3 : ∀ z ∈ r'.ids, z = x := fun z hz => hx z ((k3' z).1 hz).1 ((k3' z).1 hz).2
          match hids : r'.ids with
          | [] => exact hne' hids
          | [z] => rw [hids] at h1; simp at h1
          | a :: b :: u =>
            rw [hids] at hs h3
            have := (List.pairwise_cons.1 hs).1 b (by simp)
            have := h3 a (by simp)
            have := h3 b (by simp)
            omega
        · intro U hU hUm hlen hind
          left
          have hkU : m'.map (·.1) = U := sorted_ext k4 hU (fun x => by rw [hmisk, hUm])
          have hn3 : s3.repairs.length = U.length := by
            rw [f_rep, ← hlen]
            unfold rowsFor
            simp [hQ.length_eq]
          have hm3 : s3.missing.length = U.length := by
            rw [f_mis, ← hkU, List.length_map]
          cases hinv : invert gf s3.repairs.length (coeffMatrix w s3.repairs s3.missing) with
          | ok inv => exact b7 inv (by rw [f_rep]; simp) (by rw [hn3, hm3]) hinv
          | error c =>
            exfalso
            refine no_kernel (by rw [f_mis]; exact hkU) hU hm3 hn3 ?_ hinv
            intro v hv0
            refine hind v ?_
            intro q hq
            unfold rowsFor at hq
            rcases List.mem_append.1 hq with hq | hq
            · obtain ⟨q0, hq0, rfl⟩ := List.mem_map.1 hq
              exact hv0 q0 (by rw [f_rep]; exact List.mem_append_left _ (hQ.symm.subset hq0))
            · rw [List.mem_singleton] at hq
              subst hq
              have := hv0 (r.id, r') (by rw [f_rep]; simp)
              rw [← this]
              simp only
              congr 1
              apply List.filter_congr
              intro x hx
              have h2 := (hUm x).1 hx
              simp only [decide_eq_decide]
              rw [k3']; tauto
        · intro U hU hUm h2 _
          have hkU : m'.map (·.1) = U := sorted_ext k4 hU (fun x => by rw [hmisk, hUm])
          have hm3 : s3.missing.length = U.length := by
            rw [f_mis, ← hkU, List.length_map]
          have hrl : (rowsFor f s.repairs r.id r.ids).length = s3.repairs.length := by
            rw [f_rep]
            unfold rowsFor
            simp [hQ.length_eq]
          refine ⟨by rw [hrl, ← hm3]; exact N3.le, ?_⟩
          constructor
          · intro hlen hdep
            have hn3 : s3.repairs.length = U.length := by rw [← hrl, hlen]
            cases hinv : invert gf s3.repairs.length (coeffMatrix w s3.repairs s3.missing) with
            | ok inv =>
              exfalso
              apply hdep
              intro v hv0
              refine kernel_of_invert (by rw [f_mis]; exact hkU) hm3 hn3 hinv v ?_
              intro q hq
              rw [f_rep] at hq
              rcases List.mem_append.1 hq with hq | hq
              · refine hv0 (q.1, q.2.ids) ?_
                unfold rowsFor
                rw [hQe] at hq
                exact List.mem_append_left _ (List.mem_map.2 ⟨q, hq, rfl⟩)
              · rw [List.mem_singleton] at hq
                subst hq
                have := hv0 (r.id, r.ids) (by unfold rowsFor; simp)
                rw [← this]
                simp only
                congr 1
                apply List.filter_congr
                intro x hx
                have h2 := (hUm x).1 hx
                simp only [decide_eq_decide]
                rw [k3']; tauto
            | error c =>
              obtain ⟨g1, q, g2, g3⟩ := b9 c (by rw [f_rep]; simp) (by rw [hn3, hm3]) hinv
              refine ⟨g1, ?_⟩
              have hcl := (invert_fail _ _ _ hinv).1
              have hq : q = (r.id, r') := by
                rw [hcl, f_rep] at g2
                simpa using g2.symm
              rw [g3, f_rep, hq, ← hQe]
              unfold OMap.erase
              rw [List.filter_append]
              have e : s1.repairs.filter (fun p => p.1 != r.id) = s1.repairs := by
                rw [List.filter_eq_self]
                intro q hq
                have := hk1 q hq
                simp only [bne_iff_ne, ne_eq]
                omega
              simp [e]
          · intro hlt
            obtain ⟨g1, g2⟩ := b8 (by rw [← hrl, hm3]; exact hlt)
            exact ⟨g1, r', sorted_ext k2.sorted hU (fun x => by rw [k3', hUm]), by rw [g2, f_rep, hQe]⟩

end

end Netcode
