import Verif.Proofs.DecFull
import Verif.Proofs.Rank
import Verif.Spec.Schedule

/-!
# The two entry points of the decoder keep its invariant
-/

set_option linter.unusedSectionVars false

namespace Netcode

open OMap

variable {w : Nat} [Fact (0 < w)]

/-- The invariant of the decoder between two calls. -/
structure DInv (gf : GF w) (data : Nat → List Byte) (P : Nat → Nat → Prop) (ρ L : Nat) (W K : Set Nat)
    (s : Dec) : Prop where
  core : Core gf data P ρ L W K s
  cnt : Cnt s.repairs s.missing
  log : LogInv data L K s
  last : (s.lastId = none ∧ L = 0 ∧ W = ∅) ∨ s.lastId = some L
  bound : ∀ x ∈ W, x + 1 < 2 ^ 32

section
variable {gf : GF w} {data : Nat → List Byte} {P : Nat → Nat → Prop} {ρ L : Nat} {W K : Set Nat} {s : Dec}

theorem srcInv_insert (h : SrcInv data L K s) (x : Nat) (hx : x ∉ K) (hLx : L ≤ x) :
    SrcInv data L (insert x K) { s with sources := s.sources.emplace x ⟨x, data x⟩ } := by
  have hnot : x ∉ s.sources.map (·.1) := fun hm => hx (h.keys x hm)
  refine ⟨sorted_emplace _ h.srcSorted _ _, ?_⟩
  intro y v
  show (s.sources.emplace x ⟨x, data x⟩).get? y = some v ↔ _
  rw [get?_emplace _ h.srcSorted _ _ hnot]
  by_cases hy : y = x
  · subst hy
    rw [if_pos rfl]
    constructor
    · intro h
      exact ⟨Or.inl rfl, hLx, (Option.some.inj h).symm⟩
    · rintro ⟨_, _, rfl⟩; rfl
  · rw [if_neg hy, h.srcGet]
    constructor
    · rintro ⟨a, b, c⟩; exact ⟨Or.inr a, b, c⟩
    · rintro ⟨a | a, b, c⟩
      · exact absurd a hy
      · exact ⟨a, b, c⟩

theorem srcInv_has (h : SrcInv data L K s) (x : Nat) (hx : x ∉ K) : s.sources.has x = false := by
  rw [has_false_iff]; exact fun hm => hx (h.keys x hm)

/-- Adding a source when nothing is held, without ordering. -/
theorem addSource_nil (dbg : Bool) (s : Dec) (hio : s.inOrder = false) (hm : s.missing = []) (x : Nat)
    (hx : s.sources.has x = false) (fuel : Nat) :
    addSource gf dbg (fuel + 1) ⟨x, data x⟩ s
      = .ok { s.callback ⟨x, data x⟩ with sources := s.sources.emplace x ⟨x, data x⟩ } := by
  unfold addSource
  have e1 : addSourceHead gf dbg ⟨x, data x⟩ s = .ok (s.callback ⟨x, data x⟩) := by
    unfold addSourceHead Dec.giveNew
    simp only [hio, Bool.not_false, if_true, bind, Except.bind]
    rw [show (s.callback ⟨x, data x⟩).missing = s.missing from rfl, hm]
    rfl
  have e2 : scanMissing gf dbg fuel ((s.callback ⟨x, data x⟩).missing.keys.head?) (s.callback ⟨x, data x⟩)
      = .ok (s.callback ⟨x, data x⟩) := by
    rw [show (s.callback ⟨x, data x⟩).missing = s.missing from rfl, hm]
    cases fuel <;> · unfold scanMissing; rfl
  simp only [bind, Except.bind, e1, e2]
  unfold addSourceTail
  rw [cassert_true _ (by rw [show (s.callback ⟨x, data x⟩).sources = s.sources from rfl]; simp [hx])]
  simp only [bind, Except.bind]
  rw [if_neg (by
    rw [show (s.callback ⟨x, data x⟩).inOrder = s.inOrder from rfl, hio]; simp)]
  rfl

theorem mem_modify {R : OMap DRepair} (hs : R.SortedKeys) {k : Nat} {r0 r1 : DRepair} (h : (k, r0) ∈ R)
    (q : Nat × DRepair) : q ∈ R.modify k (fun _ => r1) ↔ (q ∈ R ∧ q.1 ≠ k) ∨ q = (k, r1) := by
  obtain ⟨a, b⟩ := q
  rw [← get?_iff (sorted_modify hs _ _), get?_modify]
  by_cases ha : a = k
  · subst ha
    rw [if_pos rfl, get?_of_mem hs h]
    simp only [Option.map_some, Option.some.injEq, ne_eq, not_true_eq_false, and_false, false_or, Prod.mk.injEq, true_and]
    exact eq_comm
  · rw [if_neg ha, get?_iff hs]
    simp [ha]

/-- Removal of a source from the repairs that list it. -/
theorem removeAll_ok (dbg : Bool) (hv : ValidW w) (x : Nat) (l : List Nat) (hl : l.Nodup) (s : Dec)
    (hs : s.repairs.SortedKeys)
    (h : ∀ rid ∈ l, ∃ r, (rid, r) ∈ s.repairs ∧ RepOk gf data r ∧ x ∈ r.ids ∧ 1 < r.ids.length) :
    ∃ R, removeFromAll gf dbg ⟨x, data x⟩ l s = .ok { s with repairs := R } ∧ R.map (·.1) = s.repairs.map (·.1) ∧
      ∀ rid r', (rid, r') ∈ R → ∃ r, (rid, r) ∈ s.repairs ∧
        ((rid ∉ l ∧ r' = r) ∨ (rid ∈ l ∧ r'.id = r.id ∧ RepOk gf data r' ∧ r'.ids = r.ids.erase x)) := by
  induction l generalizing s with
  | nil => exact ⟨s.repairs, rfl, rfl, fun rid r' h => ⟨r', h, Or.inl ⟨by simp, rfl⟩⟩⟩
  | cons k t ih =>
    rw [List.nodup_cons] at hl
    obtain ⟨r, hr, hok, hxr, hlen⟩ := h k (by simp)
    obtain ⟨r', er, er', ok'⟩ := removeData_ok gf hv dbg data r hok x hxr hlen
    have hids' : r'.ids = r.ids := by rw [er']
    have hid' : r'.id = r.id := by rw [er']
    have ermv : removeFromRepair gf dbg ⟨x, data x⟩ r = .ok { r' with ids := r.ids.erase x } := by
      unfold removeFromRepair
      simp only [er, bind, Except.bind]
      rw [cassert_true _ (by simp [hids', hxr]), ensure_true _ (by simp [hids', hxr])]
      simp only [hids']
      rfl
    generalize hr2 : ({ r' with ids := r.ids.erase x } : DRepair) = r2 at ermv ok'
    have f_ids : r2.ids = r.ids.erase x := by rw [← hr2]
    have f_id : r2.id = r.id := by rw [← hr2]; exact hid'
    have hm := mem_modify (r1 := r2) hs hr
    obtain ⟨R, e1, e2, e3⟩ := ih hl.2 { s with repairs := s.repairs.modify k (fun _ => r2) }
      (show (s.repairs.modify k (fun _ => r2)).SortedKeys from sorted_modify hs _ _) (by
      intro rid hrid
      obtain ⟨r0, g1, g2⟩ := h rid (by simp [hrid])
      refine ⟨r0, (hm _).2 (Or.inl ⟨g1, ?_⟩), g2⟩
      rintro rfl; exact hl.1 hrid)
    refine ⟨R, ?_, by rw [e2]; exact keys_modify s.repairs k (fun _ => r2), ?_⟩
    · unfold removeFromAll
      rw [get?_of_mem hs hr]
      simp only [ermv, bind, Except.bind]
      exact e1
    · intro rid q hq
      obtain ⟨r0, g1, g2⟩ := e3 rid q hq
      rcases (hm _).1 g1 with ⟨g1, g3⟩ | g1
      · refine ⟨r0, g1, ?_⟩
        simp only [ne_eq] at g3
        rcases g2 with ⟨g2, g4⟩ | ⟨g2, g4⟩
        · exact Or.inl ⟨by simp [g2, g3], g4⟩
        · exact Or.inr ⟨by simp [g2], g4⟩
      · obtain ⟨rfl, rfl⟩ := Prod.mk.inj g1
        refine ⟨r, hr, Or.inr ⟨by simp, ?_⟩⟩
        rcases g2 with ⟨_, rfl⟩ | ⟨g2, _⟩
        · exact ⟨f_id, ok', f_ids⟩
        · exact absurd g2 hl.1

/-- Adding a source that nothing refers to when no repair is held, without ordering. -/
theorem addSource_bare (dbg : Bool) (s : Dec) (hio : s.inOrder = false) (hr : s.repairs = [])
    (hl : LinksOk s.repairs s.missing) (x : Nat) (hm : s.missing.get? x = none)
    (hx : s.sources.has x = false) (fuel : Nat) (hf : s.missing.length ≤ fuel) :
    addSource gf dbg (fuel + 1) ⟨x, data x⟩ s
      = .ok { s.callback ⟨x, data x⟩ with sources := s.sources.emplace x ⟨x, data x⟩ } := by
  unfold addSource
  have e1 : addSourceHead gf dbg ⟨x, data x⟩ s = .ok (s.callback ⟨x, data x⟩) := by
    unfold addSourceHead Dec.giveNew
    simp only [hio, Bool.not_false, if_true, bind, Except.bind]
    rw [show (s.callback ⟨x, data x⟩).missing = s.missing from rfl, hm]
    rfl
  have e2 : scanMissing gf dbg fuel ((s.callback ⟨x, data x⟩).missing.keys.head?) (s.callback ⟨x, data x⟩)
      = .ok (s.callback ⟨x, data x⟩) := by
    apply scan_noop' gf dbg (s.callback ⟨x, data x⟩) hl
    · show s.repairs.SortedKeys
      rw [hr]; simp [OMap.SortedKeys]
    · intro _ rid r _ hr'
      have : (rid, r) ∈ s.repairs := hr'
      rw [hr] at this; simp at this
    · exact hf
  simp only [bind, Except.bind, e1, e2]
  unfold addSourceTail
  rw [cassert_true _ (by rw [show (s.callback ⟨x, data x⟩).sources = s.sources from rfl]; simp [hx])]
  simp only [bind, Except.bind]
  rw [if_neg (by
    rw [show (s.callback ⟨x, data x⟩).inOrder = s.inOrder from rfl, hio]; simp)]
  rfl

/-- A source that comes after repairs that list it (no ordering). -/
theorem addSource_late (dbg : Bool) (hv : ValidW w) (hC : Core gf data P ρ L W K s) (hcnt : Cnt s.repairs s.missing)
    (hL : LogInv data L K s) (hio : s.inOrder = false) (x : Nat) (hx : x ∉ K) (hW : x ∈ W)
    (hb : ∀ y ∈ W, y + 1 < 2 ^ 32) (hlast : ∀ l, s.lastId = some l → l = L) (fuel : Nat)
    (hf : s.missing.length + 3 ≤ fuel) :
    ∃ s' K', addSource gf dbg fuel ⟨x, data x⟩ s = .ok s' ∧ Core gf data P ρ L W K' s' ∧ WCnt s'.repairs s'.missing ∧
      LogInv data L K' s' ∧ s'.lastId = s.lastId ∧ s'.inOrder = s.inOrder ∧ insert x K ⊆ K' ∧ K' ⊆ insert x K ∪ W ∧
      ((∀ q ∈ s.repairs, ∀ q' ∈ s.repairs, x ∈ q.2.ids → x ∈ q'.2.ids → q.2.ids.length = 2 → q'.1 = q.1) →
        ∀ q ∈ s'.repairs, 2 ≤ q.2.ids.length) ∧
      (2 ≤ s.repairs.length → K' = insert x K ∧ s'.missing = s.missing.erase x ∧
        s'.repairs.map (·.1) = s.repairs.map (·.1) ∧
        ∀ rid r', (rid, r') ∈ s'.repairs → ∃ r, (rid, r) ∈ s.repairs ∧ r'.ids = r.ids.filter (fun y => decide (y ≠ x))) := by
  have hLx := hC.lo x hW
  have hkeys : ∀ y ∈ s.sources.keys, y ∈ insert x K := fun y hy => Or.inr (hC.src_keys y hy)
  have hL1 := give_unord hL hio x hx (hb x hW) hkeys
  generalize hs1 : s.callback ⟨x, data x⟩ = s1 at hL1
  have f_mis : s1.missing = s.missing := by rw [← hs1]; rfl
  have f_rep : s1.repairs = s.repairs := by rw [← hs1]; rfl
  have f_src : s1.sources = s.sources := by rw [← hs1]; rfl
  have f_io : s1.inOrder = s.inOrder := by rw [← hs1]; rfl
  have f_last : s1.lastId = s.lastId := by rw [← hs1]; rfl
  obtain ⟨f, rfl⟩ : ∃ f, fuel = f + 1 := ⟨fuel - 1, by omega⟩
  have hxm : x ∈ s.missing.map (·.1) := (hC.misKeys x).2 ⟨hW, hx⟩
  obtain ⟨l, hl⟩ := (get?_isSome_iff _ _).2 hxm
  obtain ⟨hls, hlm⟩ := hC.links x l hl
  have egive : s.giveNew dbg ⟨x, data x⟩ = .ok s1 := by
    unfold Dec.giveNew; rw [hio, ← hs1]; rfl
  obtain ⟨R, eR, kR, mR⟩ := removeAll_ok (gf := gf) (data := data) dbg hv x l (hls.imp (fun h => Nat.ne_of_lt h)) s1
    (by rw [f_rep]; exact hC.repSorted) (by
      intro rid hrid
      obtain ⟨r, h1, h2⟩ := (hlm rid).1 hrid
      have := hcnt.two _ h1
      exact ⟨r, by rw [f_rep]; exact h1, (hC.rep _ h1).2.1, h2, by simp only at this; omega⟩)
  rw [f_rep] at kR mR
  -- what the removal does to each repair
  have hR1 : ∀ rid r', (rid, r') ∈ R → ∃ r, (rid, r) ∈ s.repairs ∧ r'.id = r.id ∧ RepOk gf data r' ∧
      (∀ y, y ∈ r'.ids ↔ y ∈ r.ids ∧ y ≠ x) ∧ (x ∈ r.ids → r'.ids.length + 1 = r.ids.length) ∧ (x ∉ r.ids → r'.ids = r.ids) := by
    intro rid r' hr'
    obtain ⟨r, h1, h2⟩ := mR rid r' hr'
    have ok := (hC.rep _ h1).2.1
    have hin : rid ∈ l ↔ x ∈ r.ids := by
      rw [hlm]
      constructor
      · rintro ⟨r0, g1, g2⟩
        have e1 := get?_of_mem hC.repSorted g1
        rw [get?_of_mem hC.repSorted h1] at e1
        rw [Option.some.inj e1]; exact g2
      · exact fun h => ⟨r, h1, h⟩
    rcases h2 with ⟨h2, rfl⟩ | ⟨h2, h3, h4, h5⟩
    · have hn : x ∉ r'.ids := fun h => h2 (hin.2 h)
      exact ⟨r', h1, rfl, ok, fun y => ⟨fun hy => ⟨hy, fun e => hn (e ▸ hy)⟩, fun hy => hy.1⟩, fun h => absurd h hn, fun _ => rfl⟩
    · refine ⟨r, h1, h3, h4, fun y => by rw [h5, mem_erase_sorted ok.sorted], fun h => ?_, fun h => absurd (hin.1 h2) h⟩
      have := length_erase_sorted x h
      have := List.length_pos_of_mem h
      rw [h5]; omega
  have hR2 : ∀ rid r, (rid, r) ∈ s.repairs → ∃ r', (rid, r') ∈ R ∧ ∀ y, y ∈ r'.ids ↔ y ∈ r.ids ∧ y ≠ x := by
    intro rid r hr
    have h1 : rid ∈ R.map (·.1) := by rw [kR]; exact List.mem_map_of_mem hr
    obtain ⟨⟨_, r'⟩, h2, rfl⟩ := List.mem_map.1 h1
    obtain ⟨r0, g1, _, _, g2, _⟩ := hR1 _ r' h2
    have e1 := get?_of_mem hC.repSorted g1
    rw [get?_of_mem hC.repSorted hr] at e1
    rw [← Option.some.inj e1] at g2
    exact ⟨r', h2, g2⟩
  have hRs : R.SortedKeys := by unfold OMap.SortedKeys; rw [kR]; exact hC.repSorted
  have hRlen : R.length = s.repairs.length := by
    have := congrArg List.length kR
    simpa using this
  have e2 : addSourceHead gf dbg ⟨x, data x⟩ s = .ok { s1 with repairs := R, missing := s1.missing.erase x } := by
    unfold addSourceHead
    simp only [egive, bind, Except.bind]
    rw [f_mis, hl]
    simp only [eR]
    rw [← f_mis]; rfl
  have herase : ∀ y l', (s1.missing.erase x).get? y = some l' → y ≠ x ∧ s.missing.get? y = some l' := by
    intro y l' h
    rw [get?_erase, f_mis] at h
    by_cases hy : y = x
    · rw [if_pos hy] at h; cases h
    · rw [if_neg hy] at h; exact ⟨hy, h⟩
  have hlen' : (s1.missing.erase x).length + 1 = s.missing.length := by
    rw [f_mis]; exact length_erase_of_mem _ hC.misSorted _ hxm
  have hlinks : LinksOk R (s1.missing.erase x) := by
    intro y l' hy
    obtain ⟨hyx, hy'⟩ := herase y l' hy
    obtain ⟨g1, g2⟩ := hC.links y l' hy'
    refine ⟨g1, ?_⟩
    intro rid
    rw [g2]
    constructor
    · rintro ⟨r, h1, h2⟩
      obtain ⟨r', h3, h4⟩ := hR2 rid r h1
      exact ⟨r', h3, (h4 y).2 ⟨h2, hyx⟩⟩
    · rintro ⟨r', h1, h2⟩
      obtain ⟨r, h3, _, _, h4, _⟩ := hR1 rid r' h1
      exact ⟨r, h3, ((h4 y).1 h2).1⟩
  have hrep : ∀ q ∈ R, q.2.id = q.1 ∧ RepOk gf data q.2 ∧
      (∀ y ∈ q.2.ids, y ∈ W ∧ y ∉ insert x K ∧ P q.1 y) ∧ q.1 ≤ ρ := by
    rintro ⟨rid, r'⟩ hq
    obtain ⟨r, h1, h2, h3, h4, _⟩ := hR1 rid r' hq
    obtain ⟨b1, b2, b3, b4⟩ := hC.rep _ h1
    refine ⟨by simp only; rw [h2]; exact b1, h3, ?_, b4⟩
    intro y hy
    obtain ⟨c1, c2⟩ := (h4 y).1 hy
    obtain ⟨d1, d2, d3⟩ := b3 y c1
    exact ⟨d1, fun h => h.elim c2 d2, d3⟩
  have hlastEq : ∀ r', (ρ, r') ∈ R → ∀ y ∈ W, y ∉ insert x K → y ∈ r'.ids := by
    intro r' hr' y hy hk
    obtain ⟨r, h1, _, _, h4, _⟩ := hR1 ρ r' hr'
    exact (h4 y).2 ⟨hC.lastEq r h1 y hy (fun h => hk (Or.inr h)), fun h => hk (Or.inl h)⟩
  have hfull : ∀ q ∈ R, ∀ y, P q.1 y → y ∉ insert x K → y ∈ q.2.ids := by
    rintro ⟨rid, r'⟩ hq y hP hk
    obtain ⟨r, h1, _, _, h4, _⟩ := hR1 rid r' hq
    exact (h4 y).2 ⟨hC.full _ h1 y hP (fun h => hk (Or.inr h)), fun h => hk (Or.inl h)⟩
  have hnest : Nest R (s1.missing.erase x) := by
    constructor
    · rintro ⟨rid, r'⟩ hq y hy z hz hzy
      obtain ⟨r, h1, _, _, h4, _⟩ := hR1 rid r' hq
      rw [mem_keys_erase, f_mis] at hz
      exact (h4 z).2 ⟨hcnt.seg _ h1 y ((h4 y).1 hy).1 z hz.1 hzy, hz.2⟩
    · rintro ⟨rid, r'⟩ hq ⟨rid2, r2'⟩ hq2 hle y hy
      obtain ⟨r, h1, _, _, h4, _⟩ := hR1 rid r' hq
      obtain ⟨r2, h1', _, _, h4', _⟩ := hR1 rid2 r2' hq2
      have := (h4 y).1 hy
      exact (h4' y).2 ⟨hcnt.mono _ h1 _ h1' hle this.1, this.2⟩
  have hS1 : SrcInv data L K s1 := ⟨by rw [f_src]; exact hC.srcSorted, by rw [f_src]; exact hC.srcGet⟩
  have hfilter : ∀ rid r', (rid, r') ∈ R → ∃ r, (rid, r) ∈ s.repairs ∧ r'.ids = r.ids.filter (fun y => decide (y ≠ x)) := by
    intro rid r' hr'
    obtain ⟨r, h1, _, h3, h4, _⟩ := hR1 rid r' hr'
    refine ⟨r, h1, sorted_ext h3.sorted ((hC.rep _ h1).2.1.sorted.filter _) (fun y => ?_)⟩
    rw [h4, List.mem_filter]; simp
  by_cases hone : ∃ q, s.repairs = [q] ∧ x ∈ q.2.ids ∧ q.2.ids.length = 2
  · -- the repair is alone and now encodes one source only
    obtain ⟨⟨rid, r⟩, hreps, hxr, hlen2⟩ := hone
    have hr : (rid, r) ∈ s.repairs := by rw [hreps]; simp
    obtain ⟨r2, hRe⟩ : ∃ r2, R = [(rid, r2)] := by
      rw [hreps] at kR
      match hh : R, kR with
      | [q], h => exact ⟨q.2, by simp at h; rw [← h]⟩
    obtain ⟨r0, h1, f_id, ok', hmem2, hl2, _⟩ := hR1 rid r2 (by rw [hRe]; simp)
    rw [hreps] at h1
    have hr0 : r0 = r := by simpa using h1
    subst hr0
    obtain ⟨y, hy⟩ : ∃ y, r2.ids = [y] := by
      have := hl2 hxr
      match hh : r2.ids with
      | [] => rw [hh] at this; simp at this; simp only at hlen2; omega
      | [y] => exact ⟨y, rfl⟩
      | _ :: _ :: _ => rw [hh] at this; simp at this; simp only at hlen2; omega
    have hyr : y ∈ r0.ids ∧ y ≠ x := (hmem2 y).1 (by rw [hy]; simp)
    obtain ⟨a1, a2, a3, a4⟩ := hC.rep _ hr
    obtain ⟨c1, c2, c3⟩ := a3 y hyr.1
    have hyx : y ∉ insert x K := by
      rintro (h | h)
      · exact hyr.2 h
      · exact c2 h
    -- the missing sources
    generalize hm1 : s1.missing.erase x = m1 at *
    have hm1s : m1.SortedKeys := by rw [← hm1, f_mis]; exact sorted_erase hC.misSorted _
    have hm1k : ∀ z, z ∈ m1.map (·.1) ↔ z ∈ W ∧ z ∉ insert x K := by
      intro z
      rw [← hm1, mem_keys_erase, f_mis, hC.misKeys, Set.mem_insert_iff]
      tauto
    have hym : y ∈ m1.map (·.1) := (hm1k y).2 ⟨c1, hyx⟩
    obtain ⟨ly, hly⟩ := (get?_isSome_iff _ _).2 hym
    have hly2 : ly = [rid] := by
      obtain ⟨g1, g2⟩ := hlinks y ly hly
      apply sorted_ext g1 (by simp)
      intro z
      rw [g2, hRe]
      simp only [List.mem_singleton, Prod.mk.injEq]
      constructor
      · rintro ⟨_, ⟨h, _⟩, _⟩; exact h
      · rintro rfl; exact ⟨r2, ⟨rfl, rfl⟩, by rw [hy]; simp⟩
    subst hly2
    have hhead : m1.keys.head? = some y := by
      rw [OMap.keys_eq]
      match hh : m1.map (·.1) with
      | [] => rw [hh] at hym; simp at hym
      | a :: u =>
        have hs := hm1s
        unfold OMap.SortedKeys at hs
        rw [hh] at hs hym
        rcases List.mem_cons.1 hym with e | e
        · rw [hh, e]; rfl
        · have h1 := (List.pairwise_cons.1 hs).1 y e
          have h2 : a ∈ r2.ids := hnest.seg (rid, r2) (by rw [hRe]; simp) y (by rw [hy]; simp) a (by rw [hh]; simp) (by omega)
          rw [hy] at h2
          simp only [List.mem_singleton] at h2
          omega
    have ecr := createSource_ok gf hv dbg data r2 ok' y hy
    obtain ⟨g, rfl⟩ : ∃ g, f = g + 2 := ⟨f - 2, by omega⟩
    -- the state in which the second source is added
    let s3 : Dec := { s1 with nbDecoded := s1.nbDecoded + 1, repairs := [], missing := m1.erase y }
    have hlinks3 : LinksOk s3.repairs s3.missing := by
      intro z l' hz
      have hz' : (m1.erase y).get? z = some l' := hz
      rw [get?_erase] at hz'
      split at hz'
      · cases hz'
      · next hzy =>
        obtain ⟨g1, g2⟩ := hlinks z l' hz'
        refine ⟨g1, fun rr => ?_⟩
        rw [g2, hRe]
        constructor
        · rintro ⟨r', h1, h2⟩
          simp only [List.mem_singleton, Prod.mk.injEq] at h1
          obtain ⟨_, rfl⟩ := h1
          rw [hy] at h2
          simp only [List.mem_singleton] at h2
          exact absurd h2 hzy
        · rintro ⟨r', h1, _⟩
          have : (rr, r') ∈ ([] : OMap DRepair) := h1
          simp at this
    have hlen3 : s3.missing.length + 1 = m1.length := length_erase_of_mem _ hm1s _ hym
    have hS3 : SrcInv data L K s3 := ⟨hS1.srcSorted, hS1.srcGet⟩
    have hio3 : s3.inOrder = false := by show s1.inOrder = false; rw [f_io, hio]
    have ey := addSource_bare (gf := gf) (data := data) dbg s3 hio3 rfl hlinks3 y
      (by show (m1.erase y).get? y = none; rw [get?_erase, if_pos rfl]) (srcInv_has hS3 y c2) g (by omega)
    let s4 : Dec := { s3.callback ⟨y, data y⟩ with sources := s3.sources.emplace y ⟨y, data y⟩ }
    have e1 : OMap.erase [(rid, r2)] rid = [] := by simp [OMap.erase]
    have hnext : ∀ k : Option Nat, (∀ z, k = some z → z ∈ s4.missing.map (·.1)) →
        scanMissing gf dbg (g + 1) k s4 = .ok s4 := by
      intro k hk
      apply scan_noop gf dbg s4 hlinks3
      · simp [OMap.SortedKeys, s4, s3, Dec.callback]
      · intro _ rr r' _ hr'
        have : (rr, r') ∈ ([] : OMap DRepair) := hr'
        simp at this
      · exact hk
      · intro z _
        have h1 := List.length_filter_le (fun u => decide (z ≤ u)) (s4.missing.map (·.1))
        rw [List.length_map] at h1
        have h2 : s4.missing.length = s3.missing.length := rfl
        omega
    have escan : scanMissing gf dbg (g + 2) (some y)
        { s1 with repairs := R, missing := m1 } = .ok s4 := by
      unfold scanMissing
      simp only [hly, hRe, get?_cons, if_true]
      rw [if_pos (by rw [hy]; rfl)]
      rw [cassert_true _ (by
        rw [f_last, hy]
        cases hl : s.lastId with
        | none => rfl
        | some l0 =>
          have := hlast l0 hl
          have := hC.lo y c1
          simp; omega)]
      have hh : s1.sources.has y = false := srcInv_has hS1 y c2
      rw [cassert_true _ (by simp [hy, hh])]
      simp only [bind, Except.bind, ecr]
      rw [e1]
      simp only [s3] at ey
      rw [ey]
      exact hnext _ (fun z hz => (next?_mem hz).1)
    have hS4 : SrcInv data L (insert y K) s4 :=
      ⟨(srcInv_insert hS3 y c2 (hC.lo y c1)).srcSorted, (srcInv_insert hS3 y c2 (hC.lo y c1)).srcGet⟩
    have hxy : x ∉ insert y K := by
      rintro (h | h)
      · exact hyr.2 h.symm
      · exact hx h
    have hS5 := srcInv_insert hS4 x hxy hLx
    have hset : insert x (insert y K) = insert y (insert x K) := Set.insert_comm _ _ _
    have hL3 : LogInv data L (insert x K) s3 := hL1.congr rfl rfl rfl rfl
    have hL4 : LogInv data L (insert y (insert x K)) (s3.callback ⟨y, data y⟩) := by
      apply give_unord hL3 hio3 y hyx (hb y c1)
      intro z hz
      have : z ∈ K := hS3.keys z hz
      exact Or.inr (Or.inr this)
    have etail : addSource gf dbg (g + 2 + 1) ⟨x, data x⟩ s
        = .ok { s4 with sources := s4.sources.emplace x ⟨x, data x⟩ } := by
      conv_lhs => unfold addSource
      simp only [e2, bind, Except.bind]
      rw [hhead, escan]
      simp only
      unfold addSourceTail
      rw [cassert_true _ (by rw [srcInv_has hS4 x hxy]; rfl)]
      have hio4 : s4.inOrder = false := hio3
      simp only [bind, Except.bind, hio4]
      rfl
    refine ⟨_, insert x (insert y K), etail, ?_, ?_, ?_, f_last, f_io, ?_, ?_, ?_, ?_⟩
    · refine ⟨hS5.srcSorted, hS5.srcGet, ?_, ?_, ?_, ?_, hlinks3, ?_, hC.lo, hC.dataOk, ?_⟩
      · exact sorted_erase hm1s _
      · intro z
        show z ∈ (m1.erase y).map (·.1) ↔ _
        rw [mem_keys_erase, hm1k]
        simp only [Set.mem_insert_iff]
        tauto
      · show OMap.SortedKeys []
        simp [OMap.SortedKeys]
      · intro q hq
        have : q ∈ ([] : OMap DRepair) := hq
        simp at this
      · intro r' hr'
        have : (ρ, r') ∈ ([] : OMap DRepair) := hr'
        simp at this
      · intro q hq
        have : q ∈ ([] : OMap DRepair) := hq
        simp at this
    · exact (cnt_nil _).weak
    · rw [hset]; exact hL4.congr rfl rfl rfl rfl
    · rintro z (hz | hz)
      · exact Or.inl hz
      · exact Or.inr (Or.inr hz)
    · rintro z (hz | hz | hz)
      · exact Or.inl (Or.inl hz)
      · exact Or.inr (by rw [hz]; exact c1)
      · exact Or.inl (Or.inr hz)
    · intro _ q hq
      have : q ∈ ([] : OMap DRepair) := hq
      simp at this
    · intro h
      rw [hreps] at h; simp at h
  · -- nothing is decoded
    have hscan : scanMissing gf dbg f (s1.missing.erase x).keys.head? { s1 with repairs := R, missing := s1.missing.erase x } =
        .ok { s1 with repairs := R, missing := s1.missing.erase x } := by
      apply scan_noop' gf dbg { s1 with repairs := R, missing := s1.missing.erase x } hlinks hRs
      · intro z rid r' hz hr' hlen1
        obtain ⟨hzx, hz'⟩ := herase z _ hz
        obtain ⟨r, h1, _, h3, h4, h5, h6⟩ := hR1 rid r' hr'
        have htwo := hcnt.two _ h1
        simp only at htwo
        have hxr : x ∈ r.ids := by
          by_contra hc
          rw [h6 hc] at hlen1; omega
        have hlr := h5 hxr
        have hzr : z ∈ r.ids := by
          obtain ⟨r0, g1, g2⟩ := ((hlinks z _ hz).2 rid).1 (by simp)
          have e1 := get?_of_mem hRs g1
          rw [get?_of_mem hRs hr'] at e1
          rw [← Option.some.inj e1] at g2
          exact ((h4 z).1 g2).1
        apply hone
        refine ⟨(rid, r), ?_, hxr, by simp only; omega⟩
        have hall : ∀ q ∈ s.repairs, q.1 = rid := by
          intro q hq
          have hs := hC.pair_mem hcnt.toNest h1 hq (by simp only; omega) (hcnt.two q hq)
          have : q.1 ∈ [rid] := ((hC.links z _ hz').2 q.1).2 ⟨q.2, hq, hs hzr⟩
          simpa using this
        match hh : s.repairs with
        | [] => rw [hh] at h1; simp at h1
        | [q] => rw [hh] at h1; simp at h1; rw [h1]
        | q1 :: q2 :: u =>
          have hs := hC.repSorted
          unfold OMap.SortedKeys at hs
          rw [hh] at hs hall
          simp only [List.map_cons] at hs
          have g1 := (List.pairwise_cons.1 hs).1 q2.1 (by simp)
          have g2 := hall q1 (by simp)
          have g3 := hall q2 (by simp)
          omega
      · show (s1.missing.erase x).length ≤ f
        omega
    have e3 : addSource gf dbg (f + 1) ⟨x, data x⟩ s = .ok { s1 with
        repairs := R, missing := s1.missing.erase x, sources := s1.sources.emplace x ⟨x, data x⟩ } := by
      conv_lhs => unfold addSource
      simp only [e2, bind, Except.bind]
      rw [hscan]
      simp only
      unfold addSourceTail
      rw [cassert_true _ (by
        show (!s1.sources.has x) = true
        rw [srcInv_has hS1 x hx]; rfl)]
      have hio2 : s1.inOrder = false := by rw [f_io, hio]
      simp only [bind, Except.bind, hio2]
      rfl
    have hS2 := srcInv_insert hS1 x hx hLx
    refine ⟨_, insert x K, e3, ⟨hS2.srcSorted, hS2.srcGet, ?_, ?_, hRs, hrep, hlinks, hlastEq, hC.lo, hC.dataOk, hfull⟩, ?_,
      hL1.congr rfl rfl rfl rfl, f_last, f_io, subset_rfl, Set.subset_union_left, ?_, ?_⟩
    · show (s1.missing.erase x).SortedKeys
      rw [f_mis]; exact sorted_erase hC.misSorted _
    · intro y
      show y ∈ (s1.missing.erase x).map (·.1) ↔ _
      rw [mem_keys_erase, f_mis, hC.misKeys, Set.mem_insert_iff]
      tauto
    · refine ⟨hnest, ?_, ?_⟩
      · show R.length ≤ (s1.missing.erase x).length
        rcases Nat.eq_zero_or_pos s.repairs.length with h0 | h0
        · omega
        · have := hcnt.lt (List.ne_nil_of_length_pos h0)
          omega
      · show R ≠ [] → 2 ≤ (s1.missing.erase x).length
        intro hne
        have h0 : 0 < s.repairs.length := by rw [← hRlen]; exact List.length_pos_of_ne_nil hne
        have hlt := hcnt.lt (List.ne_nil_of_length_pos h0)
        rcases Nat.lt_or_ge s.repairs.length 2 with h2 | h2
        · obtain ⟨⟨rid, r⟩, hq⟩ : ∃ q, s.repairs = [q] := List.length_eq_one_iff.1 (by omega)
          have hr : (rid, r) ∈ s.repairs := by rw [hq]; simp
          have htwo := hcnt.two _ hr
          have hle := hC.ids_le hr
          simp only at htwo hle
          by_cases hxr : x ∈ r.ids
          · have : r.ids.length ≠ 2 := fun h => hone ⟨_, hq, hxr, h⟩
            omega
          · -- `x` and the sources of the repair are missing
            have hn : (x :: r.ids).Nodup := List.nodup_cons.2 ⟨hxr, (hC.rep _ hr).2.1.sorted.imp (fun h => Nat.ne_of_lt h)⟩
            have hsub : x :: r.ids ⊆ s.missing.map (·.1) := by
              intro y hy
              rcases List.mem_cons.1 hy with rfl | hy
              · exact hxm
              · have := (hC.rep _ hr).2.2.1 y hy
                exact (hC.misKeys y).2 ⟨this.1, this.2.1⟩
            have := (hn.subperm hsub).length_le
            rw [List.length_cons, List.length_map] at this
            omega
        · omega
    · intro hA
      show ∀ q ∈ R, _
      rintro ⟨rid, r'⟩ hq
      obtain ⟨r, h1, _, _, _, h5, h6⟩ := hR1 rid r' hq
      have htwo := hcnt.two _ h1
      simp only at htwo ⊢
      by_cases hxr : x ∈ r.ids
      · have := h5 hxr
        by_contra hc
        apply hone
        have h2 : r.ids.length = 2 := by omega
        refine ⟨(rid, r), ?_, hxr, h2⟩
        have hall : ∀ q ∈ s.repairs, q.1 = rid := fun q hq =>
          hA _ h1 q hq hxr (hC.pair_mem hcnt.toNest h1 hq h2 (hcnt.two q hq) hxr) h2
        match hh : s.repairs with
        | [] => rw [hh] at h1; simp at h1
        | [q] => rw [hh] at h1; simp at h1; rw [h1]
        | q1 :: q2 :: u =>
          have hs := hC.repSorted
          unfold OMap.SortedKeys at hs
          rw [hh] at hs hall
          simp only [List.map_cons] at hs
          have g1 := (List.pairwise_cons.1 hs).1 q2.1 (by simp)
          have g2 := hall q1 (by simp)
          have g3 := hall q2 (by simp)
          omega
      · rw [h6 hxr]; exact htwo
    · intro _
      refine ⟨rfl, ?_, kR, hfilter⟩
      show s1.missing.erase x = _
      rw [f_mis]

/-- `operator()(decoder_source&&)`. -/
theorem onSource_ok (dbg : Bool) (hv : ValidW w) (h : DInv gf data P ρ L W K s) (x : Nat) (hb : x + 1 < 2 ^ 32)
    (hx : x ∈ K ∨ x < L ∨ x ∉ W ∨ (s.inOrder = false ∧ s.NoClash gf x)) :
    ∃ s' K', s.onSource gf dbg ⟨x, data x⟩ = .ok s' ∧ DInv gf data P ρ L W K' s' ∧ s'.inOrder = s.inOrder ∧
      K ⊆ K' ∧ K' ⊆ insert x K ∪ W ∧ (L ≤ x → x ∈ K') := by
  unfold Dec.onSource
  simp only
  by_cases hlt : x < L
  · have : s.lastId = some L := by
      rcases h.last with ⟨_, h1, _⟩ | h1
      · omega
      · exact h1
    rw [this]
    simp only [Option.any_some, hlt, decide_true, if_true]
    exact ⟨s, K, rfl, h, rfl, subset_rfl, fun y hy => Or.inl (Or.inr hy), fun h => by omega⟩
  · have e1 : s.lastId.any (fun l => decide (x < l)) = false := by
      rcases h.last with ⟨h1, _, _⟩ | h1
      · rw [h1]; rfl
      · rw [h1]; simpa using hlt
    rw [e1]
    simp only [Bool.false_eq_true, if_false]
    by_cases hK : x ∈ K
    · rw [if_pos ((h.core.has_src x).2 ⟨hK, by omega⟩)]
      exact ⟨s, K, rfl, h, rfl, subset_rfl, fun y hy => Or.inl (Or.inr hy), fun _ => hK⟩
    · have hnh : s.sources.has x = false := not_has h.core x hK
      rw [if_neg (by rw [hnh]; simp)]
      have hfuel : s.missing.length + 3 ≤ s.fuel := by
        unfold Dec.fuel
        calc s.missing.length + 3 = 1 * (s.missing.length + 3) := by omega
          _ ≤ _ := Nat.mul_le_mul_right _ (by omega)
      have hlast : ∀ l, s.lastId = some l → l = L := by
        intro l hl
        rcases h.last with ⟨h1, _, _⟩ | h1
        · rw [h1] at hl; cases hl
        · rw [h1] at hl; exact (Option.some.inj hl).symm
      have key : ∃ s1 K1, addSource gf dbg s.fuel ⟨x, data x⟩ s = .ok s1 ∧ Core gf data P ρ L W K1 s1 ∧
          WCnt s1.repairs s1.missing ∧ LogInv data L K1 s1 ∧ s1.lastId = s.lastId ∧ s1.inOrder = s.inOrder ∧
          insert x K ⊆ K1 ∧ K1 ⊆ insert x K ∪ W ∧
          ((∀ q ∈ s1.repairs, 2 ≤ q.2.ids.length) ∨ (s1.repairs ≠ [] ∧ s1.repairs.length = s1.missing.length ∧
            ∃ inv, invert gf s1.repairs.length (coeffMatrix w s1.repairs s1.missing) = .ok inv)) := by
        by_cases hW : x ∈ W
        · obtain ⟨h1, h2⟩ : s.inOrder = false ∧ s.NoClash gf x := by tauto
          obtain ⟨s1, K1, e, a1, a2, a3, a4, a5, a6, a7, a8, a9⟩ :=
            addSource_late dbg hv h.core h.cnt h.log h1 x hK hW h.bound hlast _ hfuel
          refine ⟨s1, K1, e, a1, a2, a3, a4, a5, a6, a7, ?_⟩
          rcases h2 with h2 | ⟨h2, h3⟩
          · exact Or.inl (a8 h2)
          · rcases Nat.lt_or_ge s.repairs.length 2 with hl | hl
            · left
              apply a8
              intro q hq q' hq' _ _ _
              match hh : s.repairs with
              | [] => rw [hh] at hq; simp at hq
              | [p] => rw [hh] at hq hq'; simp at hq hq'; rw [hq, hq']
              | _ :: _ :: _ => rw [hh] at hl; simp at hl
            · right
              obtain ⟨_, b2, b3, b4⟩ := a9 hl
              have hxm : x ∈ s.missing.map (·.1) := (h.core.misKeys x).2 ⟨hW, hK⟩
              have hlen : s1.repairs.length = s.repairs.length := by
                have := congrArg List.length b3
                simpa using this
              have hml : s1.missing.length + 1 = s.missing.length := by
                rw [b2]; exact length_erase_of_mem _ h.core.misSorted _ hxm
              have hU : s1.missing.map (·.1) = s.missing.keys.filter (fun y => decide (y ≠ x)) := by
                rw [b2]
                apply sorted_ext (sorted_erase h.core.misSorted x)
                · exact h.core.misSorted.filter _
                · intro y
                  rw [mem_keys_erase, List.mem_filter, OMap.keys_eq]; simp
              have hUs : (s1.missing.map (·.1)).Pairwise (· < ·) := by rw [b2]; exact sorted_erase h.core.misSorted x
              refine ⟨List.ne_nil_of_length_pos (by omega), by omega, ?_⟩
              cases hinv : invert gf s1.repairs.length (coeffMatrix w s1.repairs s1.missing) with
              | ok inv => exact ⟨inv, rfl⟩
              | error c =>
                exfalso
                refine no_kernel (gf := gf) rfl hUs (by simp) (by simp; omega) ?_ hinv
                intro v hv0 y hy
                rw [hU] at hy hv0
                refine h3 v ?_ y hy
                intro q hq
                obtain ⟨⟨rid, r⟩, hq0, rfl⟩ := List.mem_map.1 hq
                have h1 : rid ∈ s1.repairs.map (·.1) := by rw [b3]; exact List.mem_map_of_mem hq0
                obtain ⟨⟨_, r'⟩, h5, rfl⟩ := List.mem_map.1 h1
                obtain ⟨r0, g1, g2⟩ := b4 _ r' h5
                have e1 := get?_of_mem h.core.repSorted g1
                rw [get?_of_mem h.core.repSorted hq0] at e1
                have e1 := Option.some.inj e1
                subst e1
                have := hv0 _ h5
                rw [← this]
                simp only
                congr 1
                apply List.filter_congr
                intro z hz
                rw [List.mem_filter] at hz
                have hzx : z ≠ x := by simpa using hz.2
                rw [decide_eq_decide, g2, List.mem_filter]
                simp [hzx]
        · obtain ⟨s1, e, a1, a2, a3, a4, a5, a6⟩ :=
            addSource_plain dbg h.core h.cnt.two h.log x hK hW (by omega) hb s.fuel (by omega)
          exact ⟨s1, _, e, a1, by rw [a3, a4]; exact h.cnt.weak, a2, a5, a6, subset_rfl, Set.subset_union_left,
            Or.inl (by rw [a3]; exact h.cnt.two)⟩
      obtain ⟨s1, K1, e, a1, a2, a3, a4, a5, a6, a7, a8⟩ := key
      obtain ⟨s2, K2, e2, b1, b2, b3, b4, b5, b6, b7, _⟩ := fullDecode_ok dbg hv a1 a2 a3 h.bound
      simp only [bind, Except.bind, e]
      have hcnt2 : Cnt s2.repairs s2.missing := by
        apply b2
        rcases a8 with a8 | ⟨a8, a9, inv, a10⟩
        · exact Or.inl a8
        · exact Or.inr (b7 inv a8 a9 a10)
      refine ⟨s2, K2, e2, ⟨b1, hcnt2, b3, by rw [b4, a4]; exact h.last, h.bound⟩, by rw [b5, a5], ?_, ?_, ?_⟩
      · rcases b6 with rfl | rfl
        · exact fun y hy => a6 (Or.inr hy)
        · exact fun y hy => Or.inl (a6 (Or.inr hy))
      · rcases b6 with rfl | rfl
        · exact a7
        · rintro y (hy | hy)
          · exact a7 hy
          · exact Or.inr hy
      · intro _
        rcases b6 with rfl | rfl
        · exact a6 (Or.inl rfl)
        · exact Or.inl (a6 (Or.inl rfl))

end

end Netcode
