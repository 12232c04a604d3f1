import Verif.Proofs.DecLog
import Mathlib.Data.Set.Insert

/-!
# The invariant of the decoder: definitions and basic facts
-/

set_option linter.unusedSectionVars false

namespace Netcode

open OMap

variable {w : Nat}

/-- The links of the missing sources are exactly the repairs that reference them. -/
def LinksOk (R : OMap DRepair) (m : OMap (List Nat)) : Prop :=
  ∀ x l, m.get? x = some l → Sorted l ∧ ∀ rid, rid ∈ l ↔ ∃ r, (rid, r) ∈ R ∧ x ∈ r.ids

theorem LinksOk.alive {R : OMap DRepair} {m : OMap (List Nat)} (h : LinksOk R m) (ids : List Nat) :
    linksAlive R m ids = true := by
  unfold linksAlive
  rw [List.all_eq_true]
  intro x _
  rw [List.all_eq_true]
  intro rid hr
  cases hx : m.get? x with
  | none => rw [hx] at hr; cases hr
  | some l =>
    rw [hx] at hr
    obtain ⟨r, h1, -⟩ := ((h x l hx).2 rid).1 hr
    exact (has_iff _ _).2 (List.mem_map_of_mem h1)

/-- The sources listed by a held repair are the oldest missing ones, and a newer repair lists those of an older one. -/
structure Nest (R : OMap DRepair) (m : OMap (List Nat)) : Prop where
  seg : ∀ q ∈ R, ∀ y ∈ q.2.ids, ∀ x ∈ m.map (·.1), x ≤ y → x ∈ q.2.ids
  mono : ∀ q ∈ R, ∀ q' ∈ R, q.1 ≤ q'.1 → q.2.ids ⊆ q'.2.ids

/-- Between two calls each held repair lists several sources, and there are fewer repairs than missing sources. -/
structure Cnt (R : OMap DRepair) (m : OMap (List Nat)) : Prop extends Nest R m where
  two : ∀ q ∈ R, 2 ≤ q.2.ids.length
  lt : R ≠ [] → R.length < m.length

/-- Before the full decoding. -/
structure WCnt (R : OMap DRepair) (m : OMap (List Nat)) : Prop extends Nest R m where
  le : R.length ≤ m.length
  big : R ≠ [] → 2 ≤ m.length

theorem Nest.sub {R R' : OMap DRepair} {m m' : OMap (List Nat)} (h : Nest R m) (h1 : ∀ q ∈ R', q ∈ R)
    (h2 : ∀ x ∈ m'.map (·.1), x ∈ m.map (·.1)) : Nest R' m' :=
  ⟨fun q hq y hy x hx hxy => h.seg q (h1 q hq) y hy x (h2 x hx) hxy,
    fun q hq q' hq' => h.mono q (h1 q hq) q' (h1 q' hq')⟩

theorem Cnt.weak {R : OMap DRepair} {m : OMap (List Nat)} (hc : Cnt R m) : WCnt R m := by
  refine ⟨hc.toNest, ?_, ?_⟩
  · cases hR : R with
    | nil => simp
    | cons q t => have := hc.lt (by simp [hR]); rw [← hR]; omega
  · intro hne
    have := hc.lt hne
    have := List.length_pos_of_ne_nil hne
    omega

theorem cnt_nil (m : OMap (List Nat)) : Cnt [] m :=
  ⟨⟨fun q hq => by simp at hq, fun q hq => by simp at hq⟩, fun q hq => by simp at hq, fun h => absurd rfl h⟩

variable [Fact (0 < w)]

/-- Invariant of the decoder.  `data x` is the data of source `x`; `P rid x` tells that repair `rid` was
computed from source `x`; `ρ` is the newest repair received; `L` is the oldest source that is not outdated;
`W` the sources of the newest repair; `K` the sources known (received or decoded). -/
structure Core (gf : GF w) (data : Nat → List Byte) (P : Nat → Nat → Prop) (ρ L : Nat) (W K : Set Nat)
    (s : Dec) : Prop where
  srcSorted : s.sources.SortedKeys
  srcGet : ∀ x v, s.sources.get? x = some v ↔ x ∈ K ∧ L ≤ x ∧ v = ⟨x, data x⟩
  misSorted : s.missing.SortedKeys
  misKeys : ∀ x, x ∈ s.missing.map (·.1) ↔ x ∈ W ∧ x ∉ K
  repSorted : s.repairs.SortedKeys
  rep : ∀ q ∈ s.repairs, q.2.id = q.1 ∧ RepOk gf data q.2 ∧ (∀ x ∈ q.2.ids, x ∈ W ∧ x ∉ K ∧ P q.1 x) ∧ q.1 ≤ ρ
  links : LinksOk s.repairs s.missing
  lastEq : ∀ r, (ρ, r) ∈ s.repairs → ∀ x ∈ W, x ∉ K → x ∈ r.ids
  lo : ∀ x ∈ W, L ≤ x
  dataOk : ∀ x ∈ W, DataOk w (data x)
  full : ∀ q ∈ s.repairs, ∀ x, P q.1 x → x ∉ K → x ∈ q.2.ids

section
variable {gf : GF w} {data : Nat → List Byte} {P : Nat → Nat → Prop} {ρ L : Nat} {W K : Set Nat} {s : Dec}

theorem Core.has_src (h : Core gf data P ρ L W K s) (x : Nat) : s.sources.has x = true ↔ x ∈ K ∧ L ≤ x := by
  rw [has_iff, ← get?_isSome_iff]
  constructor
  · rintro ⟨v, hv⟩
    have := (h.srcGet x v).1 hv
    exact ⟨this.1, this.2.1⟩
  · rintro ⟨h1, h2⟩
    exact ⟨_, (h.srcGet x _).2 ⟨h1, h2, rfl⟩⟩

theorem Core.src_keys (h : Core gf data P ρ L W K s) (x : Nat) (hx : x ∈ s.sources.keys) : x ∈ K :=
  ((h.has_src x).1 ((has_iff _ _).2 hx)).1

theorem Core.get_src (h : Core gf data P ρ L W K s) {x : Nat} (h1 : x ∈ K) (h2 : L ≤ x) :
    s.sources.get? x = some ⟨x, data x⟩ := (h.srcGet x _).2 ⟨h1, h2, rfl⟩

/-- The number of sources in a repair is at most the number of missing ones. -/
theorem Core.ids_le (h : Core gf data P ρ L W K s) {q : Nat × DRepair} (hq : q ∈ s.repairs) :
    q.2.ids.length ≤ s.missing.length := by
  have h1 : q.2.ids.Nodup := (h.rep q hq).2.1.sorted.imp (fun h => Nat.ne_of_lt h)
  have h2 : q.2.ids ⊆ s.missing.map (·.1) := by
    intro x hx
    have := (h.rep q hq).2.2.1 x hx
    exact (h.misKeys x).2 ⟨this.1, this.2.1⟩
  have := (h1.subperm h2).length_le
  simpa using this

theorem Core.ids_last (h : Core gf data P ρ L W K s) {r : DRepair} (hq : (ρ, r) ∈ s.repairs) :
    r.ids = s.missing.map (·.1) := by
  apply sorted_ext (h.rep _ hq).2.1.sorted h.misSorted
  intro x
  rw [h.misKeys]
  constructor
  · intro hx
    have := (h.rep _ hq).2.2.1 x hx
    exact ⟨this.1, this.2.1⟩
  · rintro ⟨h1, h2⟩
    exact h.lastEq r hq x h1 h2

/-- Two repairs that list several sources both list the two oldest missing ones. -/
theorem Core.pair_mem (h : Core gf data P ρ L W K s) (hN : Nest s.repairs s.missing) {q q' : Nat × DRepair}
    (hq : q ∈ s.repairs) (hq' : q' ∈ s.repairs) (h2 : q.2.ids.length = 2) (h2' : 2 ≤ q'.2.ids.length) :
    q.2.ids ⊆ q'.2.ids := by
  have hs := (h.rep q hq).2.1.sorted
  have hs' := (h.rep q' hq').2.1.sorted
  have hm : ∀ x ∈ q.2.ids, x ∈ s.missing.map (·.1) := fun x hx => by
    have := (h.rep q hq).2.2.1 x hx
    exact (h.misKeys x).2 ⟨this.1, this.2.1⟩
  have hm' : ∀ x ∈ q'.2.ids, x ∈ s.missing.map (·.1) := fun x hx => by
    have := (h.rep q' hq').2.2.1 x hx
    exact (h.misKeys x).2 ⟨this.1, this.2.1⟩
  intro x hx
  by_contra hc
  -- every source of the other repair is older than `x`, hence listed by the first one
  have hsub : q'.2.ids ⊆ q.2.ids.erase x := by
    intro y hy
    have hyx : y < x := by
      by_contra hle
      exact hc (hN.seg q' hq' y hy x (hm x hx) (by omega))
    rw [mem_erase_sorted hs]
    exact ⟨hN.seg q hq x hx y (hm' y hy) (by omega), by omega⟩
  have hn : q'.2.ids.Nodup := hs'.imp (fun h => Nat.ne_of_lt h)
  have hl := (hn.subperm hsub).length_le
  have := length_erase_sorted x hx
  omega

/-- Without missing sources no repair is held. -/
theorem Core.rep_nil (_ : Core gf data P ρ L W K s) (hc : WCnt s.repairs s.missing) (hm : s.missing = []) :
    s.repairs = [] := by
  have := hc.le
  rw [hm] at this
  exact List.length_eq_zero_iff.1 (by simpa using this)

/-- `Core` only depends on these fields. -/
theorem Core.congr (h : Core gf data P ρ L W K s) {s' : Dec} (h1 : s'.sources = s.sources)
    (h2 : s'.missing = s.missing) (h3 : s'.repairs = s.repairs) : Core gf data P ρ L W K s' := by
  constructor
  · rw [h1]; exact h.srcSorted
  · rw [h1]; exact h.srcGet
  · rw [h2]; exact h.misSorted
  · rw [h2]; exact h.misKeys
  · rw [h3]; exact h.repSorted
  · rw [h3]; exact h.rep
  · rw [h2, h3]; exact h.links
  · rw [h3]; exact h.lastEq
  · exact h.lo
  · exact h.dataOk
  · rw [h3]; exact h.full

end

theorem LogInv.congr {data : Nat → List Byte} {L : Nat} {K : Set Nat} {s s' : Dec} (h : LogInv data L K s)
    (h1 : s'.log = s.log) (h2 : s'.ordered = s.ordered) (h3 : s'.firstMissing = s.firstMissing)
    (h4 : s'.inOrder = s.inOrder) : LogInv data L K s' := by
  have e : s'.logIds = s.logIds := by unfold Dec.logIds; rw [h1]
  constructor
  · constructor
    · rw [h1]; exact h.logData
    · rw [h1]; exact h.held
    · exact h.bound
  · rw [h4, e, h2]; exact h.unord
  · rw [h4, h3]
    intro hi
    obtain ⟨a, b⟩ := h.ord hi
    refine ⟨?_, b⟩
    constructor
    · rw [e]; exact a.logSorted
    · rw [e, h3]; exact a.logMem
    · rw [h2]; exact a.ordSorted
    · rw [h2, h3]; exact a.ordMem
    · rw [h3]; exact a.lo
    · rw [h3]; exact a.full

/-! ## Giving one more source -/

section
variable {data : Nat → List Byte} {L : Nat} {K : Set Nat} {s : Dec}

theorem logOk_callback (h : LogOk data K s) (x : Nat) (hb : x + 1 < 2 ^ 32)
    (hkeys : ∀ y ∈ s.sources.keys, y ∈ insert x K) : LogOk data (insert x K) (s.callback ⟨x, data x⟩) := by
  constructor
  · intro ev hev
    rcases List.mem_append.1 hev with hev | hev
    · exact h.logData ev hev
    · simp only [List.mem_singleton] at hev; subst hev; rfl
  · intro ev hev
    rcases List.mem_append.1 hev with hev | hev
    · exact fun y hy => Or.inr (h.held ev hev y hy)
    · simp only [List.mem_singleton] at hev; subst hev; exact hkeys
  · rintro y (rfl | hy)
    · exact hb
    · exact h.bound y hy

theorem logOk_insert (h : LogOk data K s) (x : Nat) (hb : x + 1 < 2 ^ 32) : LogOk data (insert x K) s := by
  constructor
  · exact h.logData
  · exact fun ev hev y hy => Or.inr (h.held ev hev y hy)
  · rintro y (rfl | hy)
    · exact hb
    · exact h.bound y hy

theorem give_unord (h : LogInv data L K s) (hio : s.inOrder = false) (x : Nat) (hx : x ∉ K) (hb : x + 1 < 2 ^ 32)
    (hkeys : ∀ y ∈ s.sources.keys, y ∈ insert x K) : LogInv data L (insert x K) (s.callback ⟨x, data x⟩) := by
  obtain ⟨h1, h2, h3⟩ := h.unord hio
  refine ⟨logOk_callback h.toLogOk x hb hkeys, ?_, ?_⟩
  · intro _
    rw [callback_logIds]
    refine ⟨?_, ?_, h3⟩
    · rw [List.nodup_append]
      refine ⟨h1, by simp, ?_⟩
      intro a ha b hb
      simp only [List.mem_singleton] at hb
      subst hb
      rintro rfl
      exact hx ((h2 _).1 ha)
    · intro y
      rw [List.mem_append, h2, List.mem_singleton, Set.mem_insert_iff]
      tauto
  · intro hc
    rw [show (s.callback ⟨x, data x⟩).inOrder = s.inOrder from rfl, hio] at hc
    cases hc

theorem give_flush (dbg : Bool) (h : LogInv data L K s) (hio : s.inOrder = true) (x : Nat) (hx : x ∉ K)
    (hb : x + 1 < 2 ^ 32) (hfm : x = s.firstMissing)
    (hsrc : ∀ y ∈ s.ordered, s.sources.get? y = some ⟨y, data y⟩) (hkeys : ∀ y ∈ s.sources.keys, y ∈ insert x K) :
    ∃ s', Dec.flush dbg { s.callback ⟨x, data x⟩ with firstMissing := (s.firstMissing + 1) % 2 ^ 32 } = .ok s' ∧
      SameCore s s' ∧ LogInv data L (insert x K) s' ∧ x < s'.firstMissing := by
  obtain ⟨hp, hfmK⟩ := h.ord hio
  have hmod : (s.firstMissing + 1) % 2 ^ 32 = s.firstMissing + 1 := Nat.mod_eq_of_lt (by omega)
  generalize hs1 : ({ s.callback ⟨x, data x⟩ with firstMissing := (s.firstMissing + 1) % 2 ^ 32 } : Dec) = s1
  have f_fm : s1.firstMissing = s.firstMissing + 1 := by rw [← hs1]; exact hmod
  have f_ord : s1.ordered = s.ordered := by rw [← hs1]; rfl
  have f_log : s1.log = (s.callback ⟨x, data x⟩).log := by rw [← hs1]
  have f_ids : s1.logIds = s.logIds ++ [x] := by
    rw [← callback_logIds s ⟨x, data x⟩]; unfold Dec.logIds; rw [f_log]
  have f_src : s1.sources = s.sources := by rw [← hs1]; rfl
  have f_core : SameCore s s1 := by
    constructor
    · rw [← hs1]; rfl
    · rw [f_log]; exact List.prefix_append _ _
  have hk1 : LogOk data (insert x K) s1 := by
    have := logOk_callback h.toLogOk x hb hkeys
    exact ⟨by rw [f_log]; exact this.logData, by rw [f_log]; exact this.held, this.bound⟩
  have hp1 : OrdPre L (insert x K) s1 := by
    constructor
    · rw [f_ids]
      exact sorted_append_singleton hp.logSorted (fun y hy => by have := ((hp.logMem y).1 hy).2; omega)
    · intro y
      rw [f_ids, f_fm, List.mem_append, hp.logMem, List.mem_singleton, Set.mem_insert_iff]
      constructor
      · rintro (⟨a, b⟩ | rfl)
        · exact ⟨Or.inr a, by omega⟩
        · exact ⟨Or.inl rfl, by omega⟩
      · rintro ⟨rfl | a, b⟩
        · exact Or.inr rfl
        · by_cases hy : y = s.firstMissing
          · subst hy; exact absurd a hfmK
          · exact Or.inl ⟨a, by omega⟩
    · rw [f_ord]; exact hp.ordSorted
    · intro y
      rw [f_ord, f_fm, hp.ordMem, Set.mem_insert_iff]
      constructor
      · rintro ⟨a, b⟩
        refine ⟨Or.inr a, ?_⟩
        have : y ≠ s.firstMissing := by rintro rfl; exact hfmK a
        omega
      · rintro ⟨rfl | a, b⟩
        · omega
        · exact ⟨a, by omega⟩
    · rw [f_fm]; have := hp.lo; omega
    · intro y a b
      rw [f_fm] at b
      by_cases hy : y = s.firstMissing
      · left; omega
      · right; exact hp.full y a (by omega)
  obtain ⟨s', e, c, r1, r2, r3⟩ := flush_ok data dbg L (insert x K) s1 hp1 hk1
    (by rw [f_ord, f_src]; exact hsrc) (by rw [f_src]; exact hkeys)
  have c' := f_core.trans c
  refine ⟨s', e, c', ⟨r3, ?_, fun _ => ⟨r1, r2⟩⟩, ?_⟩
  · intro hc
    rw [c'.inOrder, hio] at hc; cases hc
  · by_contra hlt
    have h1 : x ∉ s'.logIds := fun hm => by have := ((r1.logMem x).1 hm).2; omega
    apply h1
    obtain ⟨t, ht⟩ := c.2
    unfold Dec.logIds
    rw [← ht, List.map_append, List.mem_append]
    left
    have : x ∈ s1.logIds := by rw [f_ids]; simp
    exact this

theorem give_hold (h : LogInv data L K s) (hio : s.inOrder = true) (x : Nat) (hx : x ∉ K) (hL : L ≤ x)
    (hb : x + 1 < 2 ^ 32) (hfm : x ≠ s.firstMissing) :
    s.firstMissing < x ∧ LogInv data L (insert x K) { s with ordered := setInsert s.ordered x } := by
  obtain ⟨hp, hfmK⟩ := h.ord hio
  have hle := hp.fm_le hL hx
  have hlt : s.firstMissing < x := by omega
  refine ⟨hlt, ?_, ?_, ?_⟩
  · have := logOk_insert h.toLogOk x hb
    exact ⟨this.logData, this.held, this.bound⟩
  · intro hc
    have : s.inOrder = false := hc
    rw [hio] at this; cases this
  · intro _
    refine ⟨?_, ?_⟩
    · constructor
      · exact hp.logSorted
      · intro y
        have := hp.logMem y
        rw [Set.mem_insert_iff]
        show y ∈ s.logIds ↔ _ ∧ y < s.firstMissing
        rw [this]
        constructor
        · rintro ⟨a, b⟩; exact ⟨Or.inr a, b⟩
        · rintro ⟨rfl | a, b⟩
          · omega
          · exact ⟨a, b⟩
      · exact sorted_setInsert _ hp.ordSorted _
      · intro y
        show y ∈ setInsert s.ordered x ↔ _ ∧ s.firstMissing ≤ y
        rw [mem_setInsert, hp.ordMem, Set.mem_insert_iff]
        constructor
        · rintro (rfl | ⟨a, b⟩)
          · exact ⟨Or.inl rfl, hle⟩
          · exact ⟨Or.inr a, b⟩
        · rintro ⟨rfl | a, b⟩
          · exact Or.inl rfl
          · exact Or.inr ⟨a, b⟩
      · exact hp.lo
      · exact fun y a b => Or.inr (hp.full y a b)
    · show s.firstMissing ∉ insert x K
      rintro (hc | hc)
      · omega
      · exact hfmK hc

end

/-! ## Scanning the missing sources without finding anything to decode -/

theorem scan_noop (gf : GF w) (dbg : Bool) (s : Dec) (hlinks : LinksOk s.repairs s.missing)
    (hs : s.repairs.SortedKeys)
    (h2 : ∀ x rid r, s.missing.get? x = some [rid] → (rid, r) ∈ s.repairs → r.ids.length ≠ 1) (fuel : Nat) (k : Option Nat)
    (hk : ∀ x, k = some x → x ∈ s.missing.map (·.1))
    (hf : ∀ x, k = some x → ((s.missing.map (·.1)).filter (fun y => decide (x ≤ y))).length ≤ fuel) :
    scanMissing gf dbg fuel k s = .ok s := by
  induction fuel generalizing k with
  | zero =>
    cases k with
    | none => unfold scanMissing; rfl
    | some x =>
      have h1 := hf x rfl
      have : 0 < ((s.missing.map (·.1)).filter (fun y => decide (x ≤ y))).length := by
        apply List.length_pos_of_mem (a := x)
        rw [List.mem_filter]; exact ⟨hk x rfl, by simp⟩
      omega
  | succ fuel ih =>
    cases k with
    | none => unfold scanMissing; rfl
    | some x =>
      have hx := hk x rfl
      have hnext : scanMissing gf dbg fuel (s.missing.next? x) s = .ok s := by
        apply ih
        · intro y hy; exact (next?_mem hy).1
        · intro y hy
          have hlt := (next?_mem hy).2
          have h1 := hf x rfl
          have h3 : ((s.missing.map (·.1)).filter (fun z => decide (y ≤ z))).length
              < ((s.missing.map (·.1)).filter (fun z => decide (x ≤ z))).length := by
            have e : (s.missing.map (·.1)).filter (fun z => decide (y ≤ z))
                = ((s.missing.map (·.1)).filter (fun z => decide (x ≤ z))).filter (fun z => decide (y ≤ z)) := by
              rw [List.filter_filter]
              apply List.filter_congr
              intro z _
              by_cases hz : y ≤ z
              · have : x ≤ z := by omega
                simp [hz, this]
              · simp [hz]
            rw [e]
            have hm : x ∈ (s.missing.map (·.1)).filter (fun z => decide (x ≤ z)) := by
              rw [List.mem_filter]; exact ⟨hx, by simp⟩
            rw [List.length_filter_lt_length_iff_exists]
            exact ⟨x, hm, by simp; omega⟩
          omega
      unfold scanMissing
      obtain ⟨l, hl⟩ := (get?_isSome_iff s.missing x).2 hx
      rw [hl]
      match l, hl with
      | [], _ => exact hnext
      | [rid], hl =>
        obtain ⟨r, hr, _⟩ := ((hlinks x [rid] hl).2 rid).1 (by simp)
        simp only
        rw [get?_of_mem hs hr]
        simp only
        rw [if_neg (h2 x rid r hl hr)]
        exact hnext
      | _ :: _ :: _, _ => exact hnext

theorem scan_noop' (gf : GF w) (dbg : Bool) (s : Dec) (hlinks : LinksOk s.repairs s.missing)
    (hs : s.repairs.SortedKeys)
    (h2 : ∀ x rid r, s.missing.get? x = some [rid] → (rid, r) ∈ s.repairs → r.ids.length ≠ 1) (fuel : Nat)
    (hf : s.missing.length ≤ fuel) : scanMissing gf dbg fuel (s.missing.keys.head?) s = .ok s := by
  apply scan_noop gf dbg s hlinks hs h2
  · intro x hx; exact head?_mem hx
  · intro x _
    have := List.length_filter_le (fun y => decide (x ≤ y)) (s.missing.map (·.1))
    rw [List.length_map] at this
    omega

end Netcode
