import Verif.Spec.OneLoss
import Verif.Proofs.EndToEnd

/-!
# At most one loss between two repairs
-/

set_option linter.unusedSectionVars false

namespace Netcode

variable {w : Nat} {c : Cfg w} {io : Bool} {s : Sys}

theorem keptLine_line (h : KeptLine c io s) : LineReach c io s := by
  induction h with
  | init => exact .init
  | step _ h2 _ h4 ih => exact .step ih h2 h4

/-! ## New packets -/

theorem new_repair_ids (hc : c.Ok) (h : Reach c io s) {a : Act} (ha : Allowed c s a) {s' : Sys} (hs : s.step c a = .ok s') {m : Nat}
    {r : ERepair} (hm : s'.enc.out[m]? = some (.repair r)) (hle : s.enc.out.length ≤ m) : r.ids = s'.enc.win := by
  have := fact_of_valid hc.width
  obtain ⟨t, ht⟩ := step_out hs
  have key : ∀ {b : EAct}, s.enc.act c.gf c.F c.dbg b = .ok s'.enc → ∃ rid, encodeRepair c.gf c.dbg rid s'.enc.sources = .ok r := by
    intro b hb
    refine new_repairs hb (r := r) ?_
    rw [← ht, List.drop_left]
    refine mem_repairsOf.2 ?_
    rw [← ht, List.getElem?_append_right hle] at hm
    exact List.mem_of_getElem? hm
  have hnone : s'.enc.out = s.enc.out → False := by
    intro he
    rw [he] at hm
    have := getElem?_lt hm
    omega
  have hrid : ∃ rid, encodeRepair c.gf c.dbg rid s'.enc.sources = .ok r := by
    by_cases hrep : a = .repair
    · subst hrep
      simp only [Sys.step, bind_ok_iff, pure_ok_iff] at hs
      obtain ⟨e, h1, rfl⟩ := hs
      exact key (b := .repair) h1
    by_cases hcm : a.commits = []
    · exact (hnone (step_out_same hrep hcm hs)).elim
    · cases a <;> simp only [Act.commits, not_true_eq_false, reduceCtorEq, not_false_eq_true] at hcm
      simp only [Sys.step, bind_ok_iff, pure_ok_iff] at hs
      obtain ⟨e, h1, rfl⟩ := hs
      exact key (b := .commit _) h1
  obtain ⟨rid, h4⟩ := hrid
  obtain ⟨ems', A', ρ', L', W', K', hI'⟩ := inv_of_reach hc (Reach.step (a := a) h ha hs)
  have hsrt : Sorted (s'.enc.sources.map (·.id)) := hI'.enc.srcSorted
  obtain ⟨r', h5, h6⟩ := encodeRepair_ok c.gf hc.width c.dbg rid s'.enc.sources (encodeRepair_ne h4) (by
    intro y hy
    rw [hI'.enc.srcs] at hy
    obtain ⟨z, hz, rfl⟩ := List.mem_map.1 hy
    exact hI'.enc.dataOk z (hI'.enc.srcLt z hz)) hsrt
  rw [h4] at h5; cases h5
  exact h6.ids

theorem new_source {a : Act} {s' : Sys} (hs : s.step c a = .ok s') {k : Nat} {sr : ESource}
    (hk : s'.enc.out[k]? = some (.source sr)) (hle : s.enc.out.length ≤ k) : sr.id ∈ s'.enc.win := by
  have hnone : s'.enc.out = s.enc.out → False := by
    intro he
    rw [he] at hk
    have := getElem?_lt hk
    omega
  by_cases hrep : a = .repair
  · subst hrep
    simp only [Sys.step, bind_ok_iff, pure_ok_iff] at hs
    obtain ⟨e, h1, rfl⟩ := hs
    obtain ⟨r, _, rfl⟩ := generateRepair_inv h1
    simp only [Enc.sentRepair] at hk
    rcases getElem?_append_singleton hk with h2 | h2
    · omega
    · cases h2.2
  by_cases hcm : a.commits = []
  · exact (hnone (step_out_same hrep hcm hs)).elim
  cases a <;> simp only [Act.commits, not_true_eq_false, reduceCtorEq, not_false_eq_true] at hcm
  next d =>
  simp only [Sys.step, bind_ok_iff, pure_ok_iff] at hs
  obtain ⟨e, h1, rfl⟩ := hs
  have h2 := commit_sources h1
  obtain ⟨t, ht⟩ := commit_out h1
  have h3 : sr ∈ sourcesOf t := by
    rw [mem_sourcesOf]
    simp only at hk
    rw [← ht, List.getElem?_append_right hle] at hk
    exact List.mem_of_getElem? hk
  have h4 := h2.2
  rw [← ht, sourcesOf_append, List.append_cancel_left_eq] at h4
  rw [h4] at h3
  split at h3
  · simp only [List.mem_singleton] at h3
    subst h3
    show s.enc.curSrc ∈ e.win
    unfold Enc.win
    rw [h2.1]
    simp
  · cases h3

/-! ## What a repair lists -/

/-- A source is emitted before the repairs that list it. -/
theorem source_before (hc : c.Ok) (h : Reach c io s) {k m : Nat} {sr : ESource} {r : ERepair} (hk : s.enc.out[k]? = some (.source sr))
    (hm : s.enc.out[m]? = some (.repair r)) (hx : sr.id ∈ r.ids) : k < m := by
  have := fact_of_valid hc.width
  obtain ⟨ems, A, ρ, L, W, K, hI⟩ := inv_of_reach hc h
  obtain ⟨em, hem, hren⟩ := hI.enc.ems_get hk
  obtain ⟨em2, hem2, hren2⟩ := hI.enc.ems_get hm
  cases em with
  | rep rid W' => obtain ⟨r, h1, _⟩ := hren; cases h1
  | src x =>
    cases em2 with
    | src y => cases hren2
    | rep rid W' =>
      obtain ⟨r', h1, h2, _⟩ := hren2
      cases h1
      obtain rfl : sr = srcOf (comData s) x := by injection hren
      rcases Nat.lt_trichotomy k m with h3 | h3 | h3
      · exact h3
      · subst h3; rw [hem] at hem2; cases hem2
      · have := hI.enc.later m k _ _ h3 hem2 hem x (by
          rw [h2.ids, List.map_map] at hx
          have h5 : W'.map ((fun x : ESource => x.id) ∘ srcOf (comData s)) = W' := List.map_id _
          rw [h5] at hx
          exact hx)
        omega

/-- The sources are emitted in the order of their numbers. -/
theorem source_order (hc : c.Ok) (h : Reach c io s) {k m : Nat} {sr sr' : ESource} (hk : s.enc.out[k]? = some (.source sr))
    (hm : s.enc.out[m]? = some (.source sr')) (hlt : k < m) : sr.id < sr'.id := by
  have := fact_of_valid hc.width
  obtain ⟨ems, A, ρ, L, W, K, hI⟩ := inv_of_reach hc h
  obtain ⟨em, hem, hren⟩ := hI.enc.ems_get hk
  obtain ⟨em2, hem2, hren2⟩ := hI.enc.ems_get hm
  cases em with
  | rep rid W' => obtain ⟨r, h1, _⟩ := hren; cases h1
  | src x =>
    cases em2 with
    | rep rid W' => obtain ⟨r, h1, _⟩ := hren2; cases h1
    | src y =>
      obtain rfl : sr = srcOf (comData s) x := by injection hren
      obtain rfl : sr' = srcOf (comData s) y := by injection hren2
      exact hI.enc.later k m _ _ hlt hem hem2 x (by simp [Em.ids])

structure Listed (s : Sys) : Prop where
  sys : s.enc.systematic = true
  sent : ∀ x < s.committed.length, ∃ (k : Nat) (sr : ESource), s.enc.out[k]? = some (.source sr) ∧ sr.id = x
  win : ∀ (k : Nat) (sr : ESource), s.enc.out[k]? = some (.source sr) → sr.id ∈ s.enc.win ∨ s.dec.det.Knows sr.id ∨ ∃ m, k < m ∧ s.isRepair m
  rep : ∀ (m : Nat) (r : ERepair) (k : Nat) (sr : ESource), s.enc.out[m]? = some (.repair r) → k < m → s.enc.out[k]? = some (.source sr) →
    sr.id ∈ r.ids ∨ s.dec.det.Knows sr.id ∨ ∃ m', k < m' ∧ m' < m ∧ s.isRepair m'

/-- What leaves the window is known, or a repair has listed it. -/
theorem win_step (hc : c.Ok) (h : Reach c io s) {a : Act} (ha : Allowed c s a) (hkp : Kept s a) {s' : Sys} (hs : s.step c a = .ok s')
    {x : Nat} (hx : x ∈ s.enc.win) : x ∈ s'.enc.win ∨ s'.dec.det.Knows x ∨ ∃ r, EPkt.repair r ∈ s.enc.out ∧ x ∈ r.ids := by
  have := fact_of_valid hc.width
  have hk := (C04_known_forever_partial hc h a ha s' hs).1
  obtain ⟨ems, A, ρ, L, W, K, hI⟩ := inv_of_reach hc h
  by_cases hr : Roomy s a
  · rcases (step_encoder hs).2.1 x hx hr with h4 | ⟨j, k, p, n, rfl, h4, h5, h6⟩
    · exact Or.inl h4
    · right; left
      have hmem := List.mem_of_getElem? h4
      have ho := hI.acks.out p hmem
      have : k = p := by
        have := readAck_writeAck p ho.2.2 (ha p h4)
        rw [this] at h5
        cases h5; rfl
      subst this
      exact hk x (knows_of_hasData (C24_acks_known_partial hc h k hmem x h6).2)
  · cases a with
    | commit d =>
      have hfull : s.enc.sources.length = s.enc.windowSize := by
        by_contra hcon
        exact hr hcon
      cases hsr : s.enc.sources with
      | nil => unfold Enc.win at hx; rw [hsr] at hx; cases hx
      | cons y t =>
        unfold Enc.win at hx
        rw [hsr, List.map_cons] at hx
        rcases List.mem_cons.1 hx with rfl | hx
        · exact Or.inr (Or.inr (hkp hfull y.id (by rw [hsr]; rfl)))
        · left
          simp only [Sys.step, bind_ok_iff, pure_ok_iff] at hs
          obtain ⟨e, h1, rfl⟩ := hs
          show x ∈ e.win
          unfold Enc.win
          rw [(commit_sources h1).1, Enc.room, if_pos hfull, hsr]
          simp only [List.tail_cons, List.map_append]
          exact List.mem_append_left _ hx
    | _ => exact absurd trivial hr

theorem out_forth {a : Act} {s' : Sys} (hs : s.step c a = .ok s') {m : Nat} {p : EPkt} (hm : s.enc.out[m]? = some p) :
    s'.enc.out[m]? = some p := by
  obtain ⟨t, ht⟩ := step_out hs
  rw [← ht, List.getElem?_append_left (getElem?_lt hm)]
  exact hm

theorem isRepair_mono {a : Act} {s' : Sys} (hs : s.step c a = .ok s') {m : Nat} (hm : s.isRepair m) : s'.isRepair m := by
  obtain ⟨r, hr⟩ := hm
  exact ⟨r, out_forth hs hr⟩

theorem isRepair_back {a : Act} {s' : Sys} (hs : s.step c a = .ok s') {m : Nat} (hlt : m < s.enc.out.length) (hm : s'.isRepair m) :
    s.isRepair m := by
  obtain ⟨r, hr⟩ := hm
  refine ⟨r, ?_⟩
  rw [(List.prefix_iff_getElem?.1 (step_out hs)) m hlt] at hr
  rw [List.getElem?_eq_getElem hlt]
  exact hr

theorem out_back {a : Act} {s' : Sys} (hs : s.step c a = .ok s') {m : Nat} {p : EPkt} (hlt : m < s.enc.out.length)
    (hm : s'.enc.out[m]? = some p) : s.enc.out[m]? = some p := by
  rw [(List.prefix_iff_getElem?.1 (step_out hs)) m hlt] at hm
  rw [List.getElem?_eq_getElem hlt]
  exact hm

theorem listed_step (hc : c.Ok) (h : Reach c io s) (hl : Listed s) {a : Act} (ha : Allowed c s a) (hkp : Kept s a) {s' : Sys}
    (hs : s.step c a = .ok s') : Listed s' := by
  have := fact_of_valid hc.width
  have hk := (C04_known_forever_partial hc h a ha s' hs).1
  have hcom := step_committed hs
  obtain ⟨ems, A, ρ, L, W, K, hI⟩ := inv_of_reach hc h
  have hold : ∀ (k : Nat) (sr : ESource), s.enc.out[k]? = some (.source sr) →
      sr.id ∈ s'.enc.win ∨ s'.dec.det.Knows sr.id ∨ ∃ m, k < m ∧ m < s.enc.out.length ∧ s.isRepair m := by
    intro k sr hk1
    rcases hl.win k sr hk1 with h1 | h1 | ⟨m, h1, h2⟩
    · rcases win_step hc h ha hkp hs h1 with h2 | h2 | ⟨r, h2, h3⟩
      · exact Or.inl h2
      · exact Or.inr (Or.inl h2)
      · obtain ⟨m, hm⟩ := List.getElem?_of_mem h2
        exact Or.inr (Or.inr ⟨m, source_before hc h hk1 hm h3, getElem?_lt hm, r, hm⟩)
    · exact Or.inr (Or.inl (hk _ h1))
    · obtain ⟨r, hr⟩ := h2
      exact Or.inr (Or.inr ⟨m, h1, getElem?_lt hr, r, hr⟩)
  refine ⟨?_, ?_, ?_, ?_⟩
  · by_cases hsy : ∃ b, a = .setSystematic b
    · obtain ⟨b, rfl⟩ := hsy
      have hb : b = true := hkp
      simp only [Sys.step, pure_ok_iff] at hs
      subst hs
      exact hb
    · rw [step_systematic (fun b hb => hsy ⟨b, hb⟩) hs]; exact hl.sys
  · intro x hx
    by_cases hlt : x < s.committed.length
    · obtain ⟨k, sr, h1, h2⟩ := hl.sent x hlt
      exact ⟨k, sr, out_forth hs h1, h2⟩
    · cases a with
      | commit d =>
        rw [hcom] at hx
        simp only [Act.commits, List.length_append, List.length_cons, List.length_nil] at hx
        obtain rfl : x = s.committed.length := by omega
        simp only [Sys.step, bind_ok_iff, pure_ok_iff] at hs
        obtain ⟨e, h1, rfl⟩ := hs
        have h2 := (commit_sources h1).2
        rw [hl.sys, if_pos rfl] at h2
        have h3 : (⟨s.enc.curSrc, d⟩ : ESource) ∈ sourcesOf e.out := by rw [h2]; simp
        obtain ⟨k, hk⟩ := List.getElem?_of_mem (mem_sourcesOf.1 h3)
        exact ⟨k, _, hk, hI.cur⟩
      | _ => rw [hcom] at hx; simp [Act.commits] at hx; exact absurd hx hlt
  · intro k sr h1
    by_cases hlt : k < s.enc.out.length
    · rcases hold k sr (out_back hs hlt h1) with h2 | h2 | ⟨m, h2, _, h3⟩
      · exact Or.inl h2
      · exact Or.inr (Or.inl h2)
      · exact Or.inr (Or.inr ⟨m, h2, isRepair_mono hs h3⟩)
    · exact Or.inl (new_source hs h1 (by omega))
  · intro m r k sr h1 h2 h3
    by_cases hm : m < s.enc.out.length
    · rcases hl.rep m r k sr (out_back hs hm h1) h2 (out_back hs (by omega) h3) with h4 | h4 | ⟨m', h4, h5, h6⟩
      · exact Or.inl h4
      · exact Or.inr (Or.inl (hk _ h4))
      · exact Or.inr (Or.inr ⟨m', h4, h5, isRepair_mono hs h6⟩)
    · rw [new_repair_ids hc h ha hs h1 (by omega)]
      by_cases hlt : k < s.enc.out.length
      · rcases hold k sr (out_back hs hlt h3) with h4 | h4 | ⟨m', h4, h5, h6⟩
        · exact Or.inl h4
        · exact Or.inr (Or.inl h4)
        · exact Or.inr (Or.inr ⟨m', h4, by omega, isRepair_mono hs h6⟩)
      · exact Or.inl (new_source hs h3 (by omega))

theorem listed_init (clk : Clock) (io : Bool) : Listed (Sys.init clk io) := by
  refine ⟨rfl, fun x hx => absurd hx (Nat.not_lt_zero x), ?_, ?_⟩
  · intro k sr h; simp [Sys.init, Enc.init] at h
  · intro m r k sr h; simp [Sys.init, Enc.init] at h

theorem listed_of_line (hc : c.Ok) (hw : w ≠ 32) (h : KeptLine c io s) (hn : s.committed.length < 2 ^ 16) : Listed s := by
  have := fact_of_valid hc.width
  induction h with
  | init => exact listed_init _ _
  | step h1 h2 h3 h4 ih =>
    rw [step_committed h4, List.length_append] at hn
    have hr := line_reach hc hw (keptLine_line h1) (by omega)
    exact listed_step hc hr (ih (by omega)) (line_allowed hc hw hr (by omega) h2) h3 h4

/-! ## Recovery -/

/-- The first repair after a packet that was lost was not lost, if there is at most one loss between two repairs. -/
theorem next_repair {i k m : Nat} (ho : s.OneLoss i) (hk : k ∉ s.hist) (hkr : ¬ s.isRepair k) (hlt : k < m) (hle : m ≤ i)
    (hm : s.isRepair m) : ∃ m', k < m' ∧ m' ≤ m ∧ s.isRepair m' ∧ m' ∈ s.hist ∧ ∀ j, k < j → j < m' → ¬ s.isRepair j := by
  classical
  have hex : ∃ m', k < m' ∧ s.isRepair m' := ⟨m, hlt, hm⟩
  have hmin : ∀ {j}, j < Nat.find hex → ¬ (k < j ∧ s.isRepair j) := Nat.find_min hex
  obtain ⟨h1, h2⟩ := Nat.find_spec hex
  have h3 : Nat.find hex ≤ m := Nat.find_min' hex ⟨hlt, hm⟩
  refine ⟨Nat.find hex, h1, h3, h2, ?_, fun j hj hj2 hjr => hmin hj2 ⟨hj, hjr⟩⟩
  by_contra hnot
  obtain ⟨j, hj1, hj2, hj3⟩ := ho k (Nat.find hex) h1 (by omega) hk hnot
  have : j ≠ k := by rintro rfl; exact hkr hj3
  exact hmin hj2 ⟨by omega, hj3⟩

theorem not_isRepair {k : Nat} {sr : ESource} (hk : s.enc.out[k]? = some (.source sr)) : ¬ s.isRepair k := by
  rintro ⟨r, hr⟩
  rw [hk] at hr; cases hr

theorem recovered (hc : c.Ok) (hw : w ≠ 32) (h : KeptLine c io s) (hn : s.committed.length < 2 ^ 16) :
    ∀ i ∈ s.hist, s.isRepair i → s.OneLoss i → ∀ k < i, ∀ sr : ESource, s.enc.out[k]? = some (.source sr) → s.dec.det.Knows sr.id := by
  have := fact_of_valid hc.width
  induction h with
  | init => intro i hi; cases hi
  | @step s s' a h1 h2 h3 h4 ih =>
    have hcom := step_committed h4
    have hle : s.committed.length ≤ s'.committed.length := by rw [hcom, List.length_append]; omega
    have hl1 := keptLine_line h1
    have hr := line_reach hc hw hl1 (by omega)
    have ha := line_allowed hc hw hr (by omega) h2
    have ih := ih (by omega)
    have hlst := listed_of_line hc hw h1 (by omega)
    have hkn := (C04_known_forever_partial hc hr a ha s' h4).1
    have hl' : LineReach c io s' := .step hl1 h2 h4
    obtain ⟨ems, A, ρ, L, W, K, hI⟩ := inv_of_reach hc hr
    have hhl : ∀ j ∈ s.hist, j < s.enc.out.length := by
      intro j hj; rw [hI.enc.outLen]; exact hI.histLt j hj
    intro i hi hrep ho k hk sr hsr
    -- the condition in the state before
    have hback : ∀ i' ≤ i, i' ∈ s.hist → s.OneLoss i' := by
      intro i' hi' him j k hjk hki hj hkh
      have hnot : ∀ x, x ∉ s.hist → x ≤ i' → x ∉ s'.hist := by
        intro x hx hxi hx'
        rcases step_hist h4 with h5 | ⟨d, rfl, h5, h6⟩
        · rw [h5] at hx'; exact hx hx'
        · rw [h5] at hx'
          rcases List.mem_append.1 hx' with h7 | h7
          · exact hx h7
          · obtain rfl : x = d := by simpa using h7
            have := h2.2 i' him
            have : x = i' := by omega
            exact hx (this ▸ him)
      obtain ⟨m, g1, g2, g3⟩ := ho j k hjk (by omega) (hnot j hj (by omega)) (hnot k hkh hki)
      exact ⟨m, g1, g2, isRepair_back h4 (by have := hhl i' him; omega) g3⟩
    by_cases hin : i ∈ s.hist
    · have := hhl i hin
      exact hkn _ (ih i hin (isRepair_back h4 this hrep) (hback i (Nat.le_refl _) hin) k hk sr (out_back h4 (by omega) hsr))
    · rcases step_hist h4 with h5 | ⟨d, rfl, h5, h6⟩
      · rw [h5] at hi; exact absurd hi hin
      · obtain rfl : i = d := by
          rw [h5] at hi
          rcases List.mem_append.1 hi with h7 | h7
          · exact absurd h7 hin
          · simpa using h7
        have hout : s'.enc.out = s.enc.out := by rw [h6]
        have hir : ∀ m, s'.isRepair m ↔ s.isRepair m := by intro m; unfold Sys.isRepair; rw [hout]
        have hhist : ∀ j < i, j ∉ s.hist → j ∉ s'.hist := by
          intro j hj hj2 hj3
          rw [h5] at hj3
          rcases List.mem_append.1 hj3 with h7 | h7
          · exact hj2 h7
          · have : j = i := by simpa using h7
            omega
        obtain ⟨r, hrr⟩ := hrep
        rw [hout] at hrr hsr
        -- a source that was lost before the last repair is known
        have hearly : ∀ (k : Nat) (sr : ESource), s.enc.out[k]? = some (.source sr) → k ∉ s.hist → ∀ m, k < m → m < i → s.isRepair m → s.dec.det.Knows sr.id := by
          intro k sr hk1 hk2 m hm1 hm2 hm3
          obtain ⟨m', g1, g2, g3, g4, _⟩ := next_repair (s := s') (i := i) (k := k) (m := m) ho (hhist k (by omega) hk2)
            (not_isRepair (by rw [hout]; exact hk1)) hm1 (by omega) ((hir m).2 hm3)
          have g5 : m' ∈ s.hist := by
            by_contra hcon
            exact hhist m' (by omega) hcon g4
          exact ih m' g5 ((hir m').1 g3) (hback m' (by omega) g5) k g1 sr hk1
        have hone : ∀ x ∈ r.ids, ∀ y ∈ r.ids, ¬ s.dec.det.Knows x → ¬ s.dec.det.Knows y → x = y := by
          have hwlog : ∀ (kx ky : Nat) (sx sy : ESource), s.enc.out[kx]? = some (.source sx) → s.enc.out[ky]? = some (.source sy) → ky < i → kx < ky →
              ¬ s.dec.det.Knows sx.id → ¬ s.dec.det.Knows sy.id → False := by
            intro kx ky sx sy e1 e2 e3 e4 e5 e6
            have n1 : kx ∉ s.hist := fun hm => e5 (line_known hc hw hl1 (by omega) kx hm sx e1)
            have n2 : ky ∉ s.hist := fun hm => e6 (line_known hc hw hl1 (by omega) ky hm sy e2)
            obtain ⟨m, g1, g2, g3⟩ := ho kx ky e4 (by omega) (hhist kx (by omega) n1) (hhist ky e3 n2)
            rw [hir] at g3
            have : m ≠ kx := by rintro rfl; exact not_isRepair e1 g3
            exact e5 (hearly kx sx e1 n1 m (by omega) (by omega) g3)
          intro x hx y hy nx ny
          have hlt : ∀ z ∈ r.ids, z < s.committed.length := by
            intro z hz
            obtain ⟨em, hem, hren⟩ := hI.enc.ems_get hrr
            cases em with
            | src y => cases hren
            | rep rid W' =>
              obtain ⟨r', e1, e2, _⟩ := hren
              cases e1
              refine hI.enc.emLt _ (List.mem_of_getElem? hem) z ?_
              rw [e2.ids, List.map_map] at hz
              have h5 : W'.map ((fun x : ESource => x.id) ∘ srcOf (comData s)) = W' := List.map_id _
              rw [h5] at hz
              exact hz
          obtain ⟨kx, sx, e1, rfl⟩ := hlst.sent x (hlt x hx)
          obtain ⟨ky, sy, e2, rfl⟩ := hlst.sent y (hlt y hy)
          have l1 := source_before hc hr e1 hrr hx
          have l2 := source_before hc hr e2 hrr hy
          rcases Nat.lt_trichotomy kx ky with h7 | h7 | h7
          · exact (hwlog kx ky sx sy e1 e2 l2 h7 nx ny).elim
          · subst h7; rw [e1] at e2; cases e2; rfl
          · exact (hwlog ky kx sy sx e2 e1 l1 h7 ny nx).elim
        have hex : ∃ x, ∀ y ∈ r.ids, ¬ s.dec.det.Knows y → y = x := by
          by_cases hx : ∃ x ∈ r.ids, ¬ s.dec.det.Knows x
          · obtain ⟨x, e1, e2⟩ := hx
            exact ⟨x, fun y hy ny => hone y hy x e1 ny e2⟩
          · exact ⟨0, fun y hy ny => absurd ⟨y, hy, ny⟩ hx⟩
        obtain ⟨x, hx⟩ := hex
        obtain ⟨s2, e1, e2⟩ := C70_single_loss hc hw hl1 (by omega) i r hrr h2 hin x hx
        rw [h4] at e1
        cases e1
        by_cases hkh : k ∈ s.hist
        · exact hkn _ (line_known hc hw hl1 (by omega) k hkh sr hsr)
        · rcases hlst.rep i r k sr hrr hk hsr with e3 | e3 | ⟨m, e3, e4, e5⟩
          · exact knows_of_hasData (e2 _ e3)
          · exact hkn _ e3
          · exact hkn _ (hearly k sr hsr hkh m e3 e4 e5)

/-! ## A constant rate -/

theorem step_adaptive {s' : Sys} {a : Act} (ha : SameSettings a) (had : s.enc.adaptive = false) (h : s.step c a = .ok s') :
    s'.enc.adaptive = false ∧ s'.enc.rate = s.enc.rate := by
  cases a <;> simp only [Sys.step, bind_ok_iff, pure_ok_iff] at h
  case commit d =>
    obtain ⟨e, h1, rfl⟩ := h
    exact ⟨(commit_same h1).1.ada.trans had, (commit_same h1).2.1⟩
  case repair =>
    obtain ⟨e, h1, rfl⟩ := h
    exact ⟨(repair_same h1).1.ada.trans had, (repair_same h1).2.1⟩
  case ack j =>
    split at h
    · cases h; exact ⟨had, rfl⟩
    · simp only [bind_ok_iff, pure_ok_iff] at h
      obtain ⟨⟨e, r⟩, h1, rfl⟩ := h
      unfold Enc.notify at h1
      simp only [bind_ok_iff] at h1
      obtain ⟨_, _, h1⟩ := h1
      split at h1
      · cases h1
      · cases h1; exact ⟨had, rfl⟩
      · split at h1
        · cases h1
        · cases h1; exact ⟨had, rfl⟩
        · cases h1; exact ⟨had, by simp [had]⟩
      · cases h1; exact ⟨had, rfl⟩
  case deliver i =>
    split at h
    · cases h; exact ⟨had, rfl⟩
    · simp only [bind_ok_iff, pure_ok_iff] at h
      obtain ⟨_, _, rfl⟩ := h
      exact ⟨had, rfl⟩
  all_goals first
    | exact ha.elim
    | (cases h; exact ⟨had, rfl⟩)
    | (obtain ⟨_, _, rfl⟩ := h; exact ⟨had, rfl⟩)

/-- What a constant rate gives: the sources of the window up to the last multiple of the rate are listed by a repair. -/
structure Steady (r W : Nat) (s : Sys) : Prop where
  ada : s.enc.adaptive = false
  rate : s.enc.rate = r
  size : s.enc.windowSize = W
  win : ∀ x ∈ s.enc.win, x < s.committed.length / r * r → ∃ p, EPkt.repair p ∈ s.enc.out ∧ x ∈ p.ids

theorem steady_step (hc : c.Ok) (h : Reach c io s) {rate window : Nat} (hp : 0 < rate) (hst : Steady rate window s) {a : Act}
    (ha : Allowed c s a) (hset : SameSettings a) {s' : Sys} (hs : s.step c a = .ok s') : Steady rate window s' := by
  have := fact_of_valid hc.width
  obtain ⟨h1, h2⟩ := step_adaptive hset hst.ada hs
  have hcom := step_committed hs
  obtain ⟨ems, A, ρ, L, W, K, hI⟩ := inv_of_reach hc h
  have hr' := Reach.step (a := a) h ha hs
  refine ⟨h1, h2.trans hst.rate, (step_window (by rintro n rfl; exact hset) hs).trans hst.size, ?_⟩
  have hout : ∀ p ∈ s.enc.out, p ∈ s'.enc.out := by
    intro p hp
    obtain ⟨t, ht⟩ := step_out hs
    rw [← ht]
    exact List.mem_append_left _ hp
  intro x hx hlt
  by_cases hcm : ∃ d, a = .commit d
  · obtain ⟨d, rfl⟩ := hcm
    have hs0 := hs
    simp only [Sys.step, bind_ok_iff, pure_ok_iff] at hs
    obtain ⟨e, g1, rfl⟩ := hs
    have hlen : (s.committed ++ [d]).length = s.committed.length + 1 := by simp
    simp only [hlen] at hlt
    have hcur : (s.enc.curSrc + 1) % 2 ^ 32 = s.committed.length + 1 := by
      have h3 : s.committed.length + 1 < 2 ^ 32 := ha.2.1
      rw [hI.cur, Nat.mod_eq_of_lt h3]
    obtain ⟨e1, e2, g2, g3, -, g4⟩ := commit_inv g1
    rw [hcur, hst.rate] at g4
    rcases g4 with ⟨g5, g6⟩ | ⟨g5, r, g7, g6⟩
    · have hq : (s.committed.length + 1) / rate * rate = s.committed.length / rate * rate := by
        have h3 : ¬ rate ∣ s.committed.length + 1 := fun hd => g5 (Nat.mod_eq_zero_of_dvd hd)
        rw [Nat.succ_div_of_not_dvd h3]
      rw [hq] at hlt
      have hq2 : s.committed.length / rate * rate ≤ s.committed.length := Nat.div_mul_le_self _ _
      have hx2 : x ∈ s.enc.win := by
        change x ∈ e.win at hx
        unfold Enc.win at hx
        rw [(commit_sources g1).1] at hx
        simp only [List.map_append, List.map_cons, List.map_nil, List.mem_append, List.mem_singleton] at hx
        rcases hx with hx | hx
        · unfold Enc.room at hx
          unfold Enc.win
          split at hx
          · rw [List.map_tail] at hx; exact List.mem_of_mem_tail hx
          · exact hx
        · exfalso
          rw [hI.cur] at hx
          omega
      obtain ⟨r, k1, k2⟩ := hst.win x hx2 hlt
      exact ⟨r, hout _ k1, k2⟩
    · have hrm : EPkt.repair r ∈ e.out := by rw [g6]; simp [Enc.sentRepair]
      obtain ⟨m, hm⟩ := List.getElem?_of_mem hrm
      have hsrc : e2.sources = e.sources := by rw [g6]; rfl
      rw [hsrc] at g7
      obtain ⟨ems', A', ρ', L', W', K', hI'⟩ := inv_of_reach hc hr'
      have hsrt : Sorted (e.sources.map (·.id)) := hI'.enc.srcSorted
      obtain ⟨r', h5, h6⟩ := encodeRepair_ok c.gf hc.width c.dbg e2.curRep e.sources (encodeRepair_ne g7) (by
        intro y hy
        have hsr := hI'.enc.srcs
        simp only at hsr
        rw [hsr] at hy
        obtain ⟨z, hz, rfl⟩ := List.mem_map.1 hy
        exact hI'.enc.dataOk z (hI'.enc.srcLt z hz)) hsrt
      rw [g7] at h5; cases h5
      exact ⟨r, hrm, by rw [h6.ids]; exact hx⟩
  · have hcm2 : a.commits = [] := by cases a <;> first | rfl | exact absurd ⟨_, rfl⟩ hcm
    rw [hcom, hcm2, List.append_nil] at hlt
    have hx2 : x ∈ s.enc.win := by
      have hb : ∀ {b : EAct}, s.enc.act c.gf c.F c.dbg b = .ok s'.enc → (∀ d, b ≠ .commit d) → x ∈ s.enc.win := by
        intro b hb hnc
        unfold Enc.win at hx ⊢
        rcases act_sources hnc hb with h3 | ⟨q, k, n, _, _, _, h3⟩
        · rwa [h3] at hx
        · rw [h3] at hx
          obtain ⟨y, hy, rfl⟩ := List.mem_map.1 hx
          exact List.mem_map.2 ⟨y, (eraseIds_sublist _ _).subset hy, rfl⟩
      have same : s'.enc.sources = s.enc.sources → x ∈ s.enc.win := by
        intro he; unfold Enc.win at hx ⊢; rwa [he] at hx
      cases a <;> simp only [Sys.step, bind_ok_iff, pure_ok_iff] at hs
      case commit d => exact absurd ⟨d, rfl⟩ hcm
      case repair => obtain ⟨e, g1, rfl⟩ := hs; exact hb (b := .repair) g1 (by intro d hd; cases hd)
      case ack j =>
        split at hs
        · cases hs; exact hx
        · simp only [bind_ok_iff, pure_ok_iff] at hs
          obtain ⟨⟨e, r⟩, g1, rfl⟩ := hs
          refine hb (b := .packet _) (by simp only [Enc.act, map_ok_iff]; exact ⟨_, g1, rfl⟩) (by intro d hd; cases hd)
      case deliver i =>
        split at hs
        · cases hs; exact hx
        · simp only [bind_ok_iff, pure_ok_iff] at hs
          obtain ⟨_, _, rfl⟩ := hs
          exact hx
      all_goals first
        | exact hset.elim
        | (cases hs; exact hx)
        | (obtain ⟨_, _, rfl⟩ := hs; exact hx)
    obtain ⟨r, k1, k2⟩ := hst.win x hx2 hlt
    exact ⟨r, hout _ k1, k2⟩

theorem steadyLine_kept (hc : c.Ok) (hw : w ≠ 32) {rate window : Nat} (hp : 0 < rate) (hrw : rate ≤ window)
    (h : SteadyLine c io rate window s) (hn : s.committed.length < 2 ^ 16) : KeptLine c io s ∧ Steady rate window s := by
  have := fact_of_valid hc.width
  induction h with
  | init h =>
    simp only [Sys.run, List.foldlM_cons, List.foldlM_nil, bind_ok_iff, pure_ok_iff] at h
    obtain ⟨s1, h1, s2, h2, rfl⟩ := h
    have h1' := h1
    have h2' := h2
    refine ⟨.step (a := .setWindow window) (.step (a := .setRate rate) .init ⟨hp, trivial⟩ trivial h1)
      ⟨Nat.lt_of_lt_of_le hp hrw, trivial⟩ trivial h2, ?_⟩
    simp only [Sys.step, Enc.setRate, Enc.setWindowSize, bind_ok_iff, pure_ok_iff] at h1' h2'
    obtain ⟨_, ⟨_, _, rfl⟩, rfl⟩ := h1'
    obtain ⟨_, ⟨_, _, rfl⟩, rfl⟩ := h2'
    exact ⟨rfl, rfl, rfl, fun x hx => by cases hx⟩
  | @step s s' a hl ha hset hs ih =>
    rw [step_committed hs, List.length_append] at hn
    obtain ⟨ih1, ih2⟩ := ih (by omega)
    have hr := line_reach hc hw (keptLine_line ih1) (by omega)
    refine ⟨.step ih1 ha ?_ hs, steady_step hc hr hp ih2 (line_allowed hc hw hr (by omega) ha) hset hs⟩
    cases a with
    | commit d =>
      intro hfull x hx
      obtain ⟨ems, A, ρ, L, W, K, hI⟩ := inv_of_reach hc hr
      have hwin : x ∈ s.enc.win := List.mem_of_head? hx
      refine ih2.win x hwin ?_
      rw [ih2.size] at hfull
      have hlen : s.enc.win.length = window := by rw [← hfull]; simp [Enc.win, Enc.window]
      have hsort := hI.enc.srcSorted
      have hltn := hI.enc.srcLt
      have hx' : s.enc.win.head? = some x := hx
      cases hcs : s.enc.win with
      | nil => rw [hcs] at hx'; cases hx'
      | cons y t =>
        rw [hcs] at hx' hsort hlen hltn
        cases hx'
        have h1 := List.pairwise_cons.1 hsort
        have h2 : (t.map (· - (x + 1))).length ≤ s.committed.length - (x + 1) := by
          refine sorted_length_le ?_ ?_
          · refine List.pairwise_map.2 (h1.2.imp_of_mem ?_)
            intro a b ha hb hab
            have := h1.1 a ha
            omega
          · intro z hz
            obtain ⟨a, ha, rfl⟩ := List.mem_map.1 hz
            have := h1.1 a ha
            have := hltn a (List.mem_cons_of_mem _ ha)
            omega
        rw [List.length_map] at h2
        rw [List.length_cons] at hlen
        have h3 := hltn x List.mem_cons_self
        have h4 := Nat.div_add_mod s.committed.length rate
        have h5 := Nat.mod_lt s.committed.length hp
        rw [Nat.mul_comm] at h4
        omega
    | setSystematic b => exact hset.elim
    | _ => trivial

end Netcode
