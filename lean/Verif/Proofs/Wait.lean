import Verif.Spec.Wait
import Verif.Proofs.Gapless
import Verif.Props.Sync

/-!
# The window of an encoder that gets no acks
-/

set_option linter.unusedSectionVars false

namespace Netcode

variable {w : Nat} {c : Cfg w} {io : Bool} {s : Sys} {W : Nat}

theorem sided_reach (h : SidedReach c W io s) : Reach c io s := by
  induction h with
  | init => exact .init
  | step _ h2 _ h4 ih => exact .step ih h2 h4

/-- The window holds the last data committed, at most `W` of them, and so do the repairs. -/
structure Span (W : Nat) (s : Sys) : Prop where
  win : s.enc.win = List.range' (s.committed.length - s.enc.win.length) s.enc.win.length
  le : s.enc.win.length ≤ s.committed.length
  size : s.enc.win.length ≤ s.enc.windowSize
  bound : s.enc.win ≠ [] → s.enc.windowSize ≤ W
  rep : ∀ r, EPkt.repair r ∈ s.enc.out → ∃ a k, r.ids = List.range' a k ∧ k ≤ W

/-- No repair lists sources that are `W` apart. -/
theorem Span.apart (h : Span W s) {r : ERepair} (hr : EPkt.repair r ∈ s.enc.out) : ∀ x ∈ r.ids, ∀ y ∈ r.ids, y < x + W := by
  intro x hx y hy
  obtain ⟨a, k, h1, h2⟩ := h.rep r hr
  rw [h1, List.mem_range'_1] at hx hy
  omega

theorem win_length (e : Enc) : e.win.length = e.window := List.length_map _

/-- A repair of the window lists the window. -/
theorem repair_lists_win (hc : c.Ok) (h : Reach c io s) {rid : Nat} {r : ERepair} (hr : encodeRepair c.gf c.dbg rid s.enc.sources = .ok r) :
    r.ids = s.enc.win := by
  have := fact_of_valid hc.width
  obtain ⟨ems, A, ρ, L, W, K, hI⟩ := inv_of_reach hc h
  have hdok : ∀ z ∈ s.enc.sources, DataOk w z.sym := by
    intro z hz
    rw [hI.enc.srcs] at hz
    obtain ⟨u, hu, rfl⟩ := List.mem_map.1 hz
    exact hI.enc.dataOk u (hI.enc.srcLt u hu)
  obtain ⟨r', h4, h5⟩ := encodeRepair_ok c.gf hc.width c.dbg rid s.enc.sources (encodeRepair_ne hr) hdok hI.enc.srcSorted
  rw [hr] at h4; cases h4
  exact h5.ids

/-- The repairs of the steps of the encoder. -/
theorem Span.reps {s' : Sys} (hc : c.Ok) (hr : Reach c io s') (h : Span W s)
    (hwin : s'.enc.win = List.range' (s'.committed.length - s'.enc.win.length) s'.enc.win.length)
    (hsz : s'.enc.win ≠ [] → s'.enc.win.length ≤ W)
    (h5 : ∀ r, EPkt.repair r ∈ s'.enc.out → EPkt.repair r ∈ s.enc.out ∨ ∃ rid, encodeRepair c.gf c.dbg rid s'.enc.sources = .ok r) :
    ∀ r, EPkt.repair r ∈ s'.enc.out → ∃ a k, r.ids = List.range' a k ∧ k ≤ W := by
  intro r h1
  rcases h5 r h1 with h2 | ⟨rid, h2⟩
  · exact h.rep r h2
  · have h3 := repair_lists_win hc hr h2
    refine ⟨_, _, h3.trans hwin, hsz ?_⟩
    intro h0
    exact encodeRepair_ne h2 (List.map_eq_nil_iff.1 h0)

/-- Steps that change neither the window nor what was committed. -/
theorem Span.same {s' : Sys} (hc : c.Ok) (hr : Reach c io s') (h : Span W s) (h1 : s'.enc.win = s.enc.win) (h2 : s'.committed = s.committed)
    (h3 : s.enc.win.length ≤ s'.enc.windowSize) (h4 : s.enc.win ≠ [] → s'.enc.windowSize ≤ W)
    (h5 : ∀ r, EPkt.repair r ∈ s'.enc.out → EPkt.repair r ∈ s.enc.out ∨ ∃ rid, encodeRepair c.gf c.dbg rid s'.enc.sources = .ok r) :
    Span W s' := by
  have hw : s'.enc.win = List.range' (s'.committed.length - s'.enc.win.length) s'.enc.win.length := by rw [h1, h2]; exact h.win
  refine ⟨hw, by rw [h1, h2]; exact h.le, by rw [h1]; exact h3, by rw [h1]; exact h4, h.reps hc hr hw (fun h0 => ?_) h5⟩
  rw [h1] at h0 ⊢
  have := h4 h0
  omega

theorem span_of_sided (hc : c.Ok) (h : SidedReach c W io s) : Span W s := by
  have := fact_of_valid hc.width
  induction h with
  | init => exact ⟨rfl, Nat.le_refl _, Nat.zero_le _, fun h => absurd rfl h, by simp [Sys.init, Enc.init]⟩
  | @step s s' a h1 h2 h3 h4 ih =>
    have h5 := (step_encoder h4).1
    have hcom := step_committed h4
    obtain ⟨ems, A, ρ, L, W1, K, hI⟩ := inv_of_reach hc (sided_reach h1)
    have hr' : Reach c io s' := .step (sided_reach h1) h2 h4
    cases a <;> simp only [Sys.step, bind_ok_iff, pure_ok_iff] at h4
    case ack j => exact h3.elim
    case commit d =>
      obtain ⟨e, h6, rfl⟩ := h4
      have h3 : s.enc.windowSize ≤ W := h3
      have hsrc := (commit_sources h6).1
      have hws : e.windowSize = s.enc.windowSize := by
        obtain ⟨e1, e2, rfl, h2, -, h4⟩ := commit_inv h6
        rcases h2 with ⟨-, rfl⟩ | ⟨-, r1, -, rfl⟩ <;> rcases h4 with ⟨-, rfl⟩ | ⟨-, r2, -, rfl⟩ <;> rfl
      have hpos := hI.ws
      have hsz := ih.size
      have hle := ih.le
      have hwin : e.win = s.enc.room.map (·.id) ++ [s.committed.length] := by
        unfold Enc.win
        rw [hsrc, List.map_append, hI.cur]; rfl
      have hroom : ∃ k, s.enc.room.map (·.id) = List.range' (s.committed.length - k) k ∧ k ≤ s.committed.length ∧ k + 1 ≤ s.enc.windowSize := by
        unfold Enc.room
        have hl : s.enc.sources.length = s.enc.win.length := (win_length _).symm
        split
        · next hfull =>
          refine ⟨s.enc.win.length - 1, ?_, by omega, by omega⟩
          have hw := ih.win
          rw [List.map_tail]
          show s.enc.win.tail = _
          obtain ⟨k, hk⟩ : ∃ k, s.enc.win.length = k + 1 := ⟨s.enc.win.length - 1, by omega⟩
          rw [hk] at hw ⊢
          rw [hw, List.range'_succ, List.tail_cons]
          congr 1
          omega
        · next hfull =>
          exact ⟨s.enc.win.length, ih.win, hle, by omega⟩
      obtain ⟨k, hk, hkn, hkw⟩ := hroom
      have hwin' : e.win = List.range' (s.committed.length - k) (k + 1) := by
        rw [hwin, hk, List.range'_1_concat]
        congr 2
        omega
      have hlen : e.win.length = k + 1 := by rw [hwin', List.length_range']
      have hfin : e.win = List.range' ((s.committed ++ [d]).length - e.win.length) e.win.length := by
        rw [hlen, hwin', List.length_append, List.length_singleton]
        congr 1
        omega
      refine ⟨?_, ?_, ?_, ?_, ?_⟩
      · exact hfin
      · show e.win.length ≤ (s.committed ++ [d]).length
        rw [hlen, List.length_append, List.length_singleton]; omega
      · show e.win.length ≤ e.windowSize
        omega
      · show _ → e.windowSize ≤ W
        intro _; omega
      · exact ih.reps hc hr' hfin (fun _ => by show e.win.length ≤ W; omega) h5
    case repair =>
      obtain ⟨e, h6, rfl⟩ := h4
      obtain ⟨r, _, rfl⟩ := generateRepair_inv h6
      exact ih.same hc hr' rfl rfl ih.size ih.bound h5
    case setRate n =>
      obtain ⟨e, h6, rfl⟩ := h4
      simp only [Enc.setRate, bind_ok_iff, pure_ok_iff] at h6
      obtain ⟨_, _, rfl⟩ := h6
      exact ih.same hc hr' rfl rfl ih.size ih.bound h5
    case setWindow n =>
      obtain ⟨e, h6, rfl⟩ := h4
      simp only [Enc.setWindowSize, bind_ok_iff, pure_ok_iff] at h6
      obtain ⟨_, _, rfl⟩ := h6
      have h3 : s.enc.window ≤ n ∧ n ≤ W := h3
      exact ih.same hc hr' rfl rfl (by rw [win_length]; exact h3.1) (fun _ => h3.2) h5
    case setAdaptive b => cases h4; exact ih.same hc hr' rfl rfl ih.size ih.bound h5
    case setSystematic b => cases h4; exact ih.same hc hr' rfl rfl ih.size ih.bound h5
    case deliver i =>
      split at h4
      · cases h4; exact ih
      · simp only [bind_ok_iff, pure_ok_iff] at h4
        obtain ⟨_, _, rfl⟩ := h4
        exact ih.same hc hr' rfl rfl ih.size ih.bound h5
    case genAck => cases h4; exact ih.same hc hr' rfl rfl ih.size ih.bound h5
    case maybeAck => cases h4; exact ih.same hc hr' rfl rfl ih.size ih.bound h5
    case setAckNb n =>
      obtain ⟨d, _, rfl⟩ := h4
      exact ih.same hc hr' rfl rfl ih.size ih.bound h5
    case setAckPeriod ms => cases h4; exact ih.same hc hr' rfl rfl ih.size ih.bound h5

/-- The window of an encoder that gets no acks is empty only before the first commit. -/
theorem sided_nonempty (hc : c.Ok) (h : SidedReach c W io s) (hn : 0 < s.committed.length) : s.enc.win ≠ [] := by
  have := fact_of_valid hc.width
  induction h with
  | init => cases hn
  | @step s s' a h1 h2 h3 h4 ih =>
    by_cases hd : ∃ d, a = .commit d
    · obtain ⟨d, rfl⟩ := hd
      exact List.ne_nil_of_mem ((step_encoder h4).2.2 d rfl)
    · have hcom := step_committed h4
      have hnil : a.commits = [] := by
        cases a <;> first | rfl | exact absurd ⟨_, rfl⟩ hd
      rw [hcom, hnil, List.append_nil] at hn
      obtain ⟨x, hx⟩ := List.exists_mem_of_ne_nil _ (ih hn)
      rcases (step_encoder h4).2.1 x hx (by cases a <;> first | trivial | exact absurd ⟨_, rfl⟩ hd) with h5 | ⟨j, _, _, _, rfl, -⟩
      · exact List.ne_nil_of_mem h5
      · exact h3.elim

/-- With ordering, a source that arrived is known. -/
theorem known_of_arrived (hc : c.Ok) (h : Reach c true s) {i : Nat} (hi : i ∈ s.hist) {sr : ESource}
    (hs : s.enc.out[i]? = some (.source sr)) : s.dec.det.Knows sr.id := by
  have := fact_of_valid hc.width
  induction h with
  | init => cases hi
  | @step s s' a hr ha h3 ih =>
    obtain ⟨ems, A, ρ, L, W, K, hI⟩ := inv_of_reach hc hr
    by_cases hin : i ∈ s.hist
    · refine (C04_known_forever_partial hc hr a ha s' h3).1 _ (ih hin ?_)
      have hlt : i < s.enc.out.length := by rw [hI.enc.outLen]; exact hI.histLt i hin
      rw [(List.prefix_iff_getElem?.1 (step_out h3)) i hlt] at hs
      rw [List.getElem?_eq_getElem hlt]
      exact hs
    · rcases step_hist h3 with h4 | ⟨j, rfl, h4, h5⟩
      · rw [h4] at hi; exact absurd hi hin
      · rw [h4] at hi
        rcases List.mem_append.1 hi with hi2 | hi2
        · exact absurd hi2 hin
        obtain rfl : i = j := by simpa using hi2
        have hs0 : s.enc.out[i]? = some (.source sr) := by rw [← h5]; exact hs
        simp only [Allowed, hs0] at ha
        have hold : ∀ j ∈ s.hist, i < j → ¬ s.isRepair j := by
          rcases ha with ha | ha | ⟨hio, -⟩
          · exact absurd ha hin
          · exact ha
          · rw [hI.io] at hio; cases hio
        have hr' : Reach c true s' := .step hr (by simp only [Allowed, hs0]; exact ha) h3
        rcases C04_arrived_partial hc hr' i (by rw [h4]; exact hi) sr hs with h6 | h6
        · exact h6
        exfalso
        obtain ⟨ems', A', ρ', L', W', K', hI'⟩ := inv_of_reach hc hr'
        rw [hI'.outdated_iff] at h6
        obtain ⟨em, hem, hren⟩ := hI'.enc.ems_get hs
        cases em with
        | rep rid W' => obtain ⟨r, h1, _⟩ := hren; cases h1
        | src x =>
          obtain rfl : sr = srcOf (comData s') x := by injection hren
          rcases hI'.newest with ⟨_, h7⟩ | ⟨j, hj, Wl, g1, g2, g3, g4⟩
          · omega
          · have hne : j ≠ i := by
              rintro rfl
              rw [hem] at g1; cases g1
            have hji : j < i := by
              rw [h4] at hj
              rcases List.mem_append.1 hj with hj | hj
              · by_contra hcon
                refine hold j hj (by omega) ?_
                have hlt : j < s'.enc.out.length := by rw [hI'.enc.outLen]; exact getElem?_lt g1
                obtain ⟨r, hr, -⟩ := hI'.enc.rend j _ _ g1 (List.getElem?_eq_getElem hlt)
                refine ⟨r, ?_⟩
                rw [← h5, List.getElem?_eq_getElem hlt, hr]
              · have : j = i := by simpa using hj
                omega
            have := hI'.enc.later j i _ _ hji g1 hem L' (List.mem_of_mem_head? g3)
            have h8 : (srcOf (comData s') x).id = x := rfl
            omega

/-- What is older than all that a repair that arrived lists is outdated. -/
theorem outdated_of_repair (hc : c.Ok) (h : Reach c io s) {i : Nat} (hi : i ∈ s.hist) {r : ERepair}
    (hr : s.enc.out[i]? = some (.repair r)) {x : Nat} (hx : ∀ y ∈ r.ids, x < y) : s.dec.det.Outdated x := by
  have := fact_of_valid hc.width
  obtain ⟨ems, A, ρ, L, W, K, hI⟩ := inv_of_reach hc h
  rw [hI.outdated_iff]
  have hlt : i < ems.length := by rw [← hI.enc.outLen]; exact getElem?_lt hr
  have hem := List.getElem?_eq_getElem hlt
  have hren := hI.enc.rend i _ _ hem hr
  generalize ems[i] = em at hem hren
  cases em with
  | src x => cases hren
  | rep rid Wr =>
    obtain ⟨r', hr', hok, hne, hso⟩ := hren
    cases hr'
    have hids : r.ids = Wr := by rw [hok.ids, List.map_map]; exact List.map_id' _
    rw [hids] at hx
    rcases hI.newest with ⟨h1, -⟩ | ⟨j, hj, Wl, g1, g2, g3, g4⟩
    · exact absurd hem (h1 i hi _ _)
    · have hij := g4 i hi _ _ hem
      have hL : L ∈ Wl := List.mem_of_mem_head? g3
      rcases Nat.lt_or_eq_of_le hij with hij | rfl
      · obtain ⟨z, hz⟩ := List.exists_mem_of_ne_nil _ hne
        by_cases hzL : L ≤ z
        · exact hx _ (hI.enc.f2 i j _ _ _ _ hij hem g1 L hL z hz hzL)
        · have := hx z hz; omega
      · rw [hem] at g1
        cases g1
        exact hx L hL

end Netcode
