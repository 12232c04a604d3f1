import Verif.Props.Wait
import Verif.Props.Layout
import Verif.Props.Settings

/-!
# C84: how long packets are
-/

set_option linter.unusedSectionVars false

namespace Netcode

variable {w : Nat} {gf : GF w} {F : F64} {dbg : Bool} {c : Cfg w} {io : Bool} {s : Sys} {W : Nat}

/-- The length of a list of identifiers. -/
theorem writeIds_len {ids : List Nat} (hne : ids ≠ []) (hs : Sorted ids) (hb : ∀ x ∈ ids, x < 2 ^ 32) :
    (writeIds ids).flatten.length = 6 + 3 * nbRuns ids := by
  cases ids with
  | nil => exact absurd rfl hne
  | cons a t =>
    rw [← rle_runs a t hs hb]
    have key : ∀ l : List (Nat × Nat), (l.flatMap (fun p => [beBytes 1 p.1, beBytes 2 p.2])).flatten.length = 3 * l.length := by
      intro l
      induction l with
      | nil => rfl
      | cons p u ih =>
        rw [List.flatMap_cons, List.flatten_append, List.length_append, ih]
        simp [beBytes_length]; omega
    show ([beBytes 2 _, beBytes 4 a] ++ _).flatten.length = _
    rw [List.flatten_append, List.length_append, key]
    simp [beBytes_length]

theorem repair_len {r : ERepair} (hne : r.ids ≠ []) (hs : Sorted r.ids) (hb : ∀ x ∈ r.ids, x < 2 ^ 32) :
    (EPkt.repair r).bytes.length = 2 * r.sym.length + 17 + 3 * nbRuns r.ids := by
  have h := writeIds_len hne hs hb
  simp only [EPkt.bytes, EPkt.chunks, writeRepair, List.flatten_append, List.length_append, h]
  simp [beBytes_length]; omega

/-- **C84.** A source packet is 7 bytes longer than its datum. -/
theorem C84_source {acts : List EAct} {e : Enc} (hn : (commitsOf acts).length ≤ 2 ^ 32) (h : Enc.init.after gf F dbg acts = .ok e)
    {sr : ESource} (hs : .source sr ∈ e.out) : ∃ d, (commitsOf acts)[sr.id]? = some d ∧ (EPkt.source sr).bytes.length = d.length + 7 := by
  refine ⟨_, (eWin h hn).sent sr (mem_sourcesOf.2 hs), ?_⟩
  rw [C60_source_layout]
  simp [bigEndian]; omega

/-- **C84.** A repair packet that a call emits is 17 bytes longer than twice the longest datum in the window, and 3 more for each change of
the differences between the numbers it lists (and each 255 equal ones): less than 3 for each source in the window. -/
theorem C84_repair (hv : ValidW w) {acts : List EAct} {e e' : Enc} {a : EAct}
    (hn : (commitsOf (acts ++ [a])).length ≤ 2 ^ 32) (hd : ∀ d ∈ commitsOf (acts ++ [a]), DataOk w d)
    (h : Enc.init.after gf F dbg acts = .ok e) (ha : e.act gf F dbg a = .ok e') {r : ERepair}
    (hr : r ∈ repairsOf (e'.out.drop e.out.length)) :
    ∃ s ∈ e'.sources, (∀ t ∈ e'.sources, t.sym.length ≤ s.sym.length) ∧
      (EPkt.repair r).bytes.length = 2 * s.sym.length + 17 + 3 * nbRuns (e'.sources.map (·.id)) ∧
      nbRuns (e'.sources.map (·.id)) + 1 ≤ e'.window := by
  have := fact_of_valid hv
  have hq := C18_repair_of_window hv hn hd h ha r hr
  have h' : Enc.init.after gf F dbg (acts ++ [a]) = .ok e' := by
    unfold Enc.after at h ⊢
    rw [List.foldlM_append, h]
    simp only [bind, Except.bind, List.foldlM_cons, ha, List.foldlM_nil]; rfl
  have hw := eWin h' hn
  obtain ⟨s, hs, hl⟩ := hq.longest.2
  have hne : e'.sources.map (·.id) ≠ [] := List.ne_nil_of_mem (List.mem_map_of_mem hs)
  refine ⟨s, hs, fun t ht => by rw [hl]; exact hq.longest.1 t ht, ?_, ?_⟩
  · rw [repair_len (by rw [hq.ids]; exact hne) (by rw [hq.ids]; exact hw.sorted) (by
      intro x hx
      rw [hq.ids] at hx
      obtain ⟨t, ht, rfl⟩ := List.mem_map.1 hx
      have := getElem?_lt (hw.data t ht)
      omega), hl, hq.ids]
  · have h1 := nbRuns_lt (e'.sources.map (·.id))
    have h2 := List.length_pos_of_ne_nil hne
    rw [List.length_map] at h1 h2
    unfold Enc.window
    omega

/-- **C84.** With data of at most `n` bytes and a window of at most `W` sources, set at the beginning, no packet is longer than `2 n + 14 + 3 W`
bytes, whatever acks arrive. -/
theorem C84_fits_partial (hv : ValidW w) {acts : List EAct} {e : Enc} {n : Nat} (hW : 0 < W)
    (hn : (commitsOf acts).length ≤ 2 ^ 32) (hd : ∀ d ∈ commitsOf acts, DataOk w d ∧ d.length ≤ n)
    (h : Enc.init.after gf F dbg (.setWindow W :: acts) = .ok e) (hs : ∀ k, EAct.setWindow k ∉ acts) :
    ∀ p ∈ e.out, p.bytes.length ≤ 2 * n + 14 + 3 * W := by
  have := fact_of_valid hv
  have key : ∀ acts, (∀ k, EAct.setWindow k ∉ acts) → ∀ e, Enc.init.after gf F dbg (.setWindow W :: acts) = .ok e → e.window ≤ W := by
    intro acts hs e h
    have h1 : e.windowSize = W := by
      rw [(C50_encoder h).2.1]
      unfold windowSet
      rw [List.filterMap_cons, (List.filterMap_eq_nil_iff (l := acts)).2]
      · rfl
      · intro a ha
        cases a with
        | setWindow k => exact absurd ha (hs k)
        | _ => rfl
    have h2 := C22_window_bound_partial h (by
      intro pre k suf e' h3 h4
      cases pre with
      | nil => cases h4; exact Nat.zero_le _
      | cons b pre =>
        injection h3 with h5 h6
        exact absurd (by rw [h6]; simp) (hs k))
    omega
  induction acts using List.reverseRecOn generalizing e with
  | nil =>
    unfold Enc.after at h
    simp only [List.foldlM_cons, List.foldlM_nil, Enc.act, Enc.setWindowSize, bind_ok_iff, pure_ok_iff] at h
    obtain ⟨e1, ⟨-, -, rfl⟩, rfl⟩ := h
    intro p hp
    cases hp
  | append_singleton t a ih =>
    have hs' : ∀ k, EAct.setWindow k ∉ t := fun k hk => hs k (List.mem_append_left _ hk)
    rw [commitsOf_append] at hn hd
    rw [← List.cons_append] at h
    obtain ⟨e1, h1, h2⟩ := after_append h
    have h2 : e1.act gf F dbg a = .ok e := by
      unfold Enc.after at h2
      simp only [List.foldlM_cons, List.foldlM_nil, bind_ok_iff, pure_ok_iff] at h2
      obtain ⟨e2, h3, rfl⟩ := h2
      exact h3
    have hih := ih (by rw [List.length_append] at hn; omega) (fun d hd' => hd d (List.mem_append_left _ hd')) h1 hs'
    have hco : commitsOf ((.setWindow W :: t) ++ [a]) = commitsOf t ++ commitsOf [a] := by
      rw [commitsOf_append]; rfl
    obtain ⟨new, hnew⟩ := act_out h2
    intro p hp
    rw [hnew] at hp
    rcases List.mem_append.1 hp with hp | hp
    · exact hih p hp
    cases p with
    | source sr =>
      obtain ⟨d, h3, h4⟩ := C84_source (by rw [hco]; exact hn) h (sr := sr) (by rw [hnew]; exact List.mem_append_right _ hp)
      have := (hd d (by rw [← hco]; exact List.mem_of_getElem? h3)).2
      omega
    | repair r =>
      obtain ⟨s, h3, -, h4, h5⟩ := C84_repair hv (by rw [hco]; exact hn) (fun d hd' => (hd d (by rw [← hco]; exact hd')).1) h1 h2 (r := r)
        (by rw [hnew, List.drop_left]; exact mem_repairsOf.2 hp)
      have h6 := key _ hs e (by rw [← List.cons_append]; exact h)
      have h7 := (eWin h (by rw [hco]; exact hn)).data s h3
      have h8 := (hd _ (by rw [← hco]; exact List.mem_of_getElem? h7)).2
      omega

/-- **C84.** If no ack reaches the encoder the list of sources takes at most 6 bytes and 3 for each 255 differences begun. -/
theorem C84_no_acks_partial (hc : c.Ok) (h : SidedReach c W io s) {n : Nat} (hd : ∀ d ∈ s.committed, d.length ≤ n) :
    ∀ p ∈ s.enc.out, p.bytes.length ≤ 2 * n + 17 + 3 * ((W - 1 + 254) / 255) := by
  have := fact_of_valid hc.width
  have hr := sided_reach h
  obtain ⟨ems, A, ρ, L, W', K, hI⟩ := inv_of_reach hc hr
  have hdat : ∀ z < s.committed.length, (comData s z).length ≤ n := by
    intro z hz
    have h1 := List.getElem?_eq_getElem hz
    rw [comData_agree s z _ h1]
    exact hd _ (List.getElem_mem hz)
  intro p hp
  obtain ⟨i, hi⟩ := List.mem_iff_getElem?.1 hp
  cases p with
  | source sr =>
    obtain ⟨h1, h2⟩ := hI.source_lt hi
    have := hdat _ h1
    rw [C60_source_layout, h2]
    simp [bigEndian]
    omega
  | repair r =>
    obtain ⟨hq, hso⟩ := hI.fits hc hi
    have hlt := (C60_genuine hc hr).1 r hp
    obtain ⟨z, hz, hl⟩ := hq.longest.2
    obtain ⟨x, hx, rfl⟩ := List.mem_map.1 hz
    have hne : r.ids ≠ [] := List.ne_nil_of_mem hx
    have hxl : x < s.committed.length := by
      obtain ⟨em, hem, hren⟩ := hI.enc.ems_get hi
      cases em with
      | src y => cases hren
      | rep rid Wr =>
        obtain ⟨r', e, hok, -, -⟩ := hren
        cases e
        have hids : r.ids = Wr := by rw [hok.ids, List.map_map]; exact List.map_id' _
        exact hI.enc.emLt _ (List.mem_of_getElem? hem) x (by rw [hids] at hx; exact hx)
    have h3 := hdat x hxl
    have hlen : (writeIds r.ids).flatten.length ≤ 6 + 3 * ((W - 1 + 254) / 255) := by
      obtain ⟨a, k, h1, h2⟩ := (span_of_sided hc h).rep r hp
      obtain ⟨k, rfl⟩ : ∃ k', k = k' + 1 := ⟨k - 1, by
        have : k ≠ 0 := by rintro rfl; exact hne (h1.trans rfl)
        omega⟩
      have hb : a + k < 2 ^ 32 := hlt.2 _ (by rw [h1, List.mem_range'_1]; omega)
      rw [h1, C60_consecutive a k hb]
      have : (k + 254) / 255 ≤ (W - 1 + 254) / 255 := Nat.div_le_div_right (by omega)
      omega
    rw [writeIds_len hne hlt.1 hlt.2] at hlen
    rw [repair_len hne hlt.1 hlt.2]
    have : r.sym.length ≤ n := by rw [← hl]; exact h3
    omega

/-- **C84.** An ack is 5 bytes long if it names no source, and otherwise 9 bytes and less than 3 for each source. -/
theorem C84_ack (hc : c.Ok) (h : Reach c io s) {a : Ack} (ha : a ∈ s.dec.out) :
    (writeAck a).flatten.length = (if a.ids = [] then 5 else 9 + 3 * nbRuns a.ids) ∧ nbRuns a.ids + 1 ≤ max a.ids.length 1 := by
  obtain ⟨h1, h2⟩ := (C60_genuine hc h).2 a ha
  refine ⟨?_, nbRuns_lt _⟩
  split
  · next h0 => simp [writeAck, h0, writeIds, beBytes_length]
  · next h0 =>
    simp only [writeAck, List.flatten_append, List.length_append, writeIds_len h0 h1 h2]
    simp [beBytes_length]; omega

theorem one_repair (hv : ValidW w) (d : List Byte) (hd : DataOk w d) :
    ∃ e₁ e r, Enc.init.commit gf dbg d = .ok e₁ ∧ e₁.window = 1 ∧ e₁.nbSentRepairs = 0 ∧ e₁.generateRepair gf dbg = .ok e ∧ e.out = [.source ⟨0, d⟩, .repair r] ∧ r.ids = [0] ∧
      (EPkt.repair r).bytes.length = d.length + (d.length + 17) := by
  have := fact_of_valid hv
  have hok : ∀ z ∈ [(⟨0, d⟩ : ESource)], DataOk w z.sym := by
    intro z hz
    rw [List.mem_singleton] at hz
    rw [hz]; exact hd
  obtain ⟨r, h1, h2⟩ := encodeRepair_ok gf hv dbg 0 [⟨0, d⟩] (by simp) hok (by simp)
  have hq := isRepairOf_of_encOk gf hv h2 hok
  have hids : r.ids = [0] := hq.ids
  have hlen : r.sym.length = d.length := by
    obtain ⟨z, hz, h3⟩ := hq.longest.2
    rw [List.mem_singleton] at hz
    rw [hz] at h3
    exact h3.symm
  have hpos := hd.1
  refine ⟨{ Enc.init with
    curSrc := 1
    sources := [⟨0, d⟩]
    nbSentSources := 1
    nbSentPackets := 1
    out := [.source ⟨0, d⟩] }, { Enc.init with
    curSrc := 1
    curRep := 1
    sources := [⟨0, d⟩]
    nbSentRepairs := 1
    nbSentSources := 1
    nbSentPackets := 2
    out := [.source ⟨0, d⟩, .repair r] }, r, ?_, rfl, rfl, ?_, rfl, hids, ?_⟩
  rotate_left 2
  · rw [repair_len (by rw [hids]; simp) (by rw [hids]; simp) (by rw [hids]; simp), hids, hlen]
    show 2 * d.length + 17 + 3 * 0 = _
    omega
  all_goals
    have n1 : ¬ d = [] := List.ne_nil_of_length_pos hpos
    have n2 : ¬ (w = 16 ∧ d.length % 2 = 1) := by
      rintro ⟨rfl, h⟩
      have := hd.2.2
      omega
    have n3 : ¬ (w = 32 ∧ ¬ d.length % 4 = 0) := by
      rintro ⟨rfl, h⟩
      have := hd.2.2
      omega
    simp [Enc.commit, Enc.emitNew, Enc.autoRepair, Enc.init, Enc.generateRepair, h1, hlen, cassert, ensure, n1, n2, n3, bind, Except.bind,
      pure, Except.pure]

/-- **C84 fails** for repairs: the symbol is written twice, so that a repair of a single datum of `N` bytes is longer than the datum by as
many bytes again, and 17 more. -/
theorem C84_false (hv : ValidW w) (d : List Byte) (hd : DataOk w d) :
    ∃ e r, Enc.init.after gf F dbg [.commit d, .repair] = .ok e ∧ e.out = [.source ⟨0, d⟩, .repair r] ∧
      (EPkt.repair r).bytes.length = d.length + (d.length + 17) := by
  obtain ⟨e₁, e, r, h0, _, _, h1, h2, _, h3⟩ := one_repair (gf := gf) (dbg := dbg) hv d hd
  refine ⟨e, r, ?_, h2, h3⟩
  unfold Enc.after
  simp only [List.foldlM_cons, List.foldlM_nil, Enc.act, h0, h1, bind, Except.bind]
  rfl

/-! ## A concrete history -/

/-- A window of two, data of lengths 3, 1 and 2, and a repair. -/
def lengthHist : List EAct := [.setWindow 2, .commit [1, 2, 3], .commit [4], .commit [5, 6]]

example : ((Enc.init.after gf8 F0 true (lengthHist ++ [.repair])).map (fun e => e.out.map (·.bytes.length))).toOption = some [10, 8, 9, 24] := by
  decide +kernel

example (e : Enc) (sr : ESource) (h : Enc.init.after gf8 F0 dbg lengthHist = .ok e) (hs : .source sr ∈ e.out) :
    ∃ d, (commitsOf lengthHist)[sr.id]? = some d ∧ (EPkt.source sr).bytes.length = d.length + 7 :=
  C84_source (by decide) h hs

example (e e' : Enc) (r : ERepair) (h : Enc.init.after gf8 F0 dbg lengthHist = .ok e) (h' : e.act gf8 F0 dbg .repair = .ok e')
    (hr : r ∈ repairsOf (e'.out.drop e.out.length)) : ∃ s ∈ e'.sources, (∀ t ∈ e'.sources, t.sym.length ≤ s.sym.length) ∧
      (EPkt.repair r).bytes.length = 2 * s.sym.length + 17 + 3 * nbRuns (e'.sources.map (·.id)) ∧
      nbRuns (e'.sources.map (·.id)) + 1 ≤ e'.window :=
  C84_repair (by unfold ValidW; simp) (by decide) (by decide) h h' hr

example (e : Enc) (h : Enc.init.after gf8 F0 dbg (lengthHist ++ [.repair]) = .ok e) : ∀ p ∈ e.out, p.bytes.length ≤ 26 :=
  C84_fits_partial (n := 3) (W := 2) (by unfold ValidW; simp) (by decide) (by decide) (by decide) h (by intro k; simp)

example : ∀ p ∈ (sidedReached (cfg8 true) 2 true waitActs).enc.out, p.bytes.length ≤ 22 :=
  C84_no_acks_partial (n := 1) (cfg8_ok true) (sidedReached_reach (by decide +kernel)) (by decide +kernel)

/-- Sources 0 and 2 arrive, and an ack is asked for. -/
def lengthActs : List Act := [.commit [1], .commit [2], .commit [3], .deliver 0, .deliver 2, .genAck]

example : ∀ a ∈ (reached (cfg8 true) false lengthActs).dec.out, (writeAck a).flatten.length = 12 := by
  intro a ha
  have h := C84_ack (cfg8_ok true) (reached_reach (by decide +kernel)) ha
  have h1 : (reached (cfg8 true) false lengthActs).dec.out = [⟨[0, 2], 2⟩] := by decide +kernel
  rw [h1, List.mem_singleton] at ha
  rw [h.1, ha]
  decide

example : DataOk 8 [1, 2, 3] := by decide

end Netcode
