import Verif.Proofs.SysFacts
import Verif.Proofs.Check
import Verif.Proofs.AckIds

/-!
# End-to-end properties of an encoder/decoder pair

`Reach c io s`: the state `s` is reached from a new encoder and a new decoder by allowed calls and arrivals
(`Verif/Spec/Schedule.lean`): loss, duplication and delay in both directions, repairs in order unless they do no harm
(`Verif/Props/Old.lean`), sources overtaken by repairs as long as they do not clash (`Verif/Props/Clash.lean`; overtaken by none with
ordering; see `Verif/Props/Late.lean`).  The claims without these limits are false of the code; see
`Verif/Props/Defects.lean`.
-/

set_option linter.unusedSectionVars false

namespace Netcode

variable {w : Nat} {c : Cfg w} {io : Bool} {s : Sys}

theorem inv_of_reach [Fact (0 < w)] (hc : c.Ok) (h : Reach c io s) :
    ∃ ems A ρ L W K, SysInv c io (comData s) ems A ρ L W K s := reach_inv hc h _ (comData_agree s)

/-- A schedule used by the examples: a loss repaired, a source overtaken by a repair, acks, duplicates. -/
def demo : List Act :=
  [.setRate 3, .commit [1, 2], .commit [3], .commit [4, 5, 6], .deliver 0, .deliver 3, .deliver 2, .genAck, .ack 0,
   .commit [7], .commit [8, 9], .repair, .deliver 6, .deliver 4, .deliver 4, .deliver 6, .setAdaptive true, .genAck,
   .ack 1, .ack 0]

/-- The same for a decoder that delivers in order. -/
def demoOrd : List Act :=
  [.setRate 3, .commit [1, 2], .commit [3], .commit [4, 5, 6], .deliver 0, .deliver 2, .deliver 3, .genAck, .ack 0,
   .commit [7], .commit [8, 9], .repair, .deliver 4, .deliver 6, .deliver 4]

theorem demo_reach : Reach (cfg8 true) false (reached (cfg8 true) false demo) := reached_reach (by decide +kernel)
theorem demoOrd_reach : Reach (cfg8 true) true (reached (cfg8 true) true demoOrd) := reached_reach (by decide +kernel)

/-! ## C05 -/

/-- **C05.** No allowed call or arrival meets undefined behaviour, a failed assertion (`dbg` is arbitrary in `c`)
or an exception. -/
theorem C05_no_fault_partial (hc : c.Ok) (h : Reach c io s) (a : Act) (ha : Allowed c s a) :
    ∃ s', s.step c a = .ok s' ∧ s'.errs = 0 := by
  have := fact_of_valid hc.width
  obtain ⟨data, hA, hD⟩ : ∃ data, Agree data s.committed ∧ ∀ d, a = .commit d → data s.committed.length = d := by
    cases a with
    | commit d =>
      refine ⟨fun x => (s.committed ++ [d]).getD x [], ?_, ?_⟩
      · intro x e hx
        simp only
        rw [List.getD_eq_getElem?_getD, List.getElem?_append_left (getElem?_lt hx), hx]; rfl
      · intro e he
        cases he
        simp
    | _ => exact ⟨_, comData_agree s, by intro d hd; cases hd⟩
  obtain ⟨ems, A, ρ, L, W, K, hI⟩ := reach_inv hc h data hA
  obtain ⟨s', new, A', ρ', L', W', K', h1, h2, _⟩ := hI.step hc hA a ha hD
  exact ⟨s', h1, h2.errs⟩

/-- The hypotheses are met along the example schedule, to its end. -/
example : ∃ s', (reached (cfg8 true) false demo).step (cfg8 true) (.deliver 5) = .ok s' ∧ s'.errs = 0 :=
  C05_no_fault_partial (cfg8_ok true) demo_reach _ (allowed_of_B (by decide +kernel))

/-! ## C01 -/

/-- **C01.** Everything handed to the data handler was committed. -/
theorem C01_integrity_partial (hc : c.Ok) (h : Reach c io s) : ∀ d ∈ s.dec.data, d ∈ s.committed := by
  have := fact_of_valid hc.width
  obtain ⟨ems, A, ρ, L, W, K, hI⟩ := inv_of_reach hc h
  exact fun d hd => (hI.subperm rfl).subset hd

/-- **C01**, by position: the datum handed over as source `x` is the `x`-th committed one. -/
theorem C01_integrity_by_id_partial (hc : c.Ok) (h : Reach c io s) :
    ∀ ev ∈ s.dec.det.log, s.committed[ev.id]? = some ev.data := by
  have := fact_of_valid hc.width
  obtain ⟨ems, A, ρ, L, W, K, hI⟩ := inv_of_reach hc h
  intro ev hev
  have h1 := hI.dinv.log.logData ev hev
  have h2 : ev.id < s.committed.length := hI.handed_lt (List.mem_map_of_mem hev)
  rw [h1, List.getElem?_eq_getElem h2]
  unfold comData
  rw [List.getD_eq_getElem?_getD, List.getElem?_eq_getElem h2]
  rfl

/-- Data recovered from repairs are delivered: source 1 was lost. -/
example : [3] ∈ (reached (cfg8 true) false demo).dec.data := by decide +kernel
example : ∀ d ∈ (reached (cfg8 true) false demo).dec.data, d ∈ (reached (cfg8 true) false demo).committed :=
  C01_integrity_partial (cfg8_ok true) demo_reach

/-! ## C02 -/

/-- **C02.** No datum is handed over more often than it was committed. -/
theorem C02_at_most_once_partial (hc : c.Ok) (h : Reach c io s) (d : List Byte) :
    s.dec.data.count d ≤ s.committed.count d := by
  have := fact_of_valid hc.width
  obtain ⟨ems, A, ρ, L, W, K, hI⟩ := inv_of_reach hc h
  exact (hI.subperm rfl).count_le d

/-- **C02**, by position: no source is handed over twice. -/
theorem C02_at_most_once_by_id_partial (hc : c.Ok) (h : Reach c io s) : s.dec.det.handed.Nodup := by
  have := fact_of_valid hc.width
  obtain ⟨ems, A, ρ, L, W, K, hI⟩ := inv_of_reach hc h
  exact hI.handed_nodup

/-- Five commits, one loss and two duplicates: all five data are handed over, once each. -/
example : (reached (cfg8 true) false demo).dec.data = [[1, 2], [4, 5, 6], [3], [7], [8, 9]] := by decide +kernel
example : (reached (cfg8 true) false demo).dec.data.count [7] ≤ (reached (cfg8 true) false demo).committed.count [7] :=
  C02_at_most_once_partial (cfg8_ok true) demo_reach [7]

/-! ## C03 -/

/-- **C03.** With ordering, the data handed over are a subsequence of the committed ones. -/
theorem C03_in_order_partial (hc : c.Ok) (h : Reach c true s) : s.dec.data.Sublist s.committed := by
  have := fact_of_valid hc.width
  obtain ⟨ems, A, ρ, L, W, K, hI⟩ := inv_of_reach hc h
  exact hI.sublist rfl

/-- Source 2 arrived before source 1 was recovered. -/
example : (reached (cfg8 true) true demoOrd).dec.data = [[1, 2], [3], [4, 5, 6], [7], [8, 9]] := by decide +kernel
example : (reached (cfg8 true) true demoOrd).dec.data.Sublist (reached (cfg8 true) true demoOrd).committed :=
  C03_in_order_partial (cfg8_ok true) demoOrd_reach

/-! ## C04 -/

/-- **C04.** With ordering, a source the decoder holds and has not handed over waits for an older source which is
neither known nor outdated. -/
theorem C04_withheld_partial (hc : c.Ok) (h : Reach c true s) (x : Nat) (hx : s.dec.det.Holds x)
    (hn : x ∉ s.dec.det.handed) : ∃ y < x, ¬ s.dec.det.Knows y ∧ ¬ s.dec.det.Outdated y := by
  have := fact_of_valid hc.width
  obtain ⟨ems, A, ρ, L, W, K, hI⟩ := inv_of_reach hc h
  have hxK : x ∈ K := (hI.knows_iff x).1 (Or.inr hx)
  obtain ⟨ho, hf⟩ := hI.dinv.log.ord hI.io
  have h1 : s.dec.det.firstMissing ≤ x := by
    by_contra hc2
    exact hn ((ho.logMem x).2 ⟨hxK, by omega⟩)
  have h2 : s.dec.det.firstMissing ≠ x := fun e => hf (e ▸ hxK)
  refine ⟨s.dec.det.firstMissing, by omega, ?_, ?_⟩
  · rw [hI.knows_iff]; exact hf
  · rw [hI.outdated_iff]; have := ho.lo; omega

/-- **C04**, nothing is dropped: every source packet that arrived is known, unless it was outdated. -/
theorem C04_arrived_partial (hc : c.Ok) (h : Reach c io s) (i : Nat) (hi : i ∈ s.hist) (sr : ESource)
    (hs : s.enc.out[i]? = some (.source sr)) : s.dec.det.Knows sr.id ∨ s.dec.det.Outdated sr.id := by
  have := fact_of_valid hc.width
  obtain ⟨ems, A, ρ, L, W, K, hI⟩ := inv_of_reach hc h
  obtain ⟨em, hem, hr⟩ := hI.enc.ems_get hs
  cases em with
  | rep rid W' => obtain ⟨r, h1, _⟩ := hr; cases h1
  | src x =>
    obtain rfl : sr = srcOf (comData s) x := by injection hr
    rw [hI.knows_iff, hI.outdated_iff]
    exact hI.seen i hi x hem

/-- **C04**, nothing is dropped later: what is known stays known, and what is handed over stays handed over. -/
theorem C04_known_forever_partial (hc : c.Ok) (h : Reach c io s) (a : Act) (ha : Allowed c s a) (s' : Sys)
    (hs : s.step c a = .ok s') :
    (∀ x, s.dec.det.Knows x → s'.dec.det.Knows x) ∧ s.dec.det.handed <+: s'.dec.det.handed := by
  have := fact_of_valid hc.width
  have hag : Agree (comData s') s.committed := by
    have := comData_agree s'
    rw [step_committed hs] at this
    exact this.prefix
  obtain ⟨ems, A, ρ, L, W, K, hI⟩ := reach_inv hc h _ hag
  obtain ⟨s2, new, A', ρ', L', W', K', h1, h2, h3, h4⟩ := hI.step hc hag a ha (by
    rintro d rfl
    have := comData_agree s' s.committed.length d (by rw [step_committed hs]; simp [Act.commits])
    exact this)
  rw [hs] at h1
  cases h1
  refine ⟨fun x hx => (h2.knows_iff x).2 (h4 ((hI.knows_iff x).1 hx)), ?_⟩
  exact h3.map _

/-- In the example source 2 is withheld until source 1 is recovered. -/
example : let s := reached (cfg8 true) true (demoOrd.take 6)
    s.dec.det.Holds 2 ∧ 2 ∉ s.dec.det.handed ∧ ¬ s.dec.det.Knows 1 ∧ ¬ s.dec.det.Outdated 1 := by decide +kernel
example : ∃ y < 2, ¬ (reached (cfg8 true) true (demoOrd.take 6)).dec.det.Knows y ∧
    ¬ (reached (cfg8 true) true (demoOrd.take 6)).dec.det.Outdated y :=
  C04_withheld_partial (cfg8_ok true) (reached_reach (by decide +kernel)) 2 (by decide +kernel) (by decide +kernel)

/-! ## C19 -/

/-- **C19.** When a repair arrives and all the sources it lists but one are known, the decoder gets all of them that
are not outdated: each is handed over or held with the committed bytes. -/
theorem C19_single_loss_partial (hc : c.Ok) (h : Reach c io s) (i : Nat) (r : ERepair)
    (hi : s.enc.out[i]? = some (.repair r)) (ha : Allowed c s (.deliver i)) (hn : i ∉ s.hist) (x : Nat)
    (hx : ∀ y ∈ r.ids, ¬ s.dec.det.Knows y → y = x) :
    ∃ s', s.step c (.deliver i) = .ok s' ∧
      ∀ y ∈ r.ids, ¬ s.dec.det.Outdated y → s'.dec.det.HasData y (s.committed.getD y []) := by
  have := fact_of_valid hc.width
  obtain ⟨ems, A, ρ, L, W, K, hI⟩ := inv_of_reach hc h
  simp only [Allowed, hi] at ha
  obtain ⟨s', ρ', L', W', K', h1, h2, h3, _, _, _, _, _, h4⟩ :=
    hI.mayArrive hc (comData_agree s).getD hi ha.1 ha.2.1 ha.2.2
  refine ⟨s', h1, fun y hy ho => h2.hasData ?_⟩
  rcases h4 x hn (fun z hz hk => hx z hz (fun hkn => hk ((hI.knows_iff z).1 hkn))) y hy with h5 | h5
  · exact h5.1
  · exact absurd (hI.outdated h5) ho

/-- **C19.** None of the sources listed by a repair newer than all that arrived is outdated: it brings all of them. -/
theorem C19_newest_partial (hc : c.Ok) (h : Reach c io s) (i : Nat) (r : ERepair)
    (hi : s.enc.out[i]? = some (.repair r)) (hnew : ∀ j ∈ s.hist, s.isRepair j → j ≤ i) :
    ∀ y ∈ r.ids, ¬ s.dec.det.Outdated y := by
  have := fact_of_valid hc.width
  obtain ⟨ems, A, ρ, L, W, K, hI⟩ := inv_of_reach hc h
  exact hI.newest_current hi hnew

/-- In the example source 1, of one byte, is missing when the repair of the sources 0, 1, 2 arrives. -/
example : ∃ i r, (reached (cfg8 true) true (demoOrd.take 6)).enc.out[i]? = some (.repair r) ∧ r.ids = [0, 1, 2] ∧
    Allowed (cfg8 true) (reached (cfg8 true) true (demoOrd.take 6)) (.deliver i) ∧
    i ∉ (reached (cfg8 true) true (demoOrd.take 6)).hist ∧
    ∀ y ∈ r.ids, ¬ (reached (cfg8 true) true (demoOrd.take 6)).dec.det.Knows y → y = 1 := by
  refine ⟨3, ⟨0, [0, 1, 2], 13, [0x1b, 0x17, 0x1e]⟩, by decide +kernel, rfl, allowed_of_B (by decide +kernel),
    by decide +kernel, by decide +kernel⟩

/-! ## C20 -/

/-- **C20.** When a repair newer than all that arrived arrives, as many usable repairs as unknown sources are available (the new one, and those
held that list nothing older than its first source) and their equations have no other solution than zero with zero
right-hand sides, the decoder gets all the sources it lists: each is handed over or held with the committed bytes. -/
theorem C20_n_losses_partial (hc : c.Ok) (h : Reach c io s) (i : Nat) (r : ERepair) (f : Nat)
    (hi : s.enc.out[i]? = some (.repair r)) (hf : r.ids.head? = some f) (ha : Allowed c s (.deliver i)) (hn : i ∉ s.hist)
    (hnew : ∀ j ∈ s.hist, s.isRepair j → j ≤ i)
    (hlen : (rowsFor f s.dec.det.repairs r.id r.ids).length = (r.ids.filter (fun x => decide (¬ s.dec.det.Knows x))).length)
    (hind : Independent c.gf (rowsFor f s.dec.det.repairs r.id r.ids) (r.ids.filter (fun x => decide (¬ s.dec.det.Knows x)))) :
    ∃ s', s.step c (.deliver i) = .ok s' ∧ ∀ y ∈ r.ids, s'.dec.det.HasData y (s.committed.getD y []) := by
  have := fact_of_valid hc.width
  obtain ⟨ems, A, ρ, L, W, K, hI⟩ := inv_of_reach hc h
  simp only [Allowed, hi] at ha
  obtain ⟨s', K', f', h1, h2, h3, _, _, _, _, _, h5, _, h4, _⟩ :=
    hI.deliverRepair hc (comData_agree s).getD hi hnew ha.2.1 ha.2.2
  obtain rfl : f = f' := by rw [hf] at h5; exact Option.some.inj h5
  refine ⟨s', h1, fun y hy => h2.hasData ?_⟩
  rw [h4 (r.ids.filter (fun x => decide (¬ s.dec.det.Knows x))) hn (List.Pairwise.filter _ ha.2.1.1) ?_ hlen hind]
  · exact Or.inr hy
  · intro x
    rw [List.mem_filter, decide_eq_true_eq, hI.knows_iff]

/-- **C20.** When a repair that newer ones have overtaken arrives, starts with the same source as the newest one and lists at
least two unknown sources, and with it there are as many repairs as missing sources, with equations that have no other
solution than zero with zero right-hand sides, the decoder gets all the missing sources. -/
theorem C20_overtaken_partial (hc : c.Ok) (h : Reach c io s) (i : Nat) (r : ERepair) (f : Nat)
    (hi : s.enc.out[i]? = some (.repair r)) (hf : r.ids.head? = some f) (ha : Allowed c s (.deliver i)) (hn : i ∉ s.hist)
    (hold : ∃ j ∈ s.hist, s.isRepair j ∧ i < j) (hlast : s.dec.det.lastId = some f)
    (htwo : ∃ y ∈ r.ids, ∃ z ∈ r.ids, y ≠ z ∧ ¬ s.dec.det.Knows y ∧ ¬ s.dec.det.Knows z)
    (hlen : s.dec.det.repairs.length + 1 = s.dec.det.missing.length)
    (hind : Independent c.gf (s.dec.det.repairs.map (fun q => (q.1, q.2.ids)) ++ [(r.id, r.ids)]) s.dec.det.missing.keys) :
    ∃ s', s.step c (.deliver i) = .ok s' ∧ ∀ y ∈ s.dec.det.missing.keys, s'.dec.det.HasData y (s.committed.getD y []) := by
  have := fact_of_valid hc.width
  obtain ⟨ems, A, ρ, L, W, K, hI⟩ := inv_of_reach hc h
  simp only [Allowed, hi] at ha
  have hno : ¬ ∀ j ∈ s.hist, s.isRepair j → j ≤ i := by
    obtain ⟨j, h1, h2, h3⟩ := hold
    intro h4
    have := h4 j h1 h2
    omega
  obtain ⟨s', K', h1, h2, _, _, _, _, _, _, _, h3⟩ :=
    hI.deliverOld hc (comData_agree s).getD hi hno (ha.1.resolve_left hno) ha.2.1 ha.2.2
  refine ⟨s', h1, fun y hy => h2.hasData ?_⟩
  rw [h3 ⟨f, hlast, hf⟩ hn ?_ hlen hind]
  · exact Or.inr ((hI.dinv.core.misKeys y).1 hy).1
  · obtain ⟨y, g1, z, g2, g3, g4, g5⟩ := htwo
    exact ⟨y, g1, z, g2, g3, fun hk => g4 ((hI.knows_iff y).2 hk), fun hk => g5 ((hI.knows_iff z).2 hk)⟩

/-- Repair 1 arrives before repair 0; sources 0 and 1 are lost. -/
def demoOvertaken : List Act :=
  [.setRate 3, .commit [1, 2], .commit [3], .commit [4, 5, 6], .repair, .deliver 2, .deliver 4]
example : ∃ s', (reached (cfg8 true) false demoOvertaken).step (cfg8 true) (.deliver 3) = .ok s' ∧
    ∀ z ∈ (reached (cfg8 true) false demoOvertaken).dec.det.missing.keys,
      s'.dec.det.HasData z ((reached (cfg8 true) false demoOvertaken).committed.getD z []) := by
  refine C20_overtaken_partial (cfg8_ok true) (io := false) (reached_reach (by decide +kernel)) 3
    ⟨0, [0, 1, 2], 13, [27, 23, 30]⟩ 0 (by decide +kernel) rfl (allowed_of_B (by decide +kernel)) (by decide +kernel)
    (by decide +kernel) (by decide +kernel) ⟨0, by decide, 1, by decide, by decide, by decide +kernel, by decide +kernel⟩
    (by decide +kernel) ?_
  have := fact_of_valid (cfg8_ok true).width
  have h1 : (reached (cfg8 true) false demoOvertaken).dec.det.repairs.map (fun q => (q.1, q.2.ids)) = [(1, [0, 1])] := by decide +kernel
  have h2 : (reached (cfg8 true) false demoOvertaken).dec.det.missing.keys = [0, 1] := by decide +kernel
  rw [h1, h2]
  intro v hv
  exact two_by_two _ v _ _ _ _ (by decide +kernel) (hv (1, [0, 1]) (by simp)) (hv (0, [0, 1, 2]) (by simp))
example : (reached (cfg8 true) false demoOvertaken).dec.det.missing.keys = [0, 1] := by decide +kernel

/-- **C44.** Two lost sources are recovered from two repairs that list both when the minor of their coefficients is
not zero: the second repair brings both. -/
theorem C44_two_losses_partial (hc : c.Ok) (h : Reach c io s) (i : Nat) (r : ERepair) (f x y q : Nat) (qr : DRepair)
    (hi : s.enc.out[i]? = some (.repair r)) (hf : r.ids.head? = some f) (ha : Allowed c s (.deliver i)) (hn : i ∉ s.hist)
    (hnew : ∀ j ∈ s.hist, s.isRepair j → j ≤ i) (hheld : s.dec.det.repairs = [(q, qr)]) (hq : qr.ids = [x, y]) (hxy : f ≤ x ∧ x < y)
    (hmiss : r.ids.filter (fun z => decide (¬ s.dec.det.Knows z)) = [x, y])
    (hminor : c.gf.mul (coefficient w q x) (coefficient w r.id y) ≠ c.gf.mul (coefficient w q y) (coefficient w r.id x)) :
    ∃ s', s.step c (.deliver i) = .ok s' ∧ ∀ z ∈ r.ids, s'.dec.det.HasData z (s.committed.getD z []) := by
  have := fact_of_valid hc.width
  have hrows : rowsFor f s.dec.det.repairs r.id r.ids = [(q, [x, y]), (r.id, r.ids)] := by
    unfold rowsFor
    rw [hheld, List.filter_cons_of_pos]
    · simp [hq]
    · simp only [hq, decide_eq_true_eq]
      intro z hz
      simp only [List.mem_cons, List.not_mem_nil, or_false] at hz
      omega
  have hm : ∀ z ∈ [x, y], z ∈ r.ids := by
    intro z hz; rw [← hmiss] at hz; exact (List.mem_filter.1 hz).1
  refine C20_n_losses_partial hc h i r f hi hf ha hn hnew (by rw [hrows, hmiss]; rfl) ?_
  rw [hrows, hmiss]
  intro v hv
  have e1 := hv (q, [x, y]) (by simp)
  have e2 := hv (r.id, r.ids) (by simp)
  have f1 : [x, y].filter (fun z => decide (z ∈ [x, y])) = [x, y] := by simp
  have f2 : [x, y].filter (fun z => decide (z ∈ r.ids)) = [x, y] := by
    rw [List.filter_eq_self]; intro z hz; simpa using hm z hz
  simp only [f1, f2, xorOver, List.foldl_cons, List.foldl_nil] at e1 e2
  exact two_by_two c.gf v _ _ _ _ hminor e1 e2

/-- In the example sources 0 and 1 are lost; repairs 0 and 1 list both. -/
def demoTwo : List Act :=
  [.setRate 3, .commit [1, 2], .commit [3], .commit [4, 5, 6], .deliver 2, .deliver 3, .repair]
example : let s := reached (cfg8 true) false demoTwo
    ¬ s.dec.det.Knows 0 ∧ ¬ s.dec.det.Knows 1 ∧ s.dec.det.repairs.map (fun q => (q.1, q.2.ids)) = [(0, [0, 1])] := by
  decide +kernel
example : ∃ s', (reached (cfg8 true) false demoTwo).step (cfg8 true) (.deliver 4) = .ok s' ∧
    ∀ z ∈ [0, 1, 2], s'.dec.det.HasData z ((reached (cfg8 true) false demoTwo).committed.getD z []) := by
  exact C44_two_losses_partial (cfg8_ok true) (io := false) (reached_reach (by decide +kernel)) 4
    ⟨1, [0, 1, 2], 0x1a, [0x30, 0x29, 0x3a]⟩ 0 0 1 0
    ⟨0, [0, 1], 2, [0x0f, 6, 0, 0, 2, 0, 0, 0, 0, 2, 0, 1, 0, 0x0d, 0, 3, 0x1b, 0x17, 0x1e], 3⟩ (by decide +kernel) rfl
    (allowed_of_B (by decide +kernel)) (by decide +kernel) (by decide +kernel) (by decide +kernel) rfl (by decide)
    (by decide +kernel) (by decide +kernel)

/-! ## C24 -/

/-- **C24.** Each identifier in each ack emitted is one the decoder got, with the committed data. -/
theorem C24_acks_known_partial (hc : c.Ok) (h : Reach c io s) :
    ∀ a ∈ s.dec.out, ∀ x ∈ a.ids, x < s.committed.length ∧ s.dec.det.HasData x (s.committed.getD x []) := by
  have := fact_of_valid hc.width
  obtain ⟨ems, A, ρ, L, W, K, hI⟩ := inv_of_reach hc h
  intro a ha x hx
  have hk := (hI.acks.out a ha).2.1 x hx
  exact ⟨hI.knownLt x hk, hI.hasData hk⟩

/-- **C24.** An ack the user asks for lists exactly the sources the decoder holds. -/
theorem C24_ack_lists_held (hc : c.Ok) (h : Reach c io s) (x : Nat) :
    ∃ a, s.dec.generateAck.out = s.dec.out ++ [a] ∧ (x ∈ a.ids ↔ s.dec.det.Holds x) := by
  have := fact_of_valid hc.width
  obtain ⟨ems, A, ρ, L, W, K, hI⟩ := inv_of_reach hc h
  refine ⟨_, rfl, ?_⟩
  simp only [foldl_setInsert_mem, (reach_counts h).ids, List.not_mem_nil, false_or]
  rfl

example : (reached (cfg8 true) false demo).dec.out = [⟨[0, 1, 2], 3⟩, ⟨[3, 4], 4⟩] := by decide +kernel

/-! ## C43 -/

theorem SysInv.bookkeeping [Fact (0 < w)] {data : Nat → List Byte} {ems : List Em} {A : Set Nat} {ρ L : Nat} {W K : Set Nat}
    (hI : SysInv c io data ems A ρ L W K s) :
    (∀ x, x ∈ s.dec.det.missing.keys ↔
      (∃ i ∈ s.hist, ∃ r, s.enc.out[i]? = some (.repair r) ∧ x ∈ r.ids) ∧ ¬ s.dec.det.Knows x ∧ ¬ s.dec.det.Outdated x) ∧
    s.dec.det.missing.keys.Nodup ∧
    (∀ q ∈ s.dec.det.repairs, q.2.ids ≠ [] ∧ ∀ x ∈ q.2.ids, x ∈ s.dec.det.missing.keys) ∧
    (s.dec.det.repairs ≠ [] → s.dec.det.repairs.length < s.dec.det.missing.length) := by
  have hcore := hI.dinv.core
  have hmem : ∀ q ∈ s.dec.det.repairs, ∀ x ∈ q.2.ids, x ∈ s.dec.det.missing.keys := by
    intro q hq x hx
    have := (hcore.rep q hq).2.2.1 x hx
    exact (hcore.misKeys x).2 ⟨this.1, this.2.1⟩
  refine ⟨?_, ?_, ?_, ?_⟩
  · intro x
    rw [hI.knows_iff, hI.outdated_iff]
    unfold OMap.keys
    rw [hcore.misKeys]
    constructor
    · rintro ⟨h1, h2⟩
      have hlo := hcore.lo x h1
      refine ⟨?_, h2, by omega⟩
      rcases hI.newest with ⟨_, h3, _⟩ | ⟨j, hj, Wl, h3, h4, _⟩
      · rw [h3] at h1; cases h1
      · obtain ⟨r, hr⟩ := hI.enc.isRep h3
        obtain ⟨r2, e1, e2, _⟩ := hI.enc.rend j _ _ h3 hr
        refine ⟨j, hj, r, hr, ?_⟩
        injection e1 with e1
        rw [e1, e2.ids, List.map_map]
        rw [h4] at h1
        exact List.mem_map.2 ⟨x, h1, rfl⟩
    · rintro ⟨⟨i, hi, r, hr, hx⟩, h2, h3⟩
      refine ⟨?_, h2⟩
      obtain ⟨em, hem, hren⟩ := hI.enc.ems_get hr
      cases em with
      | src y => cases hren
      | rep rid Wi =>
        obtain ⟨r2, e1, e2, _⟩ := hren
        injection e1 with e1
        have hxW : x ∈ Wi := by
          rw [e1, e2.ids, List.map_map] at hx
          obtain ⟨y, hy, rfl⟩ := List.mem_map.1 hx
          exact hy
        rcases hI.newest with ⟨h4, _⟩ | ⟨j, hj, Wl, h4, h5, h6, h7⟩
        · exact absurd hem (h4 i hi _ _)
        · rw [h5]
          rcases Nat.lt_or_eq_of_le (h7 i hi _ _ hem) with hlt | heq
          · rcases hI.enc.f1 i j _ _ _ hlt hem h4 x hxW with hg | hg | hg
            · exact hg
            · exact absurd (hI.ackK hg) h2
            · cases Wl with
              | nil => cases h6
              | cons a u =>
                obtain rfl : a = L := by simpa using h6
                have := hg a (by simp); omega
          · rw [heq, h4] at hem; cases hem; exact hxW
  · exact hcore.misSorted.imp (fun h => Nat.ne_of_lt h)
  · intro q hq
    refine ⟨?_, hmem q hq⟩
    intro hc2
    have := hI.dinv.cnt.two q hq
    rw [hc2] at this; simp at this
  · intro hne
    exact hI.dinv.cnt.lt hne

theorem SysInv.heldExact [Fact (0 < w)] {data : Nat → List Byte} {ems : List Em} {A : Set Nat} {ρ L : Nat} {W K : Set Nat}
    (hI : SysInv c io data ems A ρ L W K s) {q : Nat × DRepair} (hq : q ∈ s.dec.det.repairs) :
    ∃ i ∈ s.hist, ∃ r, s.enc.out[i]? = some (.repair r) ∧ r.id = q.1 ∧ Sorted r.ids ∧ ∀ x, x ∈ q.2.ids ↔ x ∈ r.ids ∧ x ∉ K := by
  obtain ⟨-, -, h3, -⟩ := hI.dinv.core.rep q hq
  obtain ⟨y, hy⟩ : ∃ y, y ∈ q.2.ids := List.exists_mem_of_length_pos (by have := hI.dinv.cnt.two q hq; omega)
  obtain ⟨j, hj, Wj, hem, -⟩ := (h3 y hy).2.2
  obtain ⟨r, hr⟩ := hI.enc.isRep hem
  obtain ⟨r2, e1, e2, -, hso⟩ := hI.enc.rend j _ _ hem hr
  injection e1 with e1
  subst e1
  have hids : r.ids = Wj := by rw [e2.ids, List.map_map]; exact List.map_id Wj
  refine ⟨j, hj, r, hr, e2.id, by rw [hids]; exact hso, fun x => ?_⟩
  rw [hids]
  constructor
  · intro hx
    obtain ⟨-, k2, j', hj', W', hem', hxW⟩ := h3 x hx
    have hjj : j' = j := by
      rcases Nat.lt_trichotomy j' j with hlt | heq | hgt
      · have := hI.enc.ridMono j' j _ _ _ _ hlt hem' hem; omega
      · exact heq
      · have := hI.enc.ridMono j j' _ _ _ _ hgt hem hem'; omega
    rw [hjj, hem] at hem'
    cases hem'
    exact ⟨hxW, k2⟩
  · rintro ⟨h1, h2⟩
    exact hI.dinv.core.full q hq x ⟨j, hj, Wj, hem, h1⟩ h2

/-- **C43.** Bookkeeping: the missing sources are exactly those that some repair that arrived lists and that are
neither known nor outdated; held repairs list only missing sources; there are fewer of them than missing sources. -/
theorem C43_bookkeeping_partial (hc : c.Ok) (h : Reach c io s) :
    (∀ x, x ∈ s.dec.det.missing.keys ↔
      (∃ i ∈ s.hist, ∃ r, s.enc.out[i]? = some (.repair r) ∧ x ∈ r.ids) ∧ ¬ s.dec.det.Knows x ∧ ¬ s.dec.det.Outdated x) ∧
    s.dec.det.missing.keys.Nodup ∧
    (∀ q ∈ s.dec.det.repairs, q.2.ids ≠ [] ∧ ∀ x ∈ q.2.ids, x ∈ s.dec.det.missing.keys) ∧
    (s.dec.det.repairs ≠ [] → s.dec.det.repairs.length < s.dec.det.missing.length) := by
  have := fact_of_valid hc.width
  obtain ⟨ems, A, ρ, L, W, K, hI⟩ := inv_of_reach hc h
  exact hI.bookkeeping

/-- **C43.** A repair that is held is one that arrived, and what is left of it are exactly the sources it lists that are not known:
at least two. -/
theorem C43_held_partial (hc : c.Ok) (h : Reach c io s) {q : Nat × DRepair} (hq : q ∈ s.dec.det.repairs) :
    ∃ i ∈ s.hist, ∃ r, s.enc.out[i]? = some (.repair r) ∧ r.id = q.1 ∧
      q.2.ids = r.ids.filter (fun x => decide (¬ s.dec.det.Knows x)) ∧ 2 ≤ q.2.ids.length := by
  have := fact_of_valid hc.width
  obtain ⟨ems, A, ρ, L, W, K, hI⟩ := inv_of_reach hc h
  obtain ⟨i, h1, r, h2, h3, h4, h5⟩ := hI.heldExact hq
  refine ⟨i, h1, r, h2, h3, sorted_ext (hI.dinv.core.rep q hq).2.1.sorted (h4.filter _) (fun x => ?_), hI.dinv.cnt.two q hq⟩
  rw [h5, List.mem_filter, decide_eq_true_eq, hI.knows_iff]

/-- Two sources are lost and one repair is held. -/
def demoMiss : List Act := [.setRate 4, .commit [1], .commit [2], .commit [3], .commit [4], .deliver 1, .deliver 4]
example : let s := reached (cfg8 true) false demoMiss
    s.dec.det.missing.keys = [0, 2, 3] ∧ s.dec.det.repairs.length = 1 ∧
    s.dec.det.repairs.map (fun q => q.2.ids) = [[0, 2, 3]] := by decide +kernel
example : Reach (cfg8 true) false (reached (cfg8 true) false demoMiss) := reached_reach (by decide +kernel)

/-! ## The limits on identifier lists and sizes -/

/-- With fewer than 2^16 committed data and field sizes 4, 8 and 16 only the order of the arrivals matters. -/
theorem allowed_of_order (hc : c.Ok) (hw : w ≠ 32) (h : Reach c io s) (hn : s.committed.length < 2 ^ 16) (i : Nat)
    (hsrc : ∀ sr, s.enc.out[i]? = some (.source sr) → s.InTime c.gf i)
    (hrep : ∀ r, s.enc.out[i]? = some (.repair r) → s.MayArrive i r) : Allowed c s (.deliver i) := by
  have := fact_of_valid hc.width
  obtain ⟨ems, A, ρ, L, W, K, hI⟩ := inv_of_reach hc h
  unfold Allowed
  simp only
  cases hi : s.enc.out[i]? with
  | none => trivial
  | some p =>
    cases p with
    | source sr => exact hsrc sr hi
    | repair r =>
      refine ⟨hrep r hi, ?_, fun x _ h32 => absurd h32 hw⟩
      obtain ⟨em, hem, hren⟩ := hI.enc.ems_get hi
      cases em with
      | src y => cases hren
      | rep rid Wi =>
        obtain ⟨r2, e1, e2, _, hso⟩ := hren
        injection e1 with e1
        have hids : r.ids = Wi := by rw [e1, e2.ids, List.map_map]; exact List.map_id Wi
        rw [hids]
        exact wireIds_small hso (fun x hx => hI.enc.emLt _ (List.mem_of_getElem? hem) x hx) hn

theorem allowed_ack (hc : c.Ok) (h : Reach c io s) (hn : s.committed.length < 2 ^ 16) (j : Nat) :
    Allowed c s (.ack j) := by
  have := fact_of_valid hc.width
  obtain ⟨ems, A, ρ, L, W, K, hI⟩ := inv_of_reach hc h
  intro a ha
  have ho := hI.acks.out a (List.mem_of_getElem? ha)
  exact wireIds_small ho.1 (fun x hx => hI.knownLt x (ho.2.1 x hx)) hn

end Netcode
