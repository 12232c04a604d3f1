import Verif.Props.System
import Verif.Proofs.Late
import Verif.Proofs.LateCheck

/-!
# End-to-end properties when sources are late

`ReachLate c io s` (`Verif/Spec/Late.lean`): as `Reach c io s`, and a source may be overtaken by one repair with
ordering as well.  The properties of `Verif/Props/System.lean` hold of these schedules but for C04 and C53,
which are false of the code there: `C04_late_false`, `C53_false`.
-/

set_option linter.unusedSectionVars false

namespace Netcode

variable {w : Nat} {c : Cfg w} {io : Bool} {s : Sys}

theorem late_of_reachLate [Fact (0 < w)] (hc : c.Ok) (h : ReachLate c true s) :
    ∃ ems A ρ L W K u, LateInv c (comData s) ems A ρ L W K s u := lateReach_inv hc h _ (comData_agree s)

/-- A schedule used by the examples, with ordering: source 1 is lost, source 2 overtaken by the repair of both; then
an ack, another repair, duplicates. -/
def demoLate : List Act :=
  [.setRate 3, .commit [1, 2], .commit [3], .commit [4, 5, 6], .deliver 0, .deliver 3, .deliver 2, .genAck, .ack 0,
   .commit [7], .commit [8, 9], .repair, .deliver 6, .deliver 4, .deliver 4, .deliver 6]

theorem demoLate_reach : ReachLate (cfg8 true) true (lateReached (cfg8 true) true demoLate) :=
  lateReached_reach (by decide +kernel)

/-- The schedule is none of those without late sources. -/
example : runAllowed (cfg8 true) (Sys.init (cfg8 true).clk true) demoLate = none := by
  rw [← Option.isNone_iff_eq_none]; decide +kernel

/-! ## C05 -/

/-- **C05** with late sources: no allowed call or arrival meets undefined behaviour, a failed assertion or an
exception. -/
theorem C05_no_fault_late_partial (hc : c.Ok) (h : ReachLate c io s) (a : Act) (ha : AllowedLate c s a) :
    ∃ s', s.step c a = .ok s' ∧ s'.errs = 0 := by
  have := fact_of_valid hc.width
  cases io with
  | false =>
    have h' := reach_of_late hc h
    obtain ⟨ems, A, ρ, L, W, K, hI⟩ := inv_of_reach hc h'
    exact C05_no_fault_partial hc h' a (allowed_of_late hI.io ha)
  | true =>
    obtain ⟨data, hA, hD⟩ : ∃ data, Agree data s.committed ∧ ∀ d, a = .commit d → data s.committed.length = d := by
      cases a with
      | commit d =>
        refine ⟨fun x => (s.committed ++ [d]).getD x [], ?_, ?_⟩
        · intro x e hx
          simp only
          rw [List.getD_eq_getElem?_getD, List.getElem?_append_left (getElem?_lt hx), hx]; rfl
        · intro e he
          cases he
          simp
      | _ => exact ⟨_, comData_agree s, by intro d hd; cases hd⟩
    obtain ⟨ems, A, ρ, L, W, K, u, hI⟩ := lateReach_inv hc h data hA
    obtain ⟨s', u', new, A', ρ', L', W', K', h1, h2, _⟩ := hI.step hc hA a ha hD
    exact ⟨s', h1, h2.inv.errs⟩

example : ∃ s', (lateReached (cfg8 true) true demoLate).step (cfg8 true) (.deliver 5) = .ok s' ∧ s'.errs = 0 :=
  C05_no_fault_late_partial (cfg8_ok true) demoLate_reach _ (allowedLate_of_B (by decide +kernel))

/-! ## C01, C02, C03 -/

/-- **C01** with late sources: everything handed to the data handler was committed. -/
theorem C01_integrity_late_partial (hc : c.Ok) (h : ReachLate c io s) : ∀ d ∈ s.dec.data, d ∈ s.committed := by
  have := fact_of_valid hc.width
  cases io with
  | false => exact C01_integrity_partial hc (reach_of_late hc h)
  | true =>
    obtain ⟨ems, A, ρ, L, W, K, u, hI⟩ := late_of_reachLate hc h
    exact fun d hd => (hI.sublist rfl).subset hd

/-- **C01**, by position, with late sources. -/
theorem C01_integrity_by_id_late_partial (hc : c.Ok) (h : ReachLate c io s) :
    ∀ ev ∈ s.dec.det.log, s.committed[ev.id]? = some ev.data := by
  have := fact_of_valid hc.width
  cases io with
  | false => exact C01_integrity_by_id_partial hc (reach_of_late hc h)
  | true =>
    obtain ⟨ems, A, ρ, L, W, K, u, hI⟩ := late_of_reachLate hc h
    intro ev hev
    have h1 := hI.logData ev hev
    have h2 : ev.id < s.committed.length := hI.handed_lt (List.mem_map_of_mem hev)
    rw [h1, List.getElem?_eq_getElem h2]
    unfold comData
    rw [List.getD_eq_getElem?_getD, List.getElem?_eq_getElem h2]
    rfl

/-- **C02** with late sources: no datum is handed over more often than it was committed. -/
theorem C02_at_most_once_late_partial (hc : c.Ok) (h : ReachLate c io s) (d : List Byte) :
    s.dec.data.count d ≤ s.committed.count d := by
  have := fact_of_valid hc.width
  cases io with
  | false => exact C02_at_most_once_partial hc (reach_of_late hc h) d
  | true =>
    obtain ⟨ems, A, ρ, L, W, K, u, hI⟩ := late_of_reachLate hc h
    exact (hI.sublist rfl).count_le d

/-- **C02**, by position, with late sources: no source is handed over twice. -/
theorem C02_at_most_once_by_id_late_partial (hc : c.Ok) (h : ReachLate c io s) : s.dec.det.handed.Nodup := by
  have := fact_of_valid hc.width
  cases io with
  | false => exact C02_at_most_once_by_id_partial hc (reach_of_late hc h)
  | true =>
    obtain ⟨ems, A, ρ, L, W, K, u, hI⟩ := late_of_reachLate hc h
    exact hI.ord.logSorted.imp (fun h => Nat.ne_of_lt h)

/-- **C03** with late sources: with ordering, the data handed over are a subsequence of the committed ones. -/
theorem C03_in_order_late_partial (hc : c.Ok) (h : ReachLate c true s) : s.dec.data.Sublist s.committed := by
  have := fact_of_valid hc.width
  obtain ⟨ems, A, ρ, L, W, K, u, hI⟩ := late_of_reachLate hc h
  exact hI.sublist rfl

/-- Source 2 completes the repair that overtook it, which brings source 1; source 2 is never handed over (see
`C04_late_false`). -/
example : (lateReached (cfg8 true) true demoLate).dec.data = [[1, 2], [3], [7], [8, 9]] := by decide +kernel
example : (lateReached (cfg8 true) true demoLate).dec.data.Sublist (lateReached (cfg8 true) true demoLate).committed :=
  C03_in_order_late_partial (cfg8_ok true) demoLate_reach

/-! ## C04, C24 and C53 -/

/-- Four sources; source 2 is lost; sources 1 and 3 are overtaken by the repair; an ack; four more sources, lost, and
their repair. -/
def lostActs : List Act :=
  [.setRate 4, .commit [1], .commit [2], .commit [3], .commit [4], .deliver 0, .deliver 4, .deliver 1, .deliver 3,
   .genAck, .ack 0, .commit [5], .commit [6], .commit [7], .commit [8], .deliver 9]

/-- **C04 fails with late sources**: source 3 is held, every older one is handed over, and it is not. -/
theorem C04_late_false (dbg : Bool) :
    ¬ ∀ s, ReachLate (cfg8 dbg) true s → ∀ x, s.dec.det.Holds x → x ∉ s.dec.det.handed →
      ∃ y < x, ¬ s.dec.det.Knows y ∧ ¬ s.dec.det.Outdated y := by
  intro h
  have h1 := h (lateReached (cfg8 dbg) true (lostActs.take 9))
    (lateReached_reach (by clear h; revert dbg; decide +kernel)) 3
    (by clear h; revert dbg; decide +kernel) (by clear h; revert dbg; decide +kernel)
  clear h; revert h1
  revert dbg
  decide +kernel

/-- **C53 fails with late sources**: source 3 was acknowledged, and the decoder neither handed it over nor holds it. -/
theorem C53_false (dbg : Bool) :
    ¬ ∀ s, ReachLate (cfg8 dbg) true s → ∀ a ∈ s.dec.out, ∀ x ∈ a.ids, s.dec.det.Knows x := by
  intro h
  have h1 := h (lateReached (cfg8 dbg) true lostActs)
    (lateReached_reach (by clear h; revert dbg; decide +kernel)) ⟨[0, 1, 2, 3], 4⟩
    (by clear h; revert dbg; decide +kernel) 3 (by decide)
  clear h; revert h1
  revert dbg
  decide +kernel

/-- **C53.** Whatever was acknowledged was handed over or is held, with the committed bytes; with ordering, when it is
held and not handed over, an older source is neither known nor outdated. -/
theorem C53_acked_kept_partial (hc : c.Ok) (h : Reach c io s) :
    ∀ a ∈ s.dec.out, ∀ x ∈ a.ids, s.dec.det.HasData x (s.committed.getD x []) ∧
      (x ∉ s.dec.det.handed → ∃ y < x, ¬ s.dec.det.Knows y ∧ ¬ s.dec.det.Outdated y) := by
  intro a ha x hx
  have h1 := (C24_acks_known_partial hc h a ha x hx).2
  refine ⟨h1, fun hn => ?_⟩
  have hh : s.dec.det.Holds x := by
    rcases h1 with ⟨ev, hev, rfl, _⟩ | h1
    · exact absurd (List.mem_map_of_mem hev) hn
    · exact (OMap.get?_isSome_iff _ _).1 ⟨_, h1⟩
  cases io with
  | true => exact C04_withheld_partial hc h x hh hn
  | false =>
    have := fact_of_valid hc.width
    obtain ⟨ems, A, ρ, L, W, K, hI⟩ := inv_of_reach hc h
    exact absurd (((hI.dinv.log.unord hI.io).2.1 x).2 ((hI.knows_iff x).1 (Or.inr hh))) hn

example : Reach (cfg8 true) true (reached (cfg8 true) true (demoOrd.take 6 ++ [.genAck])) ∧
    (reached (cfg8 true) true (demoOrd.take 6 ++ [.genAck])).dec.out = [⟨[0, 2], 2⟩] :=
  ⟨reached_reach (by decide +kernel), by decide +kernel⟩

/-- **C24** with late sources: an ack the user asks for lists exactly the sources the decoder holds. -/
theorem C24_ack_lists_held_late (hc : c.Ok) (h : ReachLate c io s) (x : Nat) :
    ∃ a, s.dec.generateAck.out = s.dec.out ++ [a] ∧ (x ∈ a.ids ↔ s.dec.det.Holds x) := by
  have := fact_of_valid hc.width
  cases io with
  | false => exact C24_ack_lists_held hc (reach_of_late hc h) x
  | true =>
    obtain ⟨ems, A, ρ, L, W, K, u, hI⟩ := late_of_reachLate hc h
    have hids : s.dec.ackIds = [] := (reachLate_counts h).ids
    refine ⟨_, rfl, ?_⟩
    simp only [foldl_setInsert_mem, hids, List.not_mem_nil, false_or]
    rfl

/-- **C24** with late sources: each identifier in each ack emitted is that of a committed source. -/
theorem C24_acks_committed_late_partial (hc : c.Ok) (h : ReachLate c io s) :
    ∀ a ∈ s.dec.out, ∀ x ∈ a.ids, x < s.committed.length := by
  have := fact_of_valid hc.width
  cases io with
  | false => exact fun a ha x hx => (C24_acks_known_partial hc (reach_of_late hc h) a ha x hx).1
  | true =>
    obtain ⟨ems, A, ρ, L, W, K, u, hI⟩ := late_of_reachLate hc h
    exact fun a ha x hx => hI.inv.knownLt x ((hI.inv.acks.out a ha).2.1 x hx)

example : (lateReached (cfg8 true) true lostActs).dec.out = [⟨[0, 1, 2, 3], 4⟩] := by decide +kernel

/-! ## C19, C20, C44 -/

/-- **C19** with late sources: when a repair arrives and all the sources it lists but one are known, the decoder gets
all of them that are not outdated. -/
theorem C19_single_loss_late_partial (hc : c.Ok) (h : ReachLate c io s) (i : Nat) (r : ERepair)
    (hi : s.enc.out[i]? = some (.repair r)) (ha : AllowedLate c s (.deliver i)) (hn : i ∉ s.hist) (x : Nat)
    (hx : ∀ y ∈ r.ids, ¬ s.dec.det.Knows y → y = x) :
    ∃ s', s.step c (.deliver i) = .ok s' ∧
      ∀ y ∈ r.ids, ¬ s.dec.det.Outdated y → s'.dec.det.HasData y (s.committed.getD y []) := by
  have := fact_of_valid hc.width
  simp only [AllowedLate, hi] at ha
  cases io with
  | false => exact C19_single_loss_partial hc (reach_of_late hc h) i r hi ha hn x hx
  | true =>
    obtain ⟨ems, A, ρ, L, W, K, u, hI⟩ := late_of_reachLate hc h
    simp only [Allowed, hi] at ha
    obtain ⟨s1, ρ', L', W', K', h1, h2, h3, _, _, _, h5, h6, h7⟩ :=
      hI.inv.mayArrive hc (comData_agree s).getD hi (hI.mayArrive ha.1) ha.2.1 ha.2.2
    obtain ⟨s2, g1, g2, g3⟩ := hI.deliver hi h1 h2 h6 h5
    refine ⟨s2, g1, fun y hy ho => Or.inr ?_⟩
    rcases h7 x hn (fun z hz hk => hx z hz (fun hkn => hk (hI.known_of_knows hkn))) y hy with ⟨h8, h9⟩ | h8
    · exact g2.held_of_known h8 h9
    · exact absurd (hI.outdated h8) ho

/-- **C19** with late sources: none of the sources listed by a repair newer than all that arrived is outdated. -/
theorem C19_newest_late_partial (hc : c.Ok) (h : ReachLate c io s) (i : Nat) (r : ERepair)
    (hi : s.enc.out[i]? = some (.repair r)) (hnew : ∀ j ∈ s.hist, s.isRepair j → j ≤ i) :
    ∀ y ∈ r.ids, ¬ s.dec.det.Outdated y := by
  have := fact_of_valid hc.width
  cases io with
  | false => exact C19_newest_partial hc (reach_of_late hc h) i r hi hnew
  | true =>
    obtain ⟨ems, A, ρ, L, W, K, u, hI⟩ := late_of_reachLate hc h
    intro y hy ⟨l, h1, h2⟩
    refine hI.inv.newest_current hi hnew y hy ⟨l, ?_, h2⟩
    rw [← h1]; exact hI.ord.like.same.lastId

example : ∃ i r, (lateReached (cfg8 true) true (demoLate.take 5 ++ [.deliver 2])).enc.out[i]? = some (.repair r) ∧
    r.ids = [0, 1, 2] ∧
    AllowedLate (cfg8 true) (lateReached (cfg8 true) true (demoLate.take 5 ++ [.deliver 2])) (.deliver i) ∧
    i ∉ (lateReached (cfg8 true) true (demoLate.take 5 ++ [.deliver 2])).hist ∧
    ∀ y ∈ r.ids, ¬ (lateReached (cfg8 true) true (demoLate.take 5 ++ [.deliver 2])).dec.det.Knows y → y = 1 := by
  refine ⟨3, ⟨0, [0, 1, 2], 13, [0x1b, 0x17, 0x1e]⟩, by decide +kernel, rfl, allowedLate_of_B (by decide +kernel),
    by decide +kernel, by decide +kernel⟩

/-- **C20** with late sources: as many usable repairs as unknown sources, with independent equations, bring all the
sources the last one lists, if it is newer than all that arrived. -/
theorem C20_n_losses_late_partial (hc : c.Ok) (h : ReachLate c io s) (i : Nat) (r : ERepair) (f : Nat)
    (hi : s.enc.out[i]? = some (.repair r)) (hf : r.ids.head? = some f) (ha : AllowedLate c s (.deliver i)) (hn : i ∉ s.hist)
    (hnew : ∀ j ∈ s.hist, s.isRepair j → j ≤ i)
    (hlen : (rowsFor f s.dec.det.repairs r.id r.ids).length = (r.ids.filter (fun x => decide (¬ s.dec.det.Knows x))).length)
    (hind : Independent c.gf (rowsFor f s.dec.det.repairs r.id r.ids) (r.ids.filter (fun x => decide (¬ s.dec.det.Knows x)))) :
    ∃ s', s.step c (.deliver i) = .ok s' ∧ ∀ y ∈ r.ids, s'.dec.det.HasData y (s.committed.getD y []) := by
  have := fact_of_valid hc.width
  simp only [AllowedLate, hi] at ha
  cases io with
  | false => exact C20_n_losses_partial hc (reach_of_late hc h) i r f hi hf ha hn hnew hlen hind
  | true =>
    obtain ⟨ems, A, ρ, L, W, K, u, hI⟩ := late_of_reachLate hc h
    simp only [Allowed, hi] at ha
    refine hI.repairBrings hc hi hnew ha.2.1 ha.2.2 (fun f' K' hf' hL _ h4 => ?_)
    obtain rfl : f = f' := by rw [hf] at hf'; exact Option.some.inj hf'
    have hr : (s.hyb u).dec.det.repairs = s.dec.det.repairs := hI.ord.like.same.repairs
    rw [hr] at h4
    refine h4 (r.ids.filter (fun x => decide (¬ s.dec.det.Knows x))) hn (List.Pairwise.filter _ ha.2.1.1) ?_ hlen hind
    intro x
    rw [List.mem_filter, decide_eq_true_eq]
    constructor
    · rintro ⟨h1, h2⟩
      exact ⟨h1, fun hk => h2 (hI.knows_of_known hk (le_trans hL (head_le_of_sorted ha.2.1.1 hf h1)))⟩
    · rintro ⟨h1, h2⟩
      exact ⟨h1, fun hk => h2 (hI.known_of_knows hk)⟩

/-- **C44** with late sources: two lost sources are recovered from two repairs that list both when the minor of their
coefficients is not zero. -/
theorem C44_two_losses_late_partial (hc : c.Ok) (h : ReachLate c io s) (i : Nat) (r : ERepair) (f x y q : Nat) (qr : DRepair)
    (hi : s.enc.out[i]? = some (.repair r)) (hf : r.ids.head? = some f) (ha : AllowedLate c s (.deliver i)) (hn : i ∉ s.hist)
    (hnew : ∀ j ∈ s.hist, s.isRepair j → j ≤ i) (hheld : s.dec.det.repairs = [(q, qr)]) (hq : qr.ids = [x, y]) (hxy : f ≤ x ∧ x < y)
    (hmiss : r.ids.filter (fun z => decide (¬ s.dec.det.Knows z)) = [x, y])
    (hminor : c.gf.mul (coefficient w q x) (coefficient w r.id y) ≠ c.gf.mul (coefficient w q y) (coefficient w r.id x)) :
    ∃ s', s.step c (.deliver i) = .ok s' ∧ ∀ z ∈ r.ids, s'.dec.det.HasData z (s.committed.getD z []) := by
  have := fact_of_valid hc.width
  have hrows : rowsFor f s.dec.det.repairs r.id r.ids = [(q, [x, y]), (r.id, r.ids)] := by
    unfold rowsFor
    rw [hheld, List.filter_cons_of_pos]
    · simp [hq]
    · simp only [hq, decide_eq_true_eq]
      intro z hz
      simp only [List.mem_cons, List.not_mem_nil, or_false] at hz
      omega
  have hm : ∀ z ∈ [x, y], z ∈ r.ids := by
    intro z hz; rw [← hmiss] at hz; exact (List.mem_filter.1 hz).1
  refine C20_n_losses_late_partial hc h i r f hi hf ha hn hnew (by rw [hrows, hmiss]; rfl) ?_
  rw [hrows, hmiss]
  intro v hv
  have e1 := hv (q, [x, y]) (by simp)
  have e2 := hv (r.id, r.ids) (by simp)
  have f1 : [x, y].filter (fun z => decide (z ∈ [x, y])) = [x, y] := by simp
  have f2 : [x, y].filter (fun z => decide (z ∈ r.ids)) = [x, y] := by
    rw [List.filter_eq_self]; intro z hz; simpa using hm z hz
  simp only [f1, f2, xorOver, List.foldl_cons, List.foldl_nil] at e1 e2
  exact two_by_two c.gf v _ _ _ _ hminor e1 e2

/-- In the example, with ordering, source 3 arrives after repair 0 of sources 0 to 3; sources 0 and 1 are lost; repair 1 lists all. -/
def demoTwoLate : List Act :=
  [.setRate 4, .commit [1, 2], .commit [3], .commit [4, 5, 6], .commit [7], .deliver 2, .deliver 4, .deliver 3, .repair]
example : let s := lateReached (cfg8 true) true demoTwoLate
    ¬ s.dec.det.Knows 0 ∧ ¬ s.dec.det.Knows 1 ∧ s.dec.det.Knows 3 ∧
      s.dec.det.repairs.map (fun q => (q.1, q.2.ids)) = [(0, [0, 1])] := by
  decide +kernel
example : ∃ s', (lateReached (cfg8 true) true demoTwoLate).step (cfg8 true) (.deliver 5) = .ok s' ∧
    ∀ z ∈ [0, 1, 2, 3], s'.dec.det.HasData z ((lateReached (cfg8 true) true demoTwoLate).committed.getD z []) := by
  have hr := lateReached_reach (c := cfg8 true) (io := true) (acts := demoTwoLate) (by decide +kernel)
  have h0 : ((lateReached (cfg8 true) true demoTwoLate).dec.det.repairs.map (fun q => (q.1, q.2.ids))) = [(0, [0, 1])] := by decide +kernel
  have h1 : ((lateReached (cfg8 true) true demoTwoLate).enc.out[5]?.any (fun p => match p with
      | .repair r => decide (r.id = 1 ∧ r.ids = [0, 1, 2, 3]) | _ => false)) = true := by decide +kernel
  cases h2 : (lateReached (cfg8 true) true demoTwoLate).enc.out[5]? with
  | none => rw [h2] at h1; cases h1
  | some p =>
    cases p with
    | source x => rw [h2] at h1; cases h1
    | repair r =>
      rw [h2] at h1
      obtain ⟨e1, e2⟩ : r.id = 1 ∧ r.ids = [0, 1, 2, 3] := by simpa using h1
      cases h3 : (lateReached (cfg8 true) true demoTwoLate).dec.det.repairs with
      | nil => rw [h3] at h0; cases h0
      | cons q l =>
        rw [h3] at h0
        simp only [List.map_cons, List.cons.injEq, List.map_eq_nil_iff, Prod.mk.injEq] at h0
        obtain ⟨⟨e3, e4⟩, rfl⟩ := h0
        have := C44_two_losses_late_partial (cfg8_ok true) hr 5 r 0 0 1 q.1 q.2 h2 (by rw [e2]; rfl)
          (allowedLate_of_B (by decide +kernel)) (by decide +kernel) (by decide +kernel) h3 e4 (by decide) (by rw [e2]; decide +kernel)
          (by rw [e1, e3]; decide +kernel)
        rwa [e2] at this

/-! ## C43 -/

/-- **C43** with late sources: the missing sources are exactly those that some repair that arrived lists and that are
neither known nor outdated; held repairs list only missing sources; there are fewer of them than missing sources. -/
theorem C43_bookkeeping_late_partial (hc : c.Ok) (h : ReachLate c io s) :
    (∀ x, x ∈ s.dec.det.missing.keys ↔
      (∃ i ∈ s.hist, ∃ r, s.enc.out[i]? = some (.repair r) ∧ x ∈ r.ids) ∧ ¬ s.dec.det.Knows x ∧ ¬ s.dec.det.Outdated x) ∧
    s.dec.det.missing.keys.Nodup ∧
    (∀ q ∈ s.dec.det.repairs, q.2.ids ≠ [] ∧ ∀ x ∈ q.2.ids, x ∈ s.dec.det.missing.keys) ∧
    (s.dec.det.repairs ≠ [] → s.dec.det.repairs.length < s.dec.det.missing.length) := by
  have := fact_of_valid hc.width
  cases io with
  | false => exact C43_bookkeeping_partial hc (reach_of_late hc h)
  | true =>
    obtain ⟨ems, A, ρ, L, W, K, u, hI⟩ := late_of_reachLate hc h
    have hb := hI.inv.bookkeeping
    have e1 : (s.hyb u).dec.det.missing = s.dec.det.missing := hI.ord.like.same.missing
    have e2 : (s.hyb u).dec.det.repairs = s.dec.det.repairs := hI.ord.like.same.repairs
    have e3 : (s.hyb u).dec.det.lastId = s.dec.det.lastId := hI.ord.like.same.lastId
    rw [e1, e2] at hb
    refine ⟨fun x => ?_, hb.2⟩
    rw [hb.1 x]
    have ho : (s.hyb u).dec.det.Outdated x ↔ s.dec.det.Outdated x := by unfold Dec.Outdated; rw [e3]
    rw [ho, hI.inv.knows_iff]
    refine and_congr_right fun _ => and_congr_left fun hx => not_congr ?_
    constructor
    · intro hk
      rw [← ho, hI.inv.outdated_iff] at hx
      exact hI.knows_of_known hk (by omega)
    · exact hI.known_of_knows

/-- **C43** with late sources: a repair that is held is one that arrived, and what is left of it are exactly the sources it lists that
are neither known nor outdated: at least two. -/
theorem C43_held_late_partial (hc : c.Ok) (h : ReachLate c io s) {q : Nat × DRepair} (hq : q ∈ s.dec.det.repairs) :
    ∃ i ∈ s.hist, ∃ r, s.enc.out[i]? = some (.repair r) ∧ r.id = q.1 ∧
      q.2.ids = r.ids.filter (fun x => decide (¬ s.dec.det.Knows x ∧ ¬ s.dec.det.Outdated x)) ∧ 2 ≤ q.2.ids.length := by
  have := fact_of_valid hc.width
  cases io with
  | false =>
    obtain ⟨ems, A, ρ, L, W, K, hI⟩ := inv_of_reach hc (reach_of_late hc h)
    obtain ⟨i, h1, r, h2, h3, h4, h5⟩ := hI.heldExact hq
    refine ⟨i, h1, r, h2, h3, sorted_ext (hI.dinv.core.rep q hq).2.1.sorted (h4.filter _) (fun x => ?_), hI.dinv.cnt.two q hq⟩
    rw [h5, List.mem_filter, decide_eq_true_eq, hI.knows_iff, hI.outdated_iff]
    refine ⟨fun hx => ⟨hx.1, hx.2, ?_⟩, fun hx => ⟨hx.1, hx.2.1⟩⟩
    have := hI.dinv.core.lo x ((hI.dinv.core.rep q hq).2.2.1 x ((h5 x).2 hx)).1
    omega
  | true =>
    obtain ⟨ems, A, ρ, L, W, K, u, hI⟩ := late_of_reachLate hc h
    have e2 : (s.hyb u).dec.det.repairs = s.dec.det.repairs := hI.ord.like.same.repairs
    have e3 : (s.hyb u).dec.det.lastId = s.dec.det.lastId := hI.ord.like.same.lastId
    rw [← e2] at hq
    obtain ⟨i, h1, r, h2, h3, h4, h5⟩ := hI.inv.heldExact hq
    refine ⟨i, h1, r, h2, h3, sorted_ext (hI.inv.dinv.core.rep q hq).2.1.sorted (h4.filter _) (fun x => ?_), hI.inv.dinv.cnt.two q hq⟩
    have ho : (s.hyb u).dec.det.Outdated x ↔ s.dec.det.Outdated x := by unfold Dec.Outdated; rw [e3]
    rw [h5, List.mem_filter, decide_eq_true_eq, ← ho, hI.inv.outdated_iff]
    constructor
    · intro hx
      have := hI.inv.dinv.core.lo x ((hI.inv.dinv.core.rep q hq).2.2.1 x ((h5 x).2 hx)).1
      exact ⟨hx.1, fun hk => hx.2 (hI.known_of_knows hk), by omega⟩
    · rintro ⟨a1, a2, a3⟩
      exact ⟨a1, fun hk => a2 (hI.knows_of_known hk (by omega))⟩

example : let s := lateReached (cfg8 true) true (lostActs.take 7)
    s.dec.det.missing.keys = [1, 2, 3] ∧ s.dec.det.repairs.length = 1 := by decide +kernel

end Netcode
