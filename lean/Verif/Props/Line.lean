import Verif.Proofs.Line
import Verif.Props.System

/-!
# C70: networks that lose packets but do not reorder them

For the field sizes 4, 8 and 16 and fewer than 2^16 data there is no other limit.
-/

set_option linter.unusedSectionVars false

namespace Netcode

variable {w : Nat} {c : Cfg w} {io : Bool} {s : Sys}

theorem line_allowed (hc : c.Ok) (hw : w ≠ 32) (h : Reach c io s) (hn : s.committed.length < 2 ^ 16) {a : Act} (ha : Line w s a) :
    Allowed c s a := by
  cases a with
  | deliver i =>
    refine allowed_of_order hc hw h hn i (fun _ _ => Or.inr (Or.inl ?_)) (fun _ _ => Or.inl (fun j hj _ => ha.2 j hj))
    intro j hj hij
    have := ha.2 j hj
    omega
  | ack j => exact allowed_ack hc h hn j
  | _ => exact ha.1

theorem line_reach (hc : c.Ok) (hw : w ≠ 32) (h : LineReach c io s) (hn : s.committed.length < 2 ^ 16) : Reach c io s := by
  have := fact_of_valid hc.width
  induction h with
  | init => exact .init
  | step h1 h2 h3 ih =>
    rw [step_committed h3, List.length_append] at hn
    have hr := ih (by omega)
    exact .step hr (line_allowed hc hw hr (by omega) h2) h3

theorem line_known (hc : c.Ok) (hw : w ≠ 32) (h : LineReach c io s) (hn : s.committed.length < 2 ^ 16) (i : Nat) (hi : i ∈ s.hist)
    (sr : ESource) (hs : s.enc.out[i]? = some (.source sr)) : s.dec.det.Knows sr.id := by
  have := fact_of_valid hc.width
  induction h with
  | init => cases hi
  | @step s s' a h1 h2 h3 ih =>
    have hcom := step_committed h3
    have hle : s.committed.length ≤ s'.committed.length := by rw [hcom, List.length_append]; omega
    have hr := line_reach hc hw h1 (by omega)
    have ha := line_allowed hc hw hr (by omega) h2
    obtain ⟨ems, A, ρ, L, W, K, hI⟩ := inv_of_reach hc hr
    by_cases hin : i ∈ s.hist
    · refine (C04_known_forever_partial hc hr a ha s' h3).1 _ (ih (by omega) hin ?_)
      have hlt : i < s.enc.out.length := by rw [hI.enc.outLen]; exact hI.histLt i hin
      rw [(List.prefix_iff_getElem?.1 (step_out h3)) i hlt] at hs
      rw [List.getElem?_eq_getElem hlt]
      exact hs
    · rcases step_hist h3 with h4 | ⟨j, rfl, h4, h5⟩
      · rw [h4] at hi; exact absurd hi hin
      · rw [h4] at hi
        rcases List.mem_append.1 hi with hi2 | hi2
        · exact absurd hi2 hin
        obtain rfl : i = j := by simpa using hi2
        have hr' : Reach c io s' := .step hr ha h3
        rcases C04_arrived_partial hc hr' i (by rw [h4]; exact hi) sr hs with h6 | h6
        · exact h6
        exfalso
        obtain ⟨ems', A', ρ', L', W', K', hI'⟩ := inv_of_reach hc hr'
        rw [hI'.outdated_iff] at h6
        obtain ⟨em, hem, hren⟩ := hI'.enc.ems_get hs
        cases em with
        | rep rid W' => obtain ⟨r, h1, _⟩ := hren; cases h1
        | src x =>
          obtain rfl : sr = srcOf (comData s') x := by injection hren
          rcases hI'.newest with ⟨_, h7⟩ | ⟨j, hj, Wl, g1, g2, g3, g4⟩
          · omega
          · have hji : j ≤ i := by
              rw [h4] at hj
              rcases List.mem_append.1 hj with hj | hj
              · exact h2.2 j hj
              · have : j = i := by simpa using hj
                omega
            have hne : j ≠ i := by
              rintro rfl
              rw [hem] at g1; cases g1
            have := hI'.enc.later j i _ _ (by omega) g1 hem L' (List.mem_of_mem_head? g3)
            have h8 : (srcOf (comData s') x).id = x := rfl
            omega

/-- **C70.** Whatever is lost, no call fails, and no packet and no ack is refused. -/
theorem C70_no_fault (hc : c.Ok) (hw : w ≠ 32) (h : LineReach c io s) (hn : s.committed.length < 2 ^ 16) (a : Act) (ha : Line w s a) :
    ∃ s', s.step c a = .ok s' ∧ s'.errs = 0 :=
  have hr := line_reach hc hw h hn
  C05_no_fault_partial hc hr a (line_allowed hc hw hr hn ha)

/-- A schedule used by the examples: five commits; source 1 is lost and recovered, the sources 3 and 4 are lost, an ack is lost. -/
def demoLine : List Act :=
  [.setRate 3, .commit [1, 2], .commit [3], .commit [4, 5, 6], .deliver 0, .deliver 2, .deliver 3, .deliver 3, .genAck, .commit [7],
   .commit [8, 9], .genAck, .ack 1, .repair, .deliver 6]
theorem demoLine_reach (io : Bool) : LineReach (cfg8 true) io (lineReached (cfg8 true) io demoLine) :=
  lineReached_reach (by cases io <;> decide +kernel)
example (io : Bool) : let s := lineReached (cfg8 true) io demoLine
    s.hist = [0, 2, 3, 3, 6] ∧ s.dec.data = (if io then [[1, 2], [3], [4, 5, 6]] else [[1, 2], [4, 5, 6], [3]]) ∧
    s.dec.det.missing.keys = [3, 4] := by cases io <;> decide +kernel
example (io : Bool) : ∃ s', (lineReached (cfg8 true) io demoLine).step (cfg8 true) .repair = .ok s' ∧ s'.errs = 0 :=
  C70_no_fault (cfg8_ok true) (by decide) (demoLine_reach io) (by cases io <;> decide +kernel) _ (by cases io <;> decide +kernel)

/-- **C70.** What is handed over as source `x` is the `x`-th datum committed, and none is handed over twice. -/
theorem C70_intact_once (hc : c.Ok) (hw : w ≠ 32) (h : LineReach c io s) (hn : s.committed.length < 2 ^ 16) :
    (∀ ev ∈ s.dec.det.log, s.committed[ev.id]? = some ev.data) ∧ s.dec.data = s.dec.det.log.map (·.data) ∧ s.dec.det.handed.Nodup := by
  have := fact_of_valid hc.width
  have hr := line_reach hc hw h hn
  obtain ⟨ems, A, ρ, L, W, K, hI⟩ := inv_of_reach hc hr
  exact ⟨C01_integrity_by_id_partial hc hr, hI.dataLog, C02_at_most_once_by_id_partial hc hr⟩

/-- **C70.** With ordering the data come in the order of the commits. -/
theorem C70_in_order (hc : c.Ok) (hw : w ≠ 32) (h : LineReach c true s) (hn : s.committed.length < 2 ^ 16) :
    s.dec.data.Sublist s.committed := C03_in_order_partial hc (line_reach hc hw h hn)

/-- **C70.** A source that arrived is known, and handed over unless ordering has to wait for an older one that is neither known nor
outdated. -/
theorem C70_arrived (hc : c.Ok) (hw : w ≠ 32) (h : LineReach c io s) (hn : s.committed.length < 2 ^ 16) (i : Nat) (hi : i ∈ s.hist)
    (sr : ESource) (hs : s.enc.out[i]? = some (.source sr)) :
    sr.id ∈ s.dec.det.handed ∨ (io = true ∧ ∃ y < sr.id, ¬ s.dec.det.Knows y ∧ ¬ s.dec.det.Outdated y) := by
  have := fact_of_valid hc.width
  have hr := line_reach hc hw h hn
  have hk := line_known hc hw h hn i hi sr hs
  by_cases hh : sr.id ∈ s.dec.det.handed
  · exact Or.inl hh
  right
  obtain ⟨ems, A, ρ, L, W, K, hI⟩ := inv_of_reach hc hr
  cases io with
  | false => exact absurd (((hI.dinv.log.unord hI.io).2.1 _).2 ((hI.knows_iff _).1 hk)) hh
  | true =>
    rcases hk with hk | hk
    · exact absurd hk hh
    · exact ⟨rfl, C04_withheld_partial hc hr _ hk hh⟩

/-- **C70.** A repair with at most one unknown source brings it. -/
theorem C70_single_loss (hc : c.Ok) (hw : w ≠ 32) (h : LineReach c io s) (hn : s.committed.length < 2 ^ 16) (i : Nat) (r : ERepair)
    (hi : s.enc.out[i]? = some (.repair r)) (ha : Line w s (.deliver i)) (hnew : i ∉ s.hist) (x : Nat)
    (hx : ∀ y ∈ r.ids, ¬ s.dec.det.Knows y → y = x) :
    ∃ s', s.step c (.deliver i) = .ok s' ∧ ∀ y ∈ r.ids, s'.dec.det.HasData y (s.committed.getD y []) := by
  have hr := line_reach hc hw h hn
  obtain ⟨s', h1, h2⟩ := C19_single_loss_partial hc hr i r hi (line_allowed hc hw hr hn ha) hnew x hx
  exact ⟨s', h1, fun y hy => h2 y hy (C19_newest_partial hc hr i r hi (fun j hj _ => ha.2 j hj) y hy)⟩

/-- Repair 0 of the sources 0, 1, 2 arrives when source 1 is unknown. -/
example (io : Bool) : let s := lineReached (cfg8 true) io (demoLine.take 6)
    s.hist = [0, 2] ∧ [0, 1, 2].filter (fun y => decide (¬ s.dec.det.Knows y)) = [1] ∧ Line 8 s (.deliver 3) := by
  cases io <;> decide +kernel

end Netcode
