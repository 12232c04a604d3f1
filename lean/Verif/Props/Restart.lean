import Verif.Proofs.Restart
import Verif.Props.System
import Verif.Props.Defects
import Verif.Props.OtherRun

/-!
# C82: programs that are restarted

The program with the decoder may end at any time, whatever state it is in, and be started again, any number of times, while
the encoder goes on (`Verif/Spec/Restart.lean`).  What holds of the first decoder holds of every one, as long as the acks of
a decoder do not outlive it, and the packets emitted before the last ack do not arrive after it.  Both limits are needed, and
an encoder must not be replaced.
-/

set_option linter.unusedSectionVars false

namespace Netcode

variable {w : Nat} {c : Cfg w} {io : Bool} {k : Nat} {p : Pair}

theorem inv_of_again [Fact (0 < w)] (hc : c.Ok) (h : Again c noLeftovers io k p) :
    ∃ ems A ρ L W K, SysInv c io (comData p.sys) ems A ρ L W K p.sys := (again_inv hc h _ (comData_agree p.sys)).1

/-- Two restarts: the first decoder receives the sources 0 and 2 and acknowledges them, the second one, which is asked for
ordering, receives the sources 3 and 4 and the repair {1, 3, 4}, the third one the source 5 and two repairs {1, 3, 4, 5}. -/
def demoRestart : List PairAct :=
  [.act (.setRate 10), .act (.commit [1, 2]), .act (.commit [3]), .act (.commit [4, 5, 6]), .act (.deliver 0), .act (.deliver 2),
   .act .genAck, .act (.ack 0), .act (.commit [7]), .newDecoder true 3, .act (.commit [8, 9]), .act .repair, .act (.deliver 0),
   .act (.deliver 1), .act (.deliver 2), .act .genAck, .newDecoder false 2, .act (.commit [10]), .act (.deliver 1), .act .repair,
   .act .repair, .act .repair, .act (.deliver 2), .act (.deliver 3)]

theorem demoRestart_reach : Again (cfg8 true) noLeftovers (againReached (cfg8 true) noLeftovers false demoRestart).1
    (againReached (cfg8 true) noLeftovers false demoRestart).2.1 (againReached (cfg8 true) noLeftovers false demoRestart).2.2 :=
  againReached_reach (by decide +kernel)

/-- **C82.** No allowed call or arrival meets undefined behaviour, a failed assertion or an exception. -/
theorem C82_no_fault_partial (hc : c.Ok) (h : Again c noLeftovers io k p) (a : Act) (ha : Allowed c p.sys a) :
    ∃ p', p.step c (.act a) = .ok p' ∧ p'.sys.errs = 0 := by
  have := fact_of_valid hc.width
  obtain ⟨data, hA, hD⟩ : ∃ data, Agree data p.sys.committed ∧ ∀ d, a = .commit d → data p.sys.committed.length = d := by
    cases a with
    | commit d =>
      refine ⟨fun x => (p.sys.committed ++ [d]).getD x [], ?_, ?_⟩
      · intro x e hx
        simp only
        rw [List.getD_eq_getElem?_getD, List.getElem?_append_left (getElem?_lt hx), hx]; rfl
      · intro e he
        cases he
        simp
    | _ => exact ⟨_, comData_agree p.sys, by intro d hd; cases hd⟩
  obtain ⟨⟨ems, A, ρ, L, W, K, hI⟩, _⟩ := again_inv hc h data hA
  obtain ⟨s', new, A', ρ', L', W', K', h1, h2, _⟩ := hI.step hc hA a ha hD
  refine ⟨{ p with sys := s' }, ?_, h2.errs⟩
  simp only [Pair.step, h1]
  rfl

/-- **C82.** Every datum a decoder hands over is the one committed under its number. -/
theorem C82_integrity_partial (hc : c.Ok) (h : Again c noLeftovers io k p) :
    ∀ ev ∈ p.sys.dec.det.log, p.sys.committed[ev.id]? = some ev.data := by
  have := fact_of_valid hc.width
  obtain ⟨ems, A, ρ, L, W, K, hI⟩ := inv_of_again hc h
  intro ev hev
  have h1 := hI.dinv.log.logData ev hev
  have h2 : ev.id < p.sys.committed.length := hI.handed_lt (List.mem_map_of_mem hev)
  rw [h1, List.getElem?_eq_getElem h2]
  unfold comData
  rw [List.getD_eq_getElem?_getD, List.getElem?_eq_getElem h2]
  rfl

/-- **C82.** No decoder hands over a datum more often than it was committed. -/
theorem C82_at_most_once_partial (hc : c.Ok) (h : Again c noLeftovers io k p) (d : List Byte) :
    p.sys.dec.data.count d ≤ p.sys.committed.count d := by
  have := fact_of_valid hc.width
  obtain ⟨ems, A, ρ, L, W, K, hI⟩ := inv_of_again hc h
  exact (hI.subperm rfl).count_le d

/-- **C82.** With ordering, what a decoder hands over is a subsequence of the committed data. -/
theorem C82_in_order_partial (hc : c.Ok) (h : Again c noLeftovers true k p) :
    p.sys.dec.data.Sublist p.sys.committed := by
  have := fact_of_valid hc.width
  obtain ⟨ems, A, ρ, L, W, K, hI⟩ := inv_of_again hc h
  exact hI.sublist rfl

/-- **C82.** With ordering, a source a decoder holds and has not handed over waits for an older source which is neither known
nor outdated. -/
theorem C82_withheld_partial (hc : c.Ok) (h : Again c noLeftovers true k p) (x : Nat) (hx : p.sys.dec.det.Holds x)
    (hn : x ∉ p.sys.dec.det.handed) : ∃ y < x, ¬ p.sys.dec.det.Knows y ∧ ¬ p.sys.dec.det.Outdated y := by
  have := fact_of_valid hc.width
  obtain ⟨ems, A, ρ, L, W, K, hI⟩ := inv_of_again hc h
  have hxK : x ∈ K := (hI.knows_iff x).1 (Or.inr hx)
  obtain ⟨ho, hf⟩ := hI.dinv.log.ord hI.io
  have h1 : p.sys.dec.det.firstMissing ≤ x := by
    by_contra hc2
    exact hn ((ho.logMem x).2 ⟨hxK, by omega⟩)
  have h2 : p.sys.dec.det.firstMissing ≠ x := fun e => hf (e ▸ hxK)
  refine ⟨p.sys.dec.det.firstMissing, by omega, ?_, ?_⟩
  · rw [hI.knows_iff]; exact hf
  · rw [hI.outdated_iff]; have := ho.lo; omega

/-- **C82.** A single loss is recovered: when a repair newer than all that arrived arrives at a decoder which knows all the
sources it lists but one, the decoder gets all of them. -/
theorem C82_single_loss_partial (hc : c.Ok) (h : Again c noLeftovers io k p) (i : Nat) (r : ERepair)
    (hi : p.sys.enc.out[i]? = some (.repair r)) (ha : Allowed c p.sys (.deliver i)) (hn : i ∉ p.sys.hist)
    (hnew : ∀ j ∈ p.sys.hist, p.sys.isRepair j → j ≤ i) (x : Nat) (hx : ∀ y ∈ r.ids, ¬ p.sys.dec.det.Knows y → y = x) :
    ∃ p', p.step c (.act (.deliver i)) = .ok p' ∧
      ∀ y ∈ r.ids, p'.sys.dec.det.HasData y (p.sys.committed.getD y []) := by
  have := fact_of_valid hc.width
  obtain ⟨ems, A, ρ, L, W, K, hI⟩ := inv_of_again hc h
  simp only [Allowed, hi] at ha
  obtain ⟨s', ρ', L', W', K', h1, h2, h3, _, _, _, _, _, h4⟩ :=
    hI.mayArrive hc (comData_agree p.sys).getD hi ha.1 ha.2.1 ha.2.2
  refine ⟨{ p with sys := s' }, by simp only [Pair.step, h1]; rfl, fun y hy => h2.hasData ?_⟩
  rcases h4 x hn (fun z hz hk => hx z hz (fun hkn => hk ((hI.knows_iff z).1 hkn))) y hy with h5 | h5
  · exact h5.1
  · exact absurd (hI.outdated h5) (hI.newest_current hi hnew y hy)

/-- **C82.** So are `n` losses from `n` independent repairs: a new decoder gets all that is in the window of the encoder. -/
theorem C82_n_losses_partial (hc : c.Ok) (h : Again c noLeftovers io k p) (i : Nat) (r : ERepair) (f : Nat)
    (hi : p.sys.enc.out[i]? = some (.repair r)) (hf : r.ids.head? = some f) (ha : Allowed c p.sys (.deliver i))
    (hn : i ∉ p.sys.hist) (hnew : ∀ j ∈ p.sys.hist, p.sys.isRepair j → j ≤ i)
    (hlen : (rowsFor f p.sys.dec.det.repairs r.id r.ids).length =
      (r.ids.filter (fun x => decide (¬ p.sys.dec.det.Knows x))).length)
    (hind : Independent c.gf (rowsFor f p.sys.dec.det.repairs r.id r.ids)
      (r.ids.filter (fun x => decide (¬ p.sys.dec.det.Knows x)))) :
    ∃ p', p.step c (.act (.deliver i)) = .ok p' ∧ ∀ y ∈ r.ids, p'.sys.dec.det.HasData y (p.sys.committed.getD y []) := by
  have := fact_of_valid hc.width
  obtain ⟨ems, A, ρ, L, W, K, hI⟩ := inv_of_again hc h
  simp only [Allowed, hi] at ha
  obtain ⟨s', K', f', h1, h2, h3, _, _, _, _, _, h5, _, h4, _⟩ :=
    hI.deliverRepair hc (comData_agree p.sys).getD hi hnew ha.2.1 ha.2.2
  obtain rfl : f = f' := by rw [hf] at h5; exact Option.some.inj h5
  refine ⟨{ p with sys := s' }, by simp only [Pair.step, h1]; rfl, fun y hy => h2.hasData ?_⟩
  rw [h4 (r.ids.filter (fun x => decide (¬ p.sys.dec.det.Knows x))) hn (List.Pairwise.filter _ ha.2.1.1) ?_ hlen hind]
  · exact Or.inr hy
  · intro x
    rw [List.mem_filter, decide_eq_true_eq, hI.knows_iff]

/-- **C82.** An ack names only sources that the decoder that sent it has. -/
theorem C82_acks_known_partial (hc : c.Ok) (h : Again c noLeftovers io k p) :
    ∀ a ∈ p.sys.dec.out, ∀ x ∈ a.ids, x < p.sys.committed.length ∧ p.sys.dec.det.HasData x (p.sys.committed.getD x []) := by
  have := fact_of_valid hc.width
  obtain ⟨ems, A, ρ, L, W, K, hI⟩ := inv_of_again hc h
  intro a ha x hx
  have hk := (hI.acks.out a ha).2.1 x hx
  exact ⟨hI.knownLt x hk, hI.hasData hk⟩

/-- **C82.** With ordering, a new decoder that does not have the first datum ever committed hands over nothing before a repair
arrives, however many sources arrive. -/
theorem C82_waits_for_repair (hc : c.Ok) (h : Again c noLeftovers true k p)
    (hr : ∀ i ∈ p.sys.hist, ¬ p.sys.isRepair i) (h0 : ¬ p.sys.dec.det.Knows 0) : p.sys.dec.data = [] := by
  have := fact_of_valid hc.width
  obtain ⟨ems, A, ρ, L, W, K, hI⟩ := inv_of_again hc h
  have hL : L = 0 := by
    rcases hI.newest with ⟨_, _, h1, _⟩ | ⟨j, hj, Wl, h1, _⟩
    · exact h1
    · exact absurd (hI.enc.isRep h1) (hr j hj)
  rw [hI.knows_iff] at h0
  obtain ⟨ho, hf⟩ := hI.dinv.log.ord hI.io
  have hfm : p.sys.dec.det.firstMissing = 0 := Nat.le_zero.1 (ho.fm_le (by omega) h0)
  rw [hI.dec_data]
  have : p.sys.dec.det.handed = [] := by
    rw [List.eq_nil_iff_forall_not_mem]
    intro x hx
    have := ((ho.logMem x).1 hx).2
    omega
  rw [this]; rfl

/-! The example: the third decoder lacks the sources 1, 3 and 4, and the third repair brings them. -/

example : let r := againReached (cfg8 true) noLeftovers false demoRestart
    r.1 = false ∧ r.2.2.sys.dec.data = [[10]] ∧ r.2.2.sys.enc.win = [1, 3, 4, 5] ∧ r.2.2.sys.hist = [1, 2, 3] ∧
      r.2.2.sys.dec.det.missing.keys = [1, 3, 4] := by decide +kernel
example : let p := (againReached (cfg8 true) noLeftovers false demoRestart).2.2
    ∃ p', p.step (cfg8 true) (.act (.deliver 4)) = .ok p' ∧ p'.sys.errs = 0 :=
  C82_no_fault_partial (cfg8_ok true) demoRestart_reach _ (allowed_of_B (by decide +kernel))
example : (againReached (cfg8 true) noLeftovers false (demoRestart ++ [.act (.deliver 4)])).2.2.sys.dec.data =
    [[10], [3], [7], [8, 9]] := by decide +kernel
/-- The second decoder hands over the data from the start of the repair on; source 2 was acknowledged by the first one. -/
example : let r := againReached (cfg8 true) noLeftovers false (demoRestart.take 15)
    r.1 = true ∧ r.2.2.sys.dec.data = [[3]] ∧ r.2.2.sys.dec.det.Knows 3 ∧ r.2.2.sys.dec.det.Knows 4 := by decide +kernel
example : ((againReached (cfg8 true) noLeftovers false (demoRestart.take 14)).2.2.sys.dec.data) = [] := by decide +kernel

/-- Source 1 is the only one of the repair {1, 3, 4} that the second decoder lacks. -/
example : let p := (againReached (cfg8 true) noLeftovers false (demoRestart.take 14)).2.2
    ∃ p', p.step (cfg8 true) (.act (.deliver 2)) = .ok p' ∧
      ∀ y ∈ [1, 3, 4], p'.sys.dec.det.HasData y (p.sys.committed.getD y []) :=
  C82_single_loss_partial (cfg8_ok true) (againReached_reach (by decide +kernel)) 2 ⟨0, [1, 3, 4], 12, [0x26, 0x3f]⟩
    (by decide +kernel) (allowed_of_B (by decide +kernel)) (by decide +kernel) (by decide +kernel) 1 (by decide +kernel)

/-- A third decoder that receives source 4 and the repair {1, 3, 4}: the next repair brings the sources 1 and 3. -/
def demoLastTwo : List PairAct :=
  demoRestart.take 16 ++ [.newDecoder false 1, .act .repair, .act (.deliver 0), .act (.deliver 1)]
example : let p := (againReached (cfg8 true) noLeftovers false demoLastTwo).2.2
    ∃ p', p.step (cfg8 true) (.act (.deliver 2)) = .ok p' ∧
      ∀ y ∈ [1, 3, 4], p'.sys.dec.det.HasData y (p.sys.committed.getD y []) := by
  have := fact_of_valid (cfg8_ok true).width
  have h1 : rowsFor 1 (againReached (cfg8 true) noLeftovers false demoLastTwo).2.2.sys.dec.det.repairs 1 [1, 3, 4] =
    [(0, [1, 3]), (1, [1, 3, 4])] := by decide +kernel
  have h2 : [1, 3, 4].filter (fun x => decide (¬ (againReached (cfg8 true) noLeftovers false demoLastTwo).2.2.sys.dec.det.Knows x)) =
    [1, 3] := by decide +kernel
  refine C82_n_losses_partial (cfg8_ok true) (againReached_reach (by decide +kernel)) 2 ⟨1, [1, 3, 4], 26, [0x40, 0x77]⟩ 1
    (by decide +kernel) rfl (allowed_of_B (by decide +kernel)) (by decide +kernel) (by decide +kernel)
    (by rw [h1, h2]; rfl) ?_
  rw [h1, h2]
  intro v hv
  exact two_by_two _ v _ _ _ _ (by decide +kernel) (hv (0, [1, 3]) (by simp)) (hv (1, [1, 3, 4]) (by simp))

/-! ## Late sources

The same with the schedules of `Verif/Spec/Late.lean`. -/

/-- **C82** with late sources: no allowed call or arrival meets undefined behaviour, a failed assertion or an exception. -/
theorem C82_no_fault_late_partial (hc : c.Ok) (h : Again c lateSources io k p) (a : Act) (ha : AllowedLate c p.sys a) :
    ∃ p', p.step c (.act a) = .ok p' ∧ p'.sys.errs = 0 := by
  have := fact_of_valid hc.width
  obtain ⟨data, hA, hD⟩ : ∃ data, Agree data p.sys.committed ∧ ∀ d, a = .commit d → data p.sys.committed.length = d := by
    cases a with
    | commit d =>
      refine ⟨fun x => (p.sys.committed ++ [d]).getD x [], ?_, ?_⟩
      · intro x e hx
        simp only
        rw [List.getD_eq_getElem?_getD, List.getElem?_append_left (getElem?_lt hx), hx]; rfl
      · intro e he
        cases he
        simp
    | _ => exact ⟨_, comData_agree p.sys, by intro d hd; cases hd⟩
  obtain ⟨s', h1, h2⟩ := (again_ginv hc h data hA).1.step hc hA a ha hD
  refine ⟨{ p with sys := s' }, ?_, h2.errs⟩
  simp only [Pair.step, h1]
  rfl

/-- **C82** with late sources: every datum a decoder hands over is the one committed under its number. -/
theorem C82_integrity_late_partial (hc : c.Ok) (h : Again c lateSources io k p) :
    ∀ ev ∈ p.sys.dec.det.log, p.sys.committed[ev.id]? = some ev.data := by
  have := fact_of_valid hc.width
  obtain ⟨hlog, -, hcom⟩ := (again_ginv hc h _ (comData_agree p.sys)).1.hasData
  intro ev hev
  have h1 := hlog ev hev
  have h2 : ev.id < p.sys.committed.length := hcom ev.id (.inl (List.mem_map_of_mem hev))
  rw [h1, List.getElem?_eq_getElem h2]
  unfold comData
  rw [List.getD_eq_getElem?_getD, List.getElem?_eq_getElem h2]
  rfl

/-- **C82** with late sources: no decoder hands over a datum more often than it was committed; with ordering, what it hands over
is a subsequence of the committed data. -/
theorem C82_in_order_late_partial (hc : c.Ok) (h : Again c lateSources io k p) :
    (∀ d, p.sys.dec.data.count d ≤ p.sys.committed.count d) ∧ (io = true → p.sys.dec.data.Sublist p.sys.committed) := by
  have := fact_of_valid hc.width
  have hG := (again_ginv hc h _ (comData_agree p.sys)).1
  cases io with
  | false =>
    obtain ⟨ems, A, ρ, L, W, K, hI⟩ := hG
    exact ⟨fun d => (hI.subperm rfl).count_le d, by simp⟩
  | true =>
    obtain ⟨ems, A, ρ, L, W, K, u, hI⟩ := hG
    exact ⟨fun d => (hI.sublist rfl).count_le d, fun _ => hI.sublist rfl⟩

/-- **C82** with late sources: a single loss is recovered. -/
theorem C82_single_loss_late_partial (hc : c.Ok) (h : Again c lateSources io k p) (i : Nat) (r : ERepair)
    (hi : p.sys.enc.out[i]? = some (.repair r)) (ha : AllowedLate c p.sys (.deliver i)) (hn : i ∉ p.sys.hist)
    (hnew : ∀ j ∈ p.sys.hist, p.sys.isRepair j → j ≤ i) (x : Nat) (hx : ∀ y ∈ r.ids, ¬ p.sys.dec.det.Knows y → y = x) :
    ∃ p', p.step c (.act (.deliver i)) = .ok p' ∧
      ∀ y ∈ r.ids, p'.sys.dec.det.HasData y (p.sys.committed.getD y []) := by
  have := fact_of_valid hc.width
  have hG := (again_ginv hc h _ (comData_agree p.sys)).1
  simp only [AllowedLate, hi, Allowed] at ha
  cases io with
  | false =>
    obtain ⟨ems, A, ρ, L, W, K, hI⟩ := hG
    obtain ⟨s', ρ', L', W', K', h1, h2, h3, _, _, _, _, _, h4⟩ :=
      hI.mayArrive hc (comData_agree p.sys).getD hi ha.1 ha.2.1 ha.2.2
    refine ⟨{ p with sys := s' }, by simp only [Pair.step, h1]; rfl, fun y hy => h2.hasData ?_⟩
    rcases h4 x hn (fun z hz hk => hx z hz (fun hkn => hk ((hI.knows_iff z).1 hkn))) y hy with h5 | h5
    · exact h5.1
    · exact absurd (hI.outdated h5) (hI.newest_current hi hnew y hy)
  | true =>
    obtain ⟨ems, A, ρ, L, W, K, u, hI⟩ := hG
    obtain ⟨s1, ρ', L', W', K', h1, h2, h3, _, _, _, h5, h6, h7⟩ :=
      hI.inv.mayArrive hc (comData_agree p.sys).getD hi (hI.mayArrive ha.1) ha.2.1 ha.2.2
    obtain ⟨s2, g1, g2, g3⟩ := hI.deliver hi h1 h2 h6 h5
    refine ⟨{ p with sys := s2 }, by simp only [Pair.step, g1]; rfl, fun y hy => Or.inr ?_⟩
    rcases h7 x hn (fun z hz hk => hx z hz (fun hkn => hk (hI.known_of_knows hkn))) y hy with ⟨h8, h9⟩ | h8
    · exact g2.held_of_known h8 h9
    · obtain ⟨l, q1, q2⟩ := hI.outdated h8
      exact absurd ⟨l, by rw [← q1]; exact hI.ord.like.same.lastId, q2⟩ (hI.inv.newest_current hi hnew y hy)

/-- A second decoder, with ordering, gets the repair {1, 3, 4} before source 3. -/
def demoRestartLate : List PairAct :=
  [.act (.setRate 10), .act (.commit [1, 2]), .act (.commit [3]), .act (.commit [4, 5, 6]), .act (.deliver 0), .act (.deliver 2),
   .act .genAck, .act (.ack 0), .act (.commit [7]), .newDecoder true 3, .act (.commit [8, 9]), .act .repair, .act (.deliver 1),
   .act (.deliver 2), .act (.deliver 0)]

theorem demoRestartLate_reach : Again (cfg8 true) lateSources (againReached (cfg8 true) lateSources false demoRestartLate).1
    (againReached (cfg8 true) lateSources false demoRestartLate).2.1 (againReached (cfg8 true) lateSources false demoRestartLate).2.2 :=
  againReached_reach (by decide +kernel)

/-- Source 3 brings source 1, which is handed over; the sources 3 and 4 wait for source 2, which the first decoder had. -/
example : let r := againReached (cfg8 true) lateSources false demoRestartLate
    r.1 = true ∧ r.2.2.sys.hist = [1, 2, 0] ∧ r.2.2.sys.dec.data = [[3]] ∧ (∀ x ∈ [1, 3, 4], r.2.2.sys.dec.det.Knows x) := by
  decide +kernel
example : (againReached (cfg8 true) lateSources false demoRestartLate).2.2.sys.dec.data.Sublist
    (againReached (cfg8 true) lateSources false demoRestartLate).2.2.sys.committed :=
  (C82_in_order_late_partial (cfg8_ok true) demoRestartLate_reach).2 (by decide +kernel)

/-! ## What goes wrong otherwise -/

/-- The second decoder knows the whole window of the encoder.  It is asked for ordering and withholds the sources 3 and 4: it
waits for source 2, which the first one acknowledged. -/
theorem C82_false_waits : ∃ (k : Nat) (p : Pair), Again (cfg8 true) noLeftovers true k p ∧
    (∀ x ∈ p.sys.enc.win, p.sys.dec.det.Knows x) ∧ 3 ∈ p.sys.enc.win ∧ 3 ∉ p.sys.dec.det.handed := by
  refine ⟨(againReached (cfg8 true) noLeftovers false (demoRestart.take 15)).2.1,
    (againReached (cfg8 true) noLeftovers false (demoRestart.take 15)).2.2, ?_, ?_⟩
  · have h := againReached_reach (c := cfg8 true) (o := noLeftovers) (io := false) (acts := demoRestart.take 15) (by decide +kernel)
    have e : (againReached (cfg8 true) noLeftovers false (demoRestart.take 15)).1 = true := by decide +kernel
    rw [e] at h
    exact h
  · decide +kernel

/-- Packets reach the decoders in the order they are emitted in; only the ack of the first decoder, which has source 1 alone,
comes after the restart.  The second decoder holds the repair {0, 1} when the repair {0} arrives. -/
def oldAckActs : List PairAct :=
  [.act (.setRate 100), .act (.commit (dat 0)), .act (.commit (dat 1)), .act (.deliver 1), .act .genAck, .newDecoder false 2,
   .act .repair, .act (.deliver 0), .oldAck 0, .act .repair, .act (.deliver 1), .act (.commit (dat 2)), .act (.commit (dat 3)),
   .act .repair, .act .repair, .act (.deliver 4), .act (.deliver 5)]

/-- **C82 fails** if an ack outlives the decoder that sent it: a datum that was never committed is handed over. -/
theorem C82_false_old_ack (dbg : Bool) : ∃ (io : Bool) (k : Nat) (p : Pair), Again (cfg8 dbg) ⟨true, false, false, false⟩ io k p ∧
    ∃ d ∈ p.sys.dec.data, d ∉ p.sys.committed :=
  ⟨_, _, _, againReached_reach (io := false) (acts := oldAckActs) (by revert dbg; decide +kernel), by revert dbg; decide +kernel⟩

/-- The same with the repair {0, 1} emitted before that ack, and received by the second decoder. -/
def oldPacketActs : List PairAct :=
  [.act (.setRate 100), .act (.commit (dat 0)), .act (.commit (dat 1)), .act (.deliver 1), .act .repair, .act .genAck,
   .act (.ack 0), .newDecoder false 2, .act (.deliver 0), .act .repair, .act (.deliver 1), .act (.commit (dat 2)),
   .act (.commit (dat 3)), .act .repair, .act .repair, .act (.deliver 4), .act (.deliver 5)]

/-- **C82 fails** if packets emitted before an ack reach a decoder that did not send it. -/
theorem C82_false_old_packet (dbg : Bool) :
    ∃ (io : Bool) (k : Nat) (p : Pair), Again (cfg8 dbg) ⟨false, true, false, false⟩ io k p ∧ ∃ d ∈ p.sys.dec.data, d ∉ p.sys.committed :=
  ⟨_, _, _, againReached_reach (io := false) (acts := oldPacketActs) (by revert dbg; decide +kernel), by revert dbg; decide +kernel⟩

/-- A new encoder numbers its data from 0 again: the decoder ignores the first one, and combines the repair {0, 1} with the
datum of the first encoder. -/
def newEncoderActs : List PairAct :=
  [.act (.setRate 100), .act (.commit (dat 0)), .act (.deliver 0), .newEncoder, .act (.commit (dat 5)), .act (.deliver 0),
   .act (.commit (dat 6)), .act .repair, .act (.deliver 2)]

/-- **C82 fails** for encoders: with both orderings a datum that was never committed is handed over, and a datum that was
committed and arrived is not. -/
theorem C82_false_new_encoder (dbg io : Bool) : ∃ (k : Nat) (p : Pair), Again (cfg8 dbg) ⟨false, false, true, false⟩ io k p ∧
    (∃ d ∈ p.sys.dec.data, d ∉ p.sys.committed) ∧
    ∃ i ∈ p.sys.hist, ∃ sr, p.sys.enc.out[i]? = some (.source sr) ∧ sr.sym ∉ p.sys.dec.data := by
  refine ⟨(againReached (cfg8 dbg) ⟨false, false, true, false⟩ io newEncoderActs).2.1,
    (againReached (cfg8 dbg) ⟨false, false, true, false⟩ io newEncoderActs).2.2, ?_, ?_, 0, ?_, ⟨0, dat 5⟩, ?_, ?_⟩
  · have h := againReached_reach (c := cfg8 dbg) (o := ⟨false, false, true, false⟩) (io := io) (acts := newEncoderActs)
      (by revert dbg io; decide +kernel)
    have e : (againReached (cfg8 dbg) ⟨false, false, true, false⟩ io newEncoderActs).1 = io := by
      clear h; revert dbg io; decide +kernel
    rw [e] at h
    exact h
  all_goals revert dbg io; decide +kernel

/-! ## Counters -/

/-- **C82.** The counters of a decoder are those of its own program, whatever happens (old acks, old packets and new encoders too): it counts the acks
that it sent, and its acks report the packets that it was given, modulo 65536, but for those the next ack will report. -/
theorem C82_counters {o : Leftovers} {io : Bool} {k : Nat} {p : Pair} (h : Again c o io k p) :
    p.sys.dec.nbAcks = p.sys.dec.out.length ∧
    (reported p.sys.dec.out + p.sys.dec.ackPackets) % 65536 = (p.sys.dec.nbSources + p.sys.dec.nbRepairs) % 65536 := by
  have hC : Counts p.sys.dec := by
    induction h with
    | init io => exact counts_init _ _
    | act _ _ hst ih =>
      simp only [Pair.step, bind_ok_iff, pure_ok_iff] at hst
      obtain ⟨s, h1, rfl⟩ := hst
      exact step_counts ih h1
    | newDecoder io' k' _ _ hst ih =>
      cases hst
      exact ⟨rfl, rfl, rfl, Nat.le_refl _, ⟨0, rfl⟩, by show 50 ≤ 128; decide⟩
    | newEncoder _ _ hst ih => cases hst; exact ih
    | oldAck j _ _ hst ih =>
      simp only [Pair.step] at hst
      split at hst
      · cases hst; exact ih
      · simp only [bind_ok_iff, pure_ok_iff] at hst
        obtain ⟨_, _, rfl⟩ := hst
        exact ih
  refine ⟨hC.acks, ?_⟩
  obtain ⟨k, hk⟩ := hC.sum
  omega

/-- A second decoder that was given three packets and sent one ack, after a first one that sent two. -/
example : let p := (againReached (cfg8 true) noLeftovers false (demoRestart ++ [.act .genAck])).2.2
    p.sys.dec.nbAcks = 1 ∧ p.oldAcks.length = 2 ∧ p.sys.dec.nbSources = 1 ∧ p.sys.dec.nbRepairs = 2 := by decide +kernel

end Netcode
