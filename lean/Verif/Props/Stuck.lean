import Verif.Proofs.Dependent
import Verif.Props.OtherRun

/-!
# C65: when repairs are kept, used and given up
-/

set_option linter.unusedSectionVars false

namespace Netcode

variable {w : Nat} {c : Cfg w} {io : Bool} {s : Sys}

/-- **C65.** A repair newer than all that arrived lists at least two unknown sources and arrives. The repairs available are this one and those held that
list nothing older than its first source. They are never more than the unknown sources. If they are fewer, the repair is kept; if
they are as many and determine the unknown sources, all are known from now on; otherwise the repair is given up, and the decoder
holds and knows what it held and knew before. -/
theorem C65_rule_partial (hc : c.Ok) (h : Reach c io s) (i : Nat) (r : ERepair) (f : Nat)
    (hi : s.enc.out[i]? = some (.repair r)) (hf : r.ids.head? = some f) (ha : Allowed c s (.deliver i)) (hn : i ∉ s.hist)
    (hnew : ∀ j ∈ s.hist, s.isRepair j → j ≤ i)
    (U : List Nat) (hU : U = r.ids.filter (fun x => decide (¬ s.dec.det.Knows x))) (h2 : 2 ≤ U.length)
    (rows : List (Nat × List Nat)) (hrows : rows = rowsFor f s.dec.det.repairs r.id r.ids)
    (kept : OMap DRepair) (hkept : kept = s.dec.det.repairs.filter (fun q => decide (∀ x ∈ q.2.ids, f ≤ x))) :
    ∃ s', s.step c (.deliver i) = .ok s' ∧ rows.length ≤ U.length ∧
      (rows.length < U.length → (∀ x, s'.dec.det.Knows x ↔ s.dec.det.Knows x) ∧
        ∃ rr, rr.ids = U ∧ s'.dec.det.repairs = kept ++ [(r.id, rr)]) ∧
      (rows.length = U.length → Independent c.gf rows U → ∀ y ∈ r.ids, s'.dec.det.Knows y) ∧
      (rows.length = U.length → ¬ Independent c.gf rows U → (∀ x, s'.dec.det.Knows x ↔ s.dec.det.Knows x) ∧
        s'.dec.det.repairs = kept) := by
  have := fact_of_valid hc.width
  obtain ⟨ems, A, ρ, L, W, K, hI⟩ := inv_of_reach hc h
  simp only [Allowed, hi] at ha
  obtain ⟨s', K', f', h1, hI', h3, _, _, _, _, _, h5, _, h4, h6⟩ :=
    hI.deliverRepair hc (comData_agree s).getD hi hnew ha.2.1 ha.2.2
  obtain rfl : f = f' := by rw [hf] at h5; exact Option.some.inj h5
  have hUs : Sorted U := by rw [hU]; exact List.Pairwise.filter _ ha.2.1.1
  have hUm : ∀ x, x ∈ U ↔ x ∈ r.ids ∧ x ∉ K := by
    intro x
    rw [hU, List.mem_filter, decide_eq_true_eq, hI.knows_iff]
  obtain ⟨g1, g2, g3⟩ := h6 U hn hUs hUm h2
  have hkn : K' = K → ∀ x, s'.dec.det.Knows x ↔ s.dec.det.Knows x := by
    rintro rfl x
    rw [hI.knows_iff, hI'.knows_iff]
  subst hrows hkept
  refine ⟨s', h1, g1, ?_, ?_, ?_⟩
  · intro hlt
    obtain ⟨k1, k2⟩ := g3 hlt
    exact ⟨hkn k1, k2⟩
  · intro he hind y hy
    rw [hI'.knows_iff, h4 U hn hUs hUm he hind]
    exact Or.inr hy
  · intro he hd
    obtain ⟨k1, k2⟩ := g2 he hd
    exact ⟨hkn k1, k2⟩

/-- A repair is asked for, and can arrive. -/
theorem repair_ready (hc : c.Ok) (hw : w ≠ 32) (h : Reach c io s) (hne : s.enc.sources ≠ []) (hwire : WireIds s.enc.win)
    (hb : s.enc.nbSentRepairs + 1 < 2 ^ 32) :
    ∃ s1 r, s.step c .repair = .ok s1 ∧ Reach c io s1 ∧ s1.enc.out[s.enc.out.length]? = some (.repair r) ∧ r.ids = s.enc.win ∧
      r.id = s.enc.nbSentRepairs ∧ s1.dec = s.dec ∧ Allowed c s1 (.deliver s.enc.out.length) ∧
      (s.enc.out.length ∉ s1.hist ∧ ∀ j ∈ s1.hist, s1.isRepair j → j ≤ s.enc.out.length) ∧
      s1.enc.sources = s.enc.sources ∧ s1.enc.nbSentRepairs = s.enc.nbSentRepairs + 1 ∧
      s1.enc.out.length = s.enc.out.length + 1 := by
  have := fact_of_valid hc.width
  obtain ⟨ems, A, ρ, L, W, K, hI⟩ := inv_of_reach hc h
  have ha : Allowed c s .repair := ⟨fun h0 => hne (List.eq_nil_of_length_eq_zero h0), hb⟩
  obtain ⟨s1, h1, -⟩ := C05_no_fault_partial hc h _ ha
  have hr1 := Reach.step h ha h1
  have h1' := h1
  simp only [Sys.step, bind_ok_iff, pure_ok_iff] at h1'
  obtain ⟨e, h2, rfl⟩ := h1'
  obtain ⟨r, h3, rfl⟩ := generateRepair_inv h2
  have hshape := encodeRepair_strip h3
  have hrid : r.id = s.enc.nbSentRepairs := by
    simp only [EPkt.strip, EPkt.repair.injEq, ERepair.mk.injEq] at hshape
    rw [hshape.1, hI.rep]
  have hnew : ({ s with enc := s.enc.sentRepair r } : Sys).enc.out[s.enc.out.length]? = some (.repair r) := by
    simp [Enc.sentRepair]
  have hids : r.ids = s.enc.win := by
    have hdok : ∀ z ∈ s.enc.sources, DataOk w z.sym := by
      intro z hz
      rw [hI.enc.srcs] at hz
      obtain ⟨u, hu, rfl⟩ := List.mem_map.1 hz
      exact hI.enc.dataOk u (hI.enc.srcLt u hu)
    obtain ⟨r', h4, h5⟩ := encodeRepair_ok c.gf hc.width c.dbg s.enc.curRep s.enc.sources hne hdok hI.enc.srcSorted
    rw [h3] at h4; cases h4
    exact h5.ids
  have hnot : s.enc.out.length ∉ s.hist := by
    intro hj
    have := hI.histLt _ hj
    rw [← hI.enc.outLen] at this
    omega
  have hlt : ∀ j ∈ s.hist, j ≤ s.enc.out.length := by
    intro j hj
    have := hI.histLt j hj
    rw [← hI.enc.outLen] at this
    omega
  refine ⟨_, r, h1, hr1, hnew, hids, hrid, rfl, ?_, ⟨hnot, fun j hj _ => hlt j hj⟩, rfl, rfl, by simp [Enc.sentRepair]⟩
  simp only [Allowed, hnew]
  exact ⟨.inl (fun j hj _ => hlt j hj), by rw [hids]; exact hwire, fun z _ h32 => absurd h32 hw⟩

/-- **C65** is false: when the repairs held depend on each other and are one fewer than the unknown sources of the window, no
repair that is asked for and arrives changes anything, however many do. -/
theorem C65_false_stuck (hc : c.Ok) (hw : w ≠ 32) (h : Reach c io s) (f : Nat) (hf : (s.enc.sources.map (·.id)).head? = some f)
    (hwire : WireIds (s.enc.sources.map (·.id))) (hheld : ∀ q ∈ s.dec.det.repairs, ∀ x ∈ q.2.ids, f ≤ x)
    (U : List Nat) (hU : U = (s.enc.sources.map (·.id)).filter (fun x => decide (¬ s.dec.det.Knows x)))
    (hlen : s.dec.det.repairs.length + 1 = U.length)
    (hdep : Dependent c.gf (s.dec.det.repairs.map (fun q => (q.1, q.2.ids))) U)
    (m : Nat) (hm : s.enc.nbSentRepairs + m < 2 ^ 32) :
    ∃ s', s.run c (repairsArrive s.enc.out.length m) = .ok s' ∧ s'.enc.nbSentRepairs = s.enc.nbSentRepairs + m ∧
      s'.dec.det.repairs = s.dec.det.repairs ∧ ∀ x, s'.dec.det.Knows x ↔ s.dec.det.Knows x := by
  have := fact_of_valid hc.width
  have hne : s.enc.sources ≠ [] := by intro h0; rw [h0] at hf; cases hf
  have hUn : U.Nodup := by rw [hU]; exact (List.Pairwise.filter _ hwire.1).imp (fun h => Nat.ne_of_lt h)
  have h2 : 2 ≤ U.length := by
    obtain ⟨a, ⟨k, hk, _⟩, _⟩ := hdep
    rw [List.length_map] at hk
    omega
  have key : ∀ m, s.enc.nbSentRepairs + m < 2 ^ 32 →
      ∃ s', s.run c (repairsArrive s.enc.out.length m) = .ok s' ∧ Reach c io s' ∧ s'.enc.sources = s.enc.sources ∧
        s'.enc.nbSentRepairs = s.enc.nbSentRepairs + m ∧ s'.enc.out.length = s.enc.out.length + m ∧
        s'.dec.det.repairs = s.dec.det.repairs ∧ ∀ x, s'.dec.det.Knows x ↔ s.dec.det.Knows x := by
    intro m
    induction m with
    | zero => intro _; exact ⟨s, rfl, h, rfl, rfl, rfl, rfl, fun _ => Iff.rfl⟩
    | succ m ih =>
      intro hm
      obtain ⟨s1, a1, a2, a3, a4, a5, a6, a7⟩ := ih (by omega)
      obtain ⟨s2, r, b1, b2, b3, b4, b5, b6, b7, b8, b9, b10, b11⟩ := repair_ready hc hw a2 (by rw [a3]; exact hne)
        (by unfold Enc.win; rw [a3]; exact hwire) (by omega)
      have hids : r.ids = s.enc.sources.map (·.id) := by rw [b4]; unfold Enc.win; rw [a3]
      have hrep : s2.dec.det.repairs = s.dec.det.repairs := by rw [b6, a6]
      have hkn : ∀ x, s2.dec.det.Knows x ↔ s.dec.det.Knows x := by rw [b6]; exact a7
      have hfil : s2.dec.det.repairs.filter (fun q => decide (∀ x ∈ q.2.ids, f ≤ x)) = s.dec.det.repairs := by
        rw [hrep, List.filter_eq_self]
        intro q hq
        simpa using hheld q hq
      have hrows : rowsFor f s2.dec.det.repairs r.id r.ids = s.dec.det.repairs.map (fun q => (q.1, q.2.ids)) ++ [(r.id, r.ids)] := by
        unfold rowsFor; rw [hfil]
      have hU2 : U = r.ids.filter (fun x => decide (¬ s2.dec.det.Knows x)) := by
        rw [hU, hids]
        apply List.filter_congr
        intro x _
        rw [decide_eq_decide, hkn]
      have hl2 : (rowsFor f s2.dec.det.repairs r.id r.ids).length = U.length := by
        rw [hrows, List.length_append, List.length_map, List.length_singleton, hlen]
      obtain ⟨s3, c1, -, -, -, c4⟩ := C65_rule_partial hc b2 _ r f b3 (by rw [hids]; exact hf) b7 b8.1 b8.2 U hU2 h2 _ rfl _ rfl
      obtain ⟨c5, c6⟩ := c4 hl2 (not_independent hUn hl2 (by rw [hrows]; exact hdep.append _))
      have hr3 := Reach.step b2 b7 c1
      have henc : s3.enc = s2.enc := by
        have c1' := c1
        simp only [Sys.step, b3, bind_ok_iff, pure_ok_iff] at c1'
        obtain ⟨⟨d, q⟩, _, rfl⟩ := c1'
        rfl
      refine ⟨s3, ?_, hr3, by rw [henc, b9, a3], by rw [henc, b10]; omega, by rw [henc, b11]; omega, by rw [c6, hfil],
        fun x => (c5 x).trans (hkn x)⟩
      unfold Sys.run at a1 ⊢
      rw [repairsArrive, List.foldlM_append, a1]
      rw [a5] at c1
      simp only [List.foldlM_cons, List.foldlM_nil, b1, c1, bind, Except.bind]
      rfl
  obtain ⟨s', k1, _, _, k2, _, k3, k4⟩ := key m hm
  exact ⟨s', k1, k2, k3, k4⟩

/-- Repairs that list exactly the unknown sources, and whose coefficient matrix is inverted, determine these. -/
theorem independent_of_invert [Fact (0 < w)] {gf : GF w} {rids U : List Nat} {inv : Mat w} (hl : rids.length = U.length)
    (h : invert gf rids.length (coeffMatrix w (rids.map fun q => (q, ⟨q, U, 0#16, [], 0⟩)) (U.map fun x => (x, []))) = .ok inv) :
    Independent gf (rids.map fun q => (q, U)) U := by
  intro v hv
  refine kernel_of_invert (gf := gf) (R := rids.map fun q => (q, ⟨q, U, 0#16, [], 0⟩)) (m := U.map fun x => (x, []))
    (by rw [List.map_map]; exact List.map_id' _) (by simp)
    (by simpa using hl) (inv := inv) (by simpa using h) v ?_
  intro q hq
  obtain ⟨q', hq', rfl⟩ := List.mem_map.1 hq
  exact hv (q', U) (List.mem_map.2 ⟨q', hq', rfl⟩)

/-- The state after the losses of `blameActs`. -/
def stuck (dbg : Bool) : Sys := reached (cfg4 dbg) false blameActs

theorem stuck_reach (dbg : Bool) : Reach (cfg4 dbg) false (stuck dbg) := reached_reach (by revert dbg; decide +kernel)

theorem stuck_facts (dbg : Bool) : (stuck dbg).dec.det.repairs.keys = [1, 2] ∧ (stuck dbg).enc.nbSentRepairs = 4 ∧
    (stuck dbg).enc.out.length = 10 ∧ ((stuck dbg).enc.sources.map (·.id)).head? = some 0 ∧
    [3, 4, 5] = ((stuck dbg).enc.sources.map (·.id)).filter (fun x => decide (¬ (stuck dbg).dec.det.Knows x)) ∧
    (stuck dbg).dec.det.repairs.length + 1 = 3 := by
  unfold stuck; revert dbg; decide +kernel

theorem stuck_wire (dbg : Bool) : WireIds ((stuck dbg).enc.sources.map (·.id)) := by
  unfold stuck; revert dbg; decide +kernel

theorem stuck_dependent (dbg : Bool) :
    Dependent gf4 ((stuck dbg).dec.det.repairs.map (fun q => (q.1, q.2.ids))) [3, 4, 5] := by
  have e : (stuck dbg).dec.det.repairs.map (fun q => (q.1, q.2.ids)) = [(1, [3, 4, 5]), (2, [3, 4, 5])] := by
    unfold stuck; revert dbg; decide +kernel
  rw [e]
  exact ⟨fun k => if k = 0 then 0xf#4 else 1#4, ⟨1, by decide, by decide⟩, by decide +kernel⟩

/-- **C65** is false in GF(2^4) for the three losses of `blameActs`: the second repair that arrives depends on the first one; these
two are held for ever, and no further repair recovers the three sources, although the first one and the two that come next would. -/
theorem C65_false (dbg : Bool) : ∃ s, Reach (cfg4 dbg) false s ∧ s.dec.det.repairs.keys = [1, 2] ∧
    Independent gf4 [(1, [3, 4, 5]), (3, [3, 4, 5]), (4, [3, 4, 5])] [3, 4, 5] ∧
    ∀ m, m < 2 ^ 32 - 4 → ∃ s', s.run (cfg4 dbg) (repairsArrive 10 m) = .ok s' ∧ s'.enc.nbSentRepairs = 4 + m ∧
      ¬ s'.dec.det.Knows 3 ∧ ¬ s'.dec.det.Knows 4 ∧ ¬ s'.dec.det.Knows 5 := by
  have hok : (cfg4 dbg).Ok := ⟨by decide, F0_ok⟩
  have := fact_of_valid hok.width
  obtain ⟨h0, h4, h10, hf, hU, hl⟩ := stuck_facts dbg
  refine ⟨stuck dbg, stuck_reach dbg, h0, ?_, ?_⟩
  · cases hi : invert gf4 3 (coeffMatrix 4 ([1, 3, 4].map fun q => (q, ⟨q, [3, 4, 5], 0#16, [], 0⟩)) ([3, 4, 5].map fun x => (x, []))) with
    | error c =>
      have : (invert gf4 3 (coeffMatrix 4 ([1, 3, 4].map fun q => (q, ⟨q, [3, 4, 5], 0#16, [], 0⟩))
        ([3, 4, 5].map fun x => (x, [])))).toOption.isSome = true := by decide +kernel
      rw [hi] at this; cases this
    | ok inv => exact independent_of_invert (rids := [1, 3, 4]) rfl hi
  · intro m hm
    obtain ⟨s', k1, k2, k3, k4⟩ := C65_false_stuck hok (by decide) (stuck_reach dbg) 0 hf (stuck_wire dbg)
      (by intro _ _ _ _; omega) [3, 4, 5] hU hl (stuck_dependent dbg) m (by rw [h4]; omega)
    rw [h10] at k1
    rw [h4] at k2
    have hk : ∀ x ∈ [3, 4, 5], ¬ s'.dec.det.Knows x := by
      intro x hx
      rw [hU] at hx
      rw [k4 x]
      simpa using (List.mem_filter.1 hx).2
    exact ⟨s', k1, k2, hk 3 (by simp), hk 4 (by simp), hk 5 (by simp)⟩

/-- The hypotheses of `C65_rule_partial`: the last repair of `blameActs` (packet 9), as many repairs as unknown sources. -/
example : (stuck true).enc.out[9]?.map (fun p => match p with | .repair r => r.ids | _ => []) = some [0, 1, 2, 3, 4, 5] ∧
    9 ∉ (stuck true).hist ∧ (runAllowed (cfg4 true) (stuck true) [.deliver 9]).isSome = true := by unfold stuck; decide +kernel

/-- All three cases of `C65_rule_partial` happen: the first of four repairs (of 0, 1, 2; 1 and 2 are lost) is kept, the second one
recovers both; and above the last one is given up. -/
example : (reached (cfg8 true) false [.setRate 1000, .commit [1], .commit [2], .commit [3], .repair, .repair, .deliver 0, .deliver 3]).dec.det.repairs.keys = [0] ∧
    (reached (cfg8 true) false [.setRate 1000, .commit [1], .commit [2], .commit [3], .repair, .repair, .deliver 0, .deliver 3, .deliver 4]).dec.det.handed =
      [0, 1, 2] := by decide +kernel

/-! ## C64 -/

/-- The two unknown sources of the window are `x` and `y`, and one repair, that lists both, is held; the window is `win`. -/
structure TwoLeft (c : Cfg w) (io : Bool) (win : List Nat) (x y q : Nat) (s : Sys) : Prop where
  reach : Reach c io s
  window : s.enc.sources.map (·.id) = win
  unknown : win.filter (fun z => decide (¬ s.dec.det.Knows z)) = [x, y]
  held : ∃ rr, s.dec.det.repairs = [(q, rr)] ∧ rr.ids = [x, y]

theorem sorted_pair {l : List Nat} (hl : Sorted l) {x y : Nat} (hxy : x < y) (h2 : 2 ≤ l.length) (hm : ∀ z ∈ l, z = x ∨ z = y) : l = [x, y] := by
  match l, h2 with
  | [a, b], _ =>
    have h1 := (List.pairwise_cons.1 hl).1 b (by simp)
    have ha := hm a (by simp)
    have hb := hm b (by simp)
    have : a = x := by omega
    have : b = y := by omega
    simp_all
  | a :: b :: d :: u, _ =>
    have h1 := (List.pairwise_cons.1 hl).1 b (by simp)
    have h2 := (List.pairwise_cons.1 (List.pairwise_cons.1 hl).2).1 d (by simp)
    have ha := hm a (by simp)
    have hb := hm b (by simp)
    have hd := hm d (by simp)
    omega

/-- After a repair of the window, either both are known or one repair is held. If one was held already, it still is, and its minor
with the new one is zero. -/
theorem two_step (hc : c.Ok) (hw : w ≠ 32) (h : Reach c io s) {win : List Nat} (hwin : s.enc.sources.map (·.id) = win)
    (hwire : WireIds win) {x y : Nat} (hU : win.filter (fun z => decide (¬ s.dec.det.Knows z)) = [x, y])
    (hb : s.enc.nbSentRepairs + 1 < 2 ^ 32) :
    ∃ s', s.run c [.repair, .deliver s.enc.out.length] = .ok s' ∧ Reach c io s' ∧ s'.enc.sources = s.enc.sources ∧
      s'.enc.nbSentRepairs = s.enc.nbSentRepairs + 1 ∧ s'.enc.out.length = s.enc.out.length + 1 ∧
      ((s'.dec.det.Knows x ∧ s'.dec.det.Knows y) ∨ ∃ q, TwoLeft c io win x y q s' ∧
        ∀ q0, TwoLeft c io win x y q0 s → q = q0 ∧ c.gf.mul (coefficient w q x) (coefficient w s.enc.nbSentRepairs y) =
          c.gf.mul (coefficient w q y) (coefficient w s.enc.nbSentRepairs x)) := by
  have := fact_of_valid hc.width
  have hxw : x ∈ win := (List.mem_filter.1 (by rw [hU]; simp : x ∈ win.filter (fun z => decide (¬ s.dec.det.Knows z)))).1
  have hyw : y ∈ win := (List.mem_filter.1 (by rw [hU]; simp : y ∈ win.filter (fun z => decide (¬ s.dec.det.Knows z)))).1
  have hxy : x < y := by
    have h1 : Sorted (win.filter (fun z => decide (¬ s.dec.det.Knows z))) := List.Pairwise.filter _ hwire.1
    rw [hU] at h1
    exact (List.pairwise_cons.1 h1).1 y (by simp)
  have hne : s.enc.sources ≠ [] := by intro h0; rw [h0] at hwin; rw [← hwin] at hxw; cases hxw
  obtain ⟨f, hf⟩ : ∃ f, win.head? = some f := by
    cases win with
    | nil => cases hxw
    | cons a t => exact ⟨a, rfl⟩
  have hfle : ∀ z ∈ win, f ≤ z := by
    intro z hz
    cases win with
    | nil => cases hxw
    | cons a t =>
      obtain rfl : a = f := by simpa using hf
      rcases List.mem_cons.1 hz with rfl | hz
      · exact le_refl _
      · exact le_of_lt ((List.pairwise_cons.1 hwire.1).1 z hz)
  obtain ⟨s2, r, b1, b2, b3, b4, b5, b6, b7, b8, b9, b10, b11⟩ := repair_ready hc hw h hne
    (by unfold Enc.win; rw [hwin]; exact hwire) hb
  have hids : r.ids = win := by rw [b4]; exact hwin
  have hU2 : [x, y] = r.ids.filter (fun z => decide (¬ s2.dec.det.Knows z)) := by rw [hids, b6, hU]
  obtain ⟨s3, c1, c2, c3, c4, c5⟩ := C65_rule_partial hc b2 _ r f b3 (by rw [hids]; exact hf) b7 b8.1 b8.2 [x, y] hU2 (by simp) _ rfl _ rfl
  have hr3 := Reach.step b2 b7 c1
  have henc : s3.enc = s2.enc := by
    have c1' := c1
    simp only [Sys.step, b3, bind_ok_iff, pure_ok_iff] at c1'
    obtain ⟨⟨d, q⟩, _, rfl⟩ := c1'
    rfl
  refine ⟨s3, ?_, hr3, by rw [henc, b9], by rw [henc, b10], by rw [henc, b11], ?_⟩
  · unfold Sys.run
    simp only [List.foldlM_cons, List.foldlM_nil, b1, c1, bind, Except.bind]
    rfl
  have hwin3 : s3.enc.sources.map (·.id) = win := by rw [henc, b9, hwin]
  generalize hkept : s2.dec.det.repairs.filter (fun q => decide (∀ x ∈ q.2.ids, f ≤ x)) = kept at c3 c5
  have hrl : (rowsFor f s2.dec.det.repairs r.id r.ids).length = kept.length + 1 := by
    unfold rowsFor
    rw [hkept]
    simp
  have hunk : (∀ z, s3.dec.det.Knows z ↔ s2.dec.det.Knows z) → win.filter (fun z => decide (¬ s3.dec.det.Knows z)) = [x, y] := by
    intro hk
    rw [← hU]
    apply List.filter_congr
    intro z _
    rw [decide_eq_decide, hk, b6]
  -- what is held lists both
  have hboth : ∀ q rr, (q, rr) ∈ s3.dec.det.repairs → rr.ids = [x, y] := by
    intro q rr hq
    obtain ⟨ems, A, ρ, L, W, K, hI⟩ := inv_of_reach hc b2
    simp only [Allowed, b3] at b7
    obtain ⟨s', K', f', h1, hI', h3, _, _, _, hKK, _⟩ :=
      hI.deliverRepair hc (comData_agree s2).getD b3 b8.2 b7.2.1 b7.2.2
    rw [c1] at h1
    cases h1
    obtain ⟨-, g2, g3, -⟩ := hI'.dinv.core.rep _ hq
    have g4 := hI'.dinv.cnt.two _ hq
    refine sorted_pair g2.sorted hxy g4 (fun z hz => ?_)
    obtain ⟨k1, k2, -⟩ := g3 z hz
    have k3 : z ∈ [x, y] := by
      rw [hU2, List.mem_filter, decide_eq_true_eq, hI.knows_iff]
      refine ⟨k1, fun hk => k2 ?_⟩
      rcases hKK with e | e
      · rw [e]; exact hk
      · rw [e]; exact Or.inl hk
    simpa using k3
  rcases Nat.lt_or_ge kept.length 1 with h0 | h0
  · -- the first repair
    obtain ⟨k1, rr, k2, k3⟩ := c3 (by rw [hrl, List.length_cons, List.length_singleton]; omega)
    have hnil : kept = [] := List.eq_nil_of_length_eq_zero (by omega)
    rw [hnil, List.nil_append] at k3
    refine Or.inr ⟨r.id, ⟨hr3, hwin3, hunk k1, rr, k3, k2⟩, ?_⟩
    rintro q0 ⟨-, -, -, rr0, e1, e2⟩
    exfalso
    rw [b6, e1, List.filter_cons_of_pos] at hkept
    · rw [← hkept] at hnil; cases hnil
    · simp only [e2, decide_eq_true_eq]
      intro z hz
      rcases List.mem_cons.1 hz with rfl | hz
      · exact hfle _ hxw
      · rw [List.mem_singleton.1 hz]; exact hfle _ hyw
  · have hl2 : (rowsFor f s2.dec.det.repairs r.id r.ids).length = [x, y].length := by
      rw [hrl] at c2 ⊢
      simp at c2 ⊢
      omega
    by_cases hind : Independent c.gf (rowsFor f s2.dec.det.repairs r.id r.ids) [x, y]
    · have k := c4 hl2 hind
      exact Or.inl ⟨k x (by rw [hids]; exact hxw), k y (by rw [hids]; exact hyw)⟩
    · obtain ⟨k1, k2⟩ := c5 hl2 hind
      have hone : kept.length = 1 := by rw [hrl] at hl2; simpa using hl2
      obtain ⟨⟨q, rr⟩, hk⟩ := List.length_eq_one_iff.1 hone
      rw [hk] at k2
      have hrr := hboth q rr (by rw [k2]; simp)
      refine Or.inr ⟨q, ⟨hr3, hwin3, hunk k1, rr, k2, hrr⟩, ?_⟩
      rintro q0 ⟨-, -, -, rr0, e1, e2⟩
      have hq0 : q = q0 := by
        rw [b6, e1] at hkept
        have : (q, rr) ∈ [(q0, rr0)].filter (fun q => decide (∀ x ∈ q.2.ids, f ≤ x)) := by rw [hkept, hk]; simp
        have := (List.mem_filter.1 this).1
        simp at this
        exact this.1
      refine ⟨hq0, ?_⟩
      by_contra hminor
      apply hind
      have hrows : rowsFor f s2.dec.det.repairs r.id r.ids = [(q, [x, y]), (r.id, r.ids)] := by
        unfold rowsFor
        rw [hkept, hk]
        simp [hrr]
      rw [hrows]
      intro v hv
      have e3 := hv (q, [x, y]) (by simp)
      have e4 := hv (r.id, r.ids) (by simp)
      have f1 : [x, y].filter (fun z => decide (z ∈ [x, y])) = [x, y] := by simp
      have f2 : [x, y].filter (fun z => decide (z ∈ r.ids)) = [x, y] := by
        rw [List.filter_eq_self]
        intro z hz
        rw [decide_eq_true_eq, hids]
        rcases List.mem_cons.1 hz with rfl | hz
        · exact hxw
        · rw [List.mem_singleton.1 hz]; exact hyw
      rw [b5] at e4
      simp only [f1, f2, xorOver, List.foldl_cons, List.foldl_nil] at e3 e4
      exact two_by_two c.gf v _ _ _ _ hminor e3 e4

/-- What is known stays known when repairs arrive. -/
theorem known_stays (hc : c.Ok) (hw : w ≠ 32) (h : Reach c io s) (hne : s.enc.sources ≠ []) (hwire : WireIds (s.enc.sources.map (·.id)))
    (m : Nat) (hb : s.enc.nbSentRepairs + m < 2 ^ 32) :
    ∃ s', s.run c (repairsArrive s.enc.out.length m) = .ok s' ∧ Reach c io s' ∧ s'.enc.sources = s.enc.sources ∧
      s'.enc.nbSentRepairs = s.enc.nbSentRepairs + m ∧ s'.enc.out.length = s.enc.out.length + m ∧
      ∀ x, s.dec.det.Knows x → s'.dec.det.Knows x := by
  induction m with
  | zero => exact ⟨s, rfl, h, rfl, rfl, rfl, fun _ hx => hx⟩
  | succ m ih =>
    obtain ⟨s1, a1, a2, a3, a4, a5, a6⟩ := ih (by omega)
    obtain ⟨s2, r, b1, b2, b3, b4, b5, b6, b7, b8, b9, b10, b11⟩ := repair_ready hc hw a2 (by rw [a3]; exact hne)
      (by unfold Enc.win; rw [a3]; exact hwire) (by omega)
    obtain ⟨s3, c1, -⟩ := C05_no_fault_partial hc b2 _ b7
    have henc : s3.enc = s2.enc := by
      have c1' := c1
      simp only [Sys.step, b3, bind_ok_iff, pure_ok_iff] at c1'
      obtain ⟨⟨d, q⟩, _, rfl⟩ := c1'
      rfl
    have hk := (C04_known_forever_partial hc b2 _ b7 s3 c1).1
    refine ⟨s3, ?_, Reach.step b2 b7 c1, by rw [henc, b9, a3], by rw [henc, b10]; omega, by rw [henc, b11]; omega,
      fun x hx => hk x (by rw [b6]; exact a6 x hx)⟩
    unfold Sys.run at a1 ⊢
    rw [repairsArrive, List.foldlM_append, a1]
    rw [a5] at c1
    simp only [List.foldlM_cons, List.foldlM_nil, b1, c1, bind, Except.bind]
    rfl

/-- Repairs that arrive while a repair is held: both sources become known, or all minors are zero. -/
theorem two_steps (hc : c.Ok) (hw : w ≠ 32) {win : List Nat} (hwire : WireIds win) {x y q : Nat} (h : TwoLeft c io win x y q s)
    (m : Nat) (hb : s.enc.nbSentRepairs + m < 2 ^ 32) :
    ∃ s', s.run c (repairsArrive s.enc.out.length m) = .ok s' ∧ Reach c io s' ∧ s'.enc.sources = s.enc.sources ∧
      s'.enc.nbSentRepairs = s.enc.nbSentRepairs + m ∧ s'.enc.out.length = s.enc.out.length + m ∧
      ((s'.dec.det.Knows x ∧ s'.dec.det.Knows y) ∨ (TwoLeft c io win x y q s' ∧
        ∀ r, s.enc.nbSentRepairs ≤ r → r < s.enc.nbSentRepairs + m → c.gf.mul (coefficient w q x) (coefficient w r y) =
          c.gf.mul (coefficient w q y) (coefficient w r x))) := by
  induction m with
  | zero => exact ⟨s, rfl, h.reach, rfl, rfl, rfl, Or.inr ⟨h, fun r h1 h2 => by omega⟩⟩
  | succ m ih =>
    obtain ⟨s1, a1, a2, a3, a4, a5, a6⟩ := ih (by omega)
    have hone : ∃ s', s1.run c [.repair, .deliver s1.enc.out.length] = .ok s' ∧ Reach c io s' ∧ s'.enc.sources = s1.enc.sources ∧
        s'.enc.nbSentRepairs = s1.enc.nbSentRepairs + 1 ∧ s'.enc.out.length = s1.enc.out.length + 1 ∧
        ((s'.dec.det.Knows x ∧ s'.dec.det.Knows y) ∨ (TwoLeft c io win x y q s' ∧
          ∀ r, s.enc.nbSentRepairs ≤ r → r < s.enc.nbSentRepairs + (m + 1) → c.gf.mul (coefficient w q x) (coefficient w r y) =
            c.gf.mul (coefficient w q y) (coefficient w r x))) := by
      have hwin1 : s1.enc.sources.map (·.id) = win := by rw [a3]; exact h.window
      rcases a6 with ⟨k1, k2⟩ | ⟨k1, k2⟩
      · have hne : s1.enc.sources ≠ [] := by
          intro h0
          have h1 := h.unknown
          rw [h0] at hwin1
          rw [← hwin1] at h1
          cases h1
        obtain ⟨s', g1, g2, g3, g4, g5, g6⟩ := known_stays hc hw a2 hne (by rw [hwin1]; exact hwire) 1 (by omega)
        exact ⟨s', g1, g2, g3, g4, g5, Or.inl ⟨g6 x k1, g6 y k2⟩⟩
      · obtain ⟨s', g1, g2, g3, g4, g5, g6⟩ := two_step hc hw a2 hwin1 hwire k1.unknown (by omega)
        refine ⟨s', g1, g2, g3, g4, g5, ?_⟩
        rcases g6 with g6 | ⟨q', g6, g7⟩
        · exact Or.inl g6
        · obtain ⟨rfl, g8⟩ := g7 q k1
          refine Or.inr ⟨g6, fun r h1 h2 => ?_⟩
          by_cases hr : r = s1.enc.nbSentRepairs
          · rw [hr]; exact g8
          · exact k2 r h1 (by omega)
    obtain ⟨s', g1, g2, g3, g4, g5, g6⟩ := hone
    refine ⟨s', ?_, g2, g3.trans a3, by omega, by omega, g6⟩
    unfold Sys.run at a1 g1 ⊢
    rw [repairsArrive, List.foldlM_append, a1]
    rw [a5] at g1
    exact g1

/-- `m + 1` repairs are one and then `m`. -/
theorem repairsArrive_succ (n m : Nat) : repairsArrive n (m + 1) = [.repair, .deliver n] ++ repairsArrive (n + 1) m := by
  induction m with
  | zero => rfl
  | succ m ih =>
    rw [repairsArrive, ih, repairsArrive, List.append_assoc, show n + 1 + m = n + (m + 1) by omega]

/-- **C64** for two losses: if two sources of the window are unknown and their numbers do not differ by a multiple of 2^w - 1, both
are known after 2^w more repairs, whatever happened before. (With w = 16 the last hypothesis never holds: the computation of the
coefficients overflows before 2^16 repairs.) -/
theorem C64_two_recovered_partial (hc : c.Ok) (hw : w ≠ 32) (h : Reach c io s) {x y : Nat} (hwire : WireIds (s.enc.sources.map (·.id)))
    (hU : (s.enc.sources.map (·.id)).filter (fun z => decide (¬ s.dec.det.Knows z)) = [x, y])
    (hxy : x % (2 ^ w - 1) ≠ y % (2 ^ w - 1))
    (hs : (s.enc.nbSentRepairs + (2 ^ w - 1) + max x y + 2) * (s.enc.nbSentRepairs + (2 ^ w - 1) + 1) < 2 ^ 32) :
    ∃ s', s.run c (repairsArrive s.enc.out.length (2 ^ w)) = .ok s' ∧ s'.dec.det.Knows x ∧ s'.dec.det.Knows y := by
  have hpos : 0 < 2 ^ w := Nat.two_pow_pos w
  have hb : s.enc.nbSentRepairs + 2 ^ w < 2 ^ 32 := by
    have : (s.enc.nbSentRepairs + (2 ^ w - 1) + max x y + 2) * 1 ≤
        (s.enc.nbSentRepairs + (2 ^ w - 1) + max x y + 2) * (s.enc.nbSentRepairs + (2 ^ w - 1) + 1) := Nat.mul_le_mul_left _ (by omega)
    omega
  obtain ⟨s1, a1, a2, a3, a4, a5, a6⟩ := two_step hc hw h rfl hwire hU (by omega)
  have hm : 2 ^ w = (2 ^ w - 1) + 1 := by omega
  have hsplit : ∀ s', s1.run c (repairsArrive s1.enc.out.length (2 ^ w - 1)) = .ok s' →
      s.run c (repairsArrive s.enc.out.length (2 ^ w)) = .ok s' := by
    intro s' h1
    rw [hm, repairsArrive_succ]
    unfold Sys.run at a1 h1 ⊢
    rw [List.foldlM_append, a1]
    rw [a5] at h1
    exact h1
  rcases a6 with ⟨k1, k2⟩ | ⟨q, k1, -⟩
  · have hne : s1.enc.sources ≠ [] := by
      intro h0
      rw [← a3, h0] at hU
      cases hU
    obtain ⟨s', g1, g2, g3, g4, g5, g6⟩ := known_stays hc hw a2 hne (by rw [a3]; exact hwire) (2 ^ w - 1) (by omega)
    exact ⟨s', hsplit s' g1, g6 x k1, g6 y k2⟩
  · obtain ⟨s', g1, g2, g3, g4, g5, g6⟩ := two_steps hc hw hwire k1 (2 ^ w - 1) (by omega)
    rcases g6 with g6 | ⟨-, g6⟩
    · exact ⟨s', hsplit s' g1, g6⟩
    · exfalso
      obtain ⟨r, h1, h2, h3⟩ := C64_two_partial c.gf hc.width hw q s.enc.nbSentRepairs hxy hs
      exact h3 (g6 r (by omega) (by omega))

/-- The losses of `C44_false`, where two repairs of both did not suffice. -/
example : ∃ s', (reached (cfg8 true) false minorActs).run (cfg8 true) (repairsArrive 11 256) = .ok s' ∧
    s'.dec.det.Knows 0 ∧ s'.dec.det.Knows 3 := by
  have h7 : (reached (cfg8 true) false minorActs).enc.nbSentRepairs = 7 := by decide +kernel
  have h11 : (reached (cfg8 true) false minorActs).enc.out.length = 11 := by decide +kernel
  have h := C64_two_recovered_partial (c := cfg8 true) (io := false) (s := reached (cfg8 true) false minorActs) (cfg8_ok true) (by decide)
    (reached_reach (by decide +kernel)) (x := 0) (y := 3) (by decide +kernel) (by decide +kernel) (by decide) (by rw [h7]; decide)
  rw [h11] at h
  exact h

/-- **C64** is false for a repair whose number differs from that of another repair of the same sources by a multiple of 2^w - 1: it
is the same repair, with another number (as long as the computation of the coefficients does not overflow). -/
theorem C64_false_same_repair (hc : c.Ok) (hw : w ≠ 32) (h : Reach c io s) {i j : Nat} {r r' : ERepair}
    (hi : s.enc.out[i]? = some (.repair r)) (hj : s.enc.out[j]? = some (.repair r')) (hids : r'.ids = r.ids)
    (hid : r'.id % (2 ^ w - 1) = r.id % (2 ^ w - 1))
    (hs : ∀ x ∈ r.ids, (max r.id r'.id + x + 2) * (max r.id r'.id + 1) < 2 ^ 32) :
    r' = { r with id := r'.id } := by
  have := fact_of_valid hc.width
  obtain ⟨ems, A, ρ, L, W, K, hI⟩ := inv_of_reach hc h
  obtain ⟨h1, -⟩ := hI.fits hc hi
  obtain ⟨h2, -⟩ := hI.fits hc hj
  have hco : ∀ x ∈ r.ids, coefficient w r.id x = coefficient w r'.id x := by
    intro x hx
    have h3 := hs x hx
    rw [coefficient_inj hc.width, coefficientNat_small hw (lt_of_le_of_lt (Nat.mul_le_mul (by omega) (by omega)) h3),
      coefficientNat_small hw (lt_of_le_of_lt (Nat.mul_le_mul (by omega) (by omega)) h3)]
    congr 1
    have h4 : r.id ≡ r'.id [MOD 2 ^ w - 1] := hid.symm
    exact Nat.ModEq.mul (by
      have := (h4.add_right x).add_right 2
      exact this) (h4.add_right 1)
  refine isRepairOf_unique h2 (?_ : IsRepairOf c.gf r'.id _ { r with id := r'.id })
  rw [hids]
  refine ⟨rfl, h1.ids, h1.longest, ?_, ?_⟩
  · intro k
    show r.sym.getD k 0#8 = _
    rw [h1.byte k, List.map_map, List.map_map]
    congr 1
    refine List.map_congr_left (fun x hx => ?_)
    simp only [Function.comp_apply, hco x hx]
  · show r.encSize = _
    rw [h1.size, List.map_map, List.map_map]
    congr 1
    refine List.map_congr_left (fun x hx => ?_)
    simp only [Function.comp_apply, hco x hx]

/-- Three sources and sixteen repairs in GF(2^4). -/
def sixteen : Sys := reached (cfg4 true) false ([.setRate 1000, .commit [1], .commit [2], .commit [3]] ++ List.replicate 16 .repair)

/-- Two of these repairs, with numbers 0 and 15. -/
example : sixteen.enc.out[3]?.bind (fun p => match p with | .repair r => some (r.id, r.ids, r.encSize, r.sym) | .source _ => none) =
      some (0, [0, 1, 2], 2#16, [4#8]) ∧
    sixteen.enc.out[18]?.bind (fun p => match p with | .repair r => some (r.id, r.ids, r.encSize, r.sym) | .source _ => none) =
      some (15, [0, 1, 2], 2#16, [4#8]) := by unfold sixteen; decide +kernel

end Netcode
