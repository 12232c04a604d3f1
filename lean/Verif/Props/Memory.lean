import Verif.Props.System
import Verif.Props.Lossless
import Verif.Proofs.Trail

/-!
# C73: what a decoder keeps
-/

set_option linter.unusedSectionVars false

namespace Netcode

variable {w : Nat} {c : Cfg w} {io : Bool} {s : Sys}

theorem sorted_nodup {l : List Nat} (h : Sorted l) : l.Nodup := List.Pairwise.imp (fun h => Nat.ne_of_lt h) h

theorem count_between {l m : List Nat} {a n : Nat} (hl : l.Nodup) (hm : m.Nodup) (hd : ∀ x ∈ l, x ∉ m)
    (h1 : ∀ x ∈ l, a ≤ x ∧ x < n) (h2 : ∀ x ∈ m, a ≤ x ∧ x < n) (han : a ≤ n) : l.length + m.length + a ≤ n := by
  have hn : (l ++ m).Nodup := List.nodup_append.2 ⟨hl, hm, fun x hx y hy e => hd x hx (e ▸ hy)⟩
  have hs : (l ++ m) ⊆ List.range' a (n - a) := by
    intro x hx
    rw [List.mem_range'_1]
    rcases List.mem_append.1 hx with h | h
    · have := h1 x h; omega
    · have := h2 x h; omega
  have := (hn.subperm hs).length_le
  rw [List.length_append, List.length_range'] at this
  omega

/-- **C73, in part.** The sources that a decoder keeps, and those it misses, are together no more than the data committed since the
oldest source of any repair that arrived; and it holds no more repairs than it misses sources. -/
theorem C73_bound_partial (hc : c.Ok) (h : Reach c io s) :
    s.dec.det.sources.length + s.dec.det.missing.length ≤ s.committed.length ∧
    (∀ i ∈ s.hist, ∀ r, s.enc.out[i]? = some (.repair r) → ∀ a, (∀ y ∈ r.ids, a ≤ y) →
      s.dec.det.sources.length + s.dec.det.missing.length + a ≤ s.committed.length) ∧
    s.dec.det.repairs.length ≤ s.dec.det.missing.length := by
  have := fact_of_valid hc.width
  obtain ⟨ems, A, ρ, L, W, K, hI⟩ := inv_of_reach hc h
  have hW : ∀ x ∈ W, x < s.committed.length := by
    intro x hx
    rcases hI.newest with ⟨_, h2, _⟩ | ⟨j, hj, Wl, g1, g2, g3, g4⟩
    · rw [h2] at hx; cases hx
    · rw [g2] at hx
      exact hI.enc.emLt _ (List.mem_of_getElem? g1) x hx
  have hL : L ≤ s.committed.length := by
    rcases hI.newest with ⟨_, _, h2, _⟩ | ⟨j, hj, Wl, g1, g2, g3, g4⟩
    · omega
    · have := hI.enc.emLt _ (List.mem_of_getElem? g1) L (List.mem_of_mem_head? g3)
      omega
  have hcnt : s.dec.det.sources.length + s.dec.det.missing.length + L ≤ s.committed.length := by
    have hk : ∀ x ∈ s.dec.det.sources.map (·.1), x ∈ K ∧ L ≤ x := fun x hx =>
      (hI.dinv.core.has_src x).1 ((OMap.has_iff _ _).2 hx)
    have := count_between (l := s.dec.det.sources.keys) (m := s.dec.det.missing.keys) (a := L) (n := s.committed.length)
      (sorted_nodup hI.dinv.core.srcSorted) (sorted_nodup hI.dinv.core.misSorted)
      (fun x hx hm => ((hI.dinv.core.misKeys x).1 hm).2 (hk x hx).1)
      (fun x hx => ⟨(hk x hx).2, hI.knownLt x (hk x hx).1⟩)
      (fun x hx => ⟨hI.dinv.core.lo x ((hI.dinv.core.misKeys x).1 hx).1, hW x ((hI.dinv.core.misKeys x).1 hx).1⟩) hL
    simpa using this
  refine ⟨by omega, ?_, ?_⟩
  · intro i hi r hr a ha
    have : a ≤ L := by
      obtain ⟨em, hem, hren⟩ := hI.enc.ems_get hr
      cases em with
      | src x => cases hren
      | rep rid Wi =>
        obtain ⟨r', h1, h2, h3, -⟩ := hren
        cases h1
        have hids : ∀ y ∈ Wi, a ≤ y := by
          intro y hy
          apply ha
          rw [h2.ids]
          simpa [srcOf] using hy
        obtain ⟨z, hz⟩ := List.exists_mem_of_ne_nil _ h3
        rcases hI.newest with ⟨g1, -⟩ | ⟨j, hj, Wl, g1, g2, g3, g4⟩
        · exact absurd hem (g1 i hi _ _)
        · have hLm := List.mem_of_mem_head? g3
          have hij := g4 i hi _ _ hem
          rcases Nat.lt_or_ge i j with hlt | hge
          · by_contra hn
            have := hids z hz
            exact hn (hids L (hI.enc.f2 i j _ _ _ _ hlt hem g1 L hLm z hz (by omega)))
          · obtain rfl : i = j := by omega
            rw [hem] at g1
            cases g1
            exact hids L hLm
    omega
  · by_cases hr : s.dec.det.repairs = []
    · rw [hr]; exact Nat.zero_le _
    · exact Nat.le_of_lt ((C43_bookkeeping_partial hc h).2.2.2 hr)

/-- Source 0 is acknowledged; the repair of the others arrives when source 2 is lost: 1, 3 and 4 are kept, 2 is decoded. -/
def demoKeep : List Act := [.setRate 10, .commit [1], .deliver 0, .genAck, .ack 0, .commit [2], .commit [3], .commit [4], .commit [5],
  .deliver 1, .deliver 3, .deliver 4, .repair, .deliver 5]
example : Reach (cfg8 true) false (reached (cfg8 true) false demoKeep) := reached_reach (by decide +kernel)
example : let s := reached (cfg8 true) false demoKeep
    s.dec.det.sources.keys = [1, 2, 3, 4] ∧ s.committed.length = 5 ∧ s.dec.data.length = 5 := by decide +kernel

/-- The states of `C73_false`: nothing is lost. -/
theorem keep_all (hc : c.Ok) (d : List Byte) (hd : DataOk w d) (N : Nat) (hN : N < 2 ^ 32) :
    ∃ s, Reach c io s ∧ s.committed = List.replicate N d ∧ s.enc.systematic = true ∧ s.enc.rate = 2 ^ 32 ∧ s.enc.windowSize = 1 ∧
      s.enc.sources.length ≤ 1 ∧ s.enc.out = (List.range N).map (fun i => .source ⟨i, d⟩) ∧ s.enc.nbSentRepairs = 0 ∧
      s.hist = List.range N ∧ FifoReach c io s := by
  have := fact_of_valid hc.width
  induction N with
  | zero =>
    have r0 : Reach c io (Sys.init c.clk io) := .init
    obtain ⟨s1, h1, -⟩ := C05_no_fault_partial hc r0 (.setRate (2 ^ 32)) (by show 0 < 2 ^ 32; decide)
    have r1 := Reach.step r0 (by show 0 < 2 ^ 32; decide) h1
    obtain ⟨s2, h2, -⟩ := C05_no_fault_partial hc r1 (.setWindow 1) (by show 0 < 1; decide)
    have r2 := Reach.step r1 (by show 0 < 1; decide) h2
    have f2 : FifoReach c io s2 := .step (.step .init ⟨by show 0 < 2 ^ 32; decide, trivial⟩ h1) ⟨by show 0 < 1; decide, trivial⟩ h2
    refine ⟨s2, r2, ?_⟩
    simp only [Sys.step, Enc.setRate, Enc.setWindowSize, bind_ok_iff, pure_ok_iff] at h1 h2
    obtain ⟨e1, ⟨_, _, rfl⟩, rfl⟩ := h1
    obtain ⟨e2, ⟨_, _, rfl⟩, rfl⟩ := h2
    refine ⟨rfl, rfl, rfl, rfl, Nat.zero_le _, rfl, rfl, rfl, f2⟩
  | succ N ih =>
    obtain ⟨s, h, h1, h2, h3, h4, h5, h6, h7, h8, hF⟩ := ih (by omega)
    obtain ⟨ems, A, ρ, L, W, K, hI⟩ := inv_of_reach hc h
    have hcur : s.enc.curSrc = N := by rw [hI.cur, h1, List.length_replicate]
    have ha : Allowed c s (.commit d) := ⟨hd, by rw [h1, List.length_replicate]; omega, by rw [h7]; decide⟩
    obtain ⟨s1, hs1, -⟩ := C05_no_fault_partial hc h _ ha
    have r1 := Reach.step h ha hs1
    have f1 : FifoReach c io s1 := .step (a := .commit d) hF ⟨ha, trivial⟩ hs1
    simp only [Sys.step, bind_ok_iff, pure_ok_iff] at hs1
    obtain ⟨e, he, rfl⟩ := hs1
    have hout : e.out = (List.range (N + 1)).map (fun i => .source ⟨i, d⟩) ∧ e.sources = s.enc.room ++ [⟨s.enc.curSrc, d⟩] ∧
        e.systematic = true ∧ e.rate = 2 ^ 32 ∧ e.windowSize = 1 ∧ e.nbSentRepairs = 0 := by
      obtain ⟨e1, e2, rfl, g2, g3, g4⟩ := commit_inv he
      rcases g2 with ⟨-, rfl⟩ | ⟨g2, -⟩
      · rcases g4 with ⟨-, rfl⟩ | ⟨g4, -⟩
        · refine ⟨?_, rfl, h2, h3, h4, h7⟩
          simp only [Enc.sentSource, h6, hcur, List.range_succ, List.map_append, List.map_cons, List.map_nil]
        · exfalso
          rw [hcur, h3] at g4
          rw [Nat.mod_eq_of_lt hN, Nat.mod_eq_of_lt hN] at g4
          omega
      · rw [h2] at g2; cases g2
    obtain ⟨hout, k2, k3, k4, k5, k6⟩ := hout
    have ha2 : Allowed c { s with enc := e, committed := s.committed ++ [d] } (.deliver N) := by
      unfold Allowed
      simp only [hout]
      simp only [List.getElem?_map, List.getElem?_range (Nat.lt_succ_self N), Option.map_some]
      refine Or.inr (Or.inl (fun j hj hlt => ?_))
      have hj2 : j ∈ s.hist := hj
      rw [h8, List.mem_range] at hj2
      omega
    obtain ⟨s2, hs2, -⟩ := C05_no_fault_partial hc r1 (.deliver N) ha2
    have f2 : FifoReach c io s2 := .step (a := .deliver N) f1 ⟨trivial, by show N = s.hist.length; rw [h8, List.length_range], by
      intro r hr
      simp only [hout, List.getElem?_map, List.getElem?_range (Nat.lt_succ_self N), Option.map_some] at hr
      cases hr⟩ hs2
    refine ⟨s2, .step r1 ha2 hs2, ?_⟩
    simp only [Sys.step, hout] at hs2
    simp only [List.getElem?_map, List.getElem?_range (Nat.lt_succ_self N), Option.map_some, bind_ok_iff, pure_ok_iff] at hs2
    obtain ⟨⟨d1, r⟩, -, rfl⟩ := hs2
    refine ⟨by rw [List.replicate_succ', h1], k3, k4, k5, ?_, hout, k6, by rw [List.range_succ, h8], f2⟩
    show e.sources.length ≤ 1
    rw [k2]
    unfold Enc.room
    rw [h4, List.length_append]
    split
    · rw [List.length_tail, List.length_singleton]; omega
    · rw [List.length_singleton]; omega

/-- **C73 fails** if it is to say that the window of the encoder bounds what a decoder keeps: only repairs make it forget, so with a code
rate that is high enough, or if repairs are lost, it keeps all sources that arrived for ever, although they were all handed over. -/
theorem C73_false (hc : c.Ok) (d : List Byte) (hd : DataOk w d) (N : Nat) (hN : N < 2 ^ 32) :
    ∃ s, Reach c io s ∧ s.hist = List.range s.enc.out.length ∧ s.enc.window ≤ 1 ∧ s.enc.windowSize = 1 ∧
      s.dec.det.sources.length = N := by
  have := fact_of_valid hc.width
  obtain ⟨s, h, h1, h2, h3, h4, h5, h6, h7, h8, -⟩ := keep_all (io := io) hc d hd N hN
  obtain ⟨ems, A, ρ, L, W, K, hI⟩ := inv_of_reach hc h
  refine ⟨s, h, by rw [h8, h6]; simp, h5, h4, ?_⟩
  have hL : L = 0 := by
    rcases hI.newest with ⟨_, _, h2, _⟩ | ⟨j, hj, Wl, g1, g2, g3, g4⟩
    · exact h2
    · exfalso
      have hlt := hI.histLt j hj
      rw [← hI.enc.outLen] at hlt
      obtain ⟨r, h9, -⟩ := hI.enc.rend j _ _ g1 (List.getElem?_eq_getElem hlt)
      have : (EPkt.repair r) ∈ s.enc.out := h9 ▸ List.getElem_mem hlt
      rw [h6] at this
      simp at this
  have hk : ∀ x, x ∈ s.dec.det.sources.map (·.1) ↔ x ∈ List.range N := by
    intro x
    rw [List.mem_range]
    constructor
    · intro hx
      have := hI.knownLt x ((hI.dinv.core.has_src x).1 ((OMap.has_iff _ _).2 hx)).1
      rwa [h1, List.length_replicate] at this
    · intro hx
      apply (OMap.has_iff _ _).1
      rw [hI.dinv.core.has_src]
      refine ⟨?_, by omega⟩
      have hout : s.enc.out[x]? = some (.source ⟨x, d⟩) := by rw [h6]; simp [hx]
      obtain ⟨em, hem, hren⟩ := hI.enc.ems_get hout
      cases em with
      | rep rid Wi => obtain ⟨r', h1, -⟩ := hren; cases h1
      | src y =>
        have : y = x := by
          have := EPkt.source.inj hren
          exact (congrArg ESource.id this).symm
        subst this
        rcases hI.seen y (by rw [h8]; simpa using hx) y hem with h9 | h9
        · exact h9
        · omega
  have := sorted_ext hI.dinv.core.srcSorted List.pairwise_lt_range hk
  have := congrArg List.length this
  simpa using this

end Netcode
