import Verif.Proofs.Count
import Verif.Proofs.LateCheck
import Verif.Props.Ends

/-! # Deliveries and statistics with ordering (C29) -/

namespace Netcode

variable {w : Nat} {c : Cfg w}

theorem counted_le {h k l : List Nat} (hh : h.Nodup) (hk : k.Nodup) (hl : ∀ x, x ∈ h ∨ x ∈ k → x ∈ l) :
    h.length + (k.filter (fun x => decide (x ∉ h))).length ≤ l.length := by
  have hn : (h ++ k.filter (fun x => decide (x ∉ h))).Nodup := by
    refine hh.append (hk.filter _) ?_
    intro x hx hx'
    simp only [List.mem_filter, decide_eq_true_eq] at hx'
    exact hx'.2 hx
  have := (hn.subperm (l₂ := l) (by
    intro x hx
    simp only [List.mem_append, List.mem_filter] at hx
    exact hl x (hx.imp id (·.1)))).length_le
  rwa [List.length_append] at this

theorem counted_ge {h k l : List Nat} (hn : l.Nodup) (hl : ∀ x ∈ l, x ∈ h ∨ x ∈ k) :
    l.length ≤ h.length + (k.filter (fun x => decide (x ∉ h))).length := by
  have := (hn.subperm (l₂ := h ++ k.filter (fun x => decide (x ∉ h))) (by
    intro x hx
    simp only [List.mem_append, List.mem_filter, decide_eq_true_eq]
    by_cases hh : x ∈ h
    · exact Or.inl hh
    · exact Or.inr ⟨(hl x hx).resolve_left hh, hh⟩)).length_le
  rwa [List.length_append] at this

theorem counted (hc : c.Ok) (late : Bool) (acts : List Act) (hp : RunPermits c late (Sys.init c.clk true) acts) :
    ∃ s, (Sys.init c.clk true).run c acts = .ok s ∧
      s.dec.data.length + (s.dec.det.sources.keys.filter (fun x => decide (x ∉ s.dec.det.handed))).length ≤
        nbFresh c.gf c.dbg c.clk (NDec.init c.clk true) (decCalls c (Sys.init c.clk true) acts) + s.dec.det.nbDecoded ∧
      (late = false → nbFresh c.gf c.dbg c.clk (NDec.init c.clk true) (decCalls c (Sys.init c.clk true) acts) + s.dec.det.nbDecoded ≤
        s.dec.data.length + (s.dec.det.sources.keys.filter (fun x => decide (x ∉ s.dec.det.handed))).length) := by
  have := fact_of_valid hc.width
  have hag : Agree (fun x => (committedBy acts).getD x []) ((Sys.init c.clk true).committed ++ committedBy acts) := by
    intro x d h
    simp only [Sys.init, List.nil_append] at h
    simp [List.getD, h]
  obtain ⟨s, u, ems, A, ρ, L, W, K, h1, h2, h3, h4⟩ := run_count hc late acts _ _ _ _ _ _ _ _ (lateInv_init c _)
    (fun _ => ⟨⟨_, _, _, _, _, _, sysInv_init c true _⟩, fun x hx => by cases hx⟩) hag hp
  have hu := h2.inv.dinv.log.unord h2.ord.like.mode
  have e0 : u.log.length = nbFresh c.gf c.dbg c.clk (NDec.init c.clk true) (decCalls c (Sys.init c.clk true) acts) + s.dec.det.nbDecoded := by
    have : (Sys.init c.clk true).dec = NDec.init c.clk true := rfl
    rw [this] at h4
    simp only [NDec.init, Dec.init, List.length_nil, Nat.add_zero, Nat.zero_add] at h4 ⊢
    omega
  have e1 : u.logIds.length = u.log.length := by simp [Dec.logIds]
  have e2 : s.dec.data.length = s.dec.det.handed.length := by rw [h2.dataLog]; simp [Dec.handed]
  have hk : s.dec.det.sources.keys.Nodup := by
    have := h2.inv.dinv.core.srcSorted
    rw [show (s.hyb u).dec.det = u from rfl, h2.ord.like.same.sources] at this
    exact List.Pairwise.imp (fun h => Nat.ne_of_lt h) this
  have hh : s.dec.det.handed.Nodup := List.Pairwise.imp (fun h => Nat.ne_of_lt h) h2.ord.logSorted
  refine ⟨s, h1, ?_⟩
  rw [← e0, e2, ← e1]
  refine ⟨counted_le hh hk ?_, fun e => counted_ge hu.1 ((h3 e).2)⟩
  rintro x (hx | hx)
  · exact (hu.2.1 x).2 (h2.handed_known hx)
  · rw [← h2.ord.like.same.sources] at hx
    exact (hu.2.1 x).2 (h2.inv.dinv.core.src_keys x hx)

/-- **C29**, deliveries, with ordering: in every permitted run in which no source is late, the data handed over and those that wait for their turn are
as many as the fresh sources received plus `nb_decoded()`. -/
theorem C29_ordered_partial (hc : c.Ok) {acts : List Act} (hp : RunPermits c false (Sys.init c.clk true) acts) {s : Sys}
    (h : (Sys.init c.clk true).run c acts = .ok s) :
    s.dec.data.length + (s.dec.det.sources.keys.filter (fun x => decide (x ∉ s.dec.det.handed))).length =
      nbFresh c.gf c.dbg c.clk (NDec.init c.clk true) (decCalls c (Sys.init c.clk true) acts) + s.dec.det.nbDecoded := by
  obtain ⟨s', h1, h2, h3⟩ := counted hc false acts hp
  rw [h] at h1
  cases h1
  exact Nat.le_antisymm h2 (h3 rfl)

/-- **C29**, deliveries, with ordering and late sources: never more than the fresh sources received plus `nb_decoded()`. -/
theorem C29_late_partial (hc : c.Ok) {late : Bool} {acts : List Act} (hp : RunPermits c late (Sys.init c.clk true) acts) {s : Sys}
    (h : (Sys.init c.clk true).run c acts = .ok s) :
    s.dec.data.length + (s.dec.det.sources.keys.filter (fun x => decide (x ∉ s.dec.det.handed))).length ≤
      nbFresh c.gf c.dbg c.clk (NDec.init c.clk true) (decCalls c (Sys.init c.clk true) acts) + s.dec.det.nbDecoded := by
  obtain ⟨s', h1, h2, _⟩ := counted hc late acts hp
  rw [h] at h1
  cases h1
  exact h2

/-- **C05/C29.** A permitted run fails in no step. -/
theorem C29_permitted_runs (hc : c.Ok) {late : Bool} {acts : List Act} (hp : RunPermits c late (Sys.init c.clk true) acts) :
    ∃ s, (Sys.init c.clk true).run c acts = .ok s := by
  obtain ⟨s, h, _⟩ := counted hc late acts hp
  exact ⟨s, h⟩

/-! Instances -/

theorem runPermits_of_allowed (acts : List Act) (s : Sys) (h : (runAllowed c s acts).isSome = true) : RunPermits c false s acts := by
  induction acts generalizing s with
  | nil => trivial
  | cons a t ih =>
    unfold runAllowed at h
    split at h
    · rename_i ha
      refine ⟨allowed_of_B ha, fun s' hs => ih s' ?_⟩
      rw [hs] at h
      exact h
    · cases h

theorem runPermits_of_late (acts : List Act) (s : Sys) (h : (runLate c s acts).isSome = true) : RunPermits c true s acts := by
  induction acts generalizing s with
  | nil => trivial
  | cons a t ih =>
    unfold runLate at h
    split at h
    · rename_i ha
      refine ⟨allowedLate_of_B ha, fun s' hs => ih s' ?_⟩
      rw [hs] at h
      exact h
    · cases h

/-- Source 1 is lost and decoded; source 4 arrives, source 3 does not: it waits. -/
def countActs : List Act :=
  [.setRate 3, .commit [1, 2], .commit [3], .commit [4, 5, 6], .deliver 0, .deliver 2, .deliver 3, .deliver 0, .commit [7], .commit [8], .deliver 5]

example (dbg : Bool) : RunPermits (cfg8 dbg) false (Sys.init (cfg8 dbg).clk true) countActs :=
  runPermits_of_allowed _ _ (by revert dbg; decide +kernel)

example : ((Sys.init (cfg8 true).clk true).run (cfg8 true) countActs).toOption.map (fun s => (s.dec.data, s.dec.det.nbDecoded,
    s.dec.det.sources.keys.filter (fun x => decide (x ∉ s.dec.det.handed)))) = some ([[1, 2], [3], [4, 5, 6]], 1, [4]) ∧
    nbFresh gf8 true (cfg8 true).clk (NDec.init (cfg8 true).clk true) (decCalls (cfg8 true) (Sys.init (cfg8 true).clk true) countActs) = 3 := by
  decide +kernel

/-- **C29 fails with late sources**, also for the packets of an encoder: one source fewer than received and decoded. -/
theorem C29_late_false (dbg : Bool) :
    ¬ ∀ acts s, RunPermits (cfg8 dbg) true (Sys.init (cfg8 dbg).clk true) acts → (Sys.init (cfg8 dbg).clk true).run (cfg8 dbg) acts = .ok s →
      nbFresh gf8 dbg (cfg8 dbg).clk (NDec.init (cfg8 dbg).clk true) (decCalls (cfg8 dbg) (Sys.init (cfg8 dbg).clk true) acts) + s.dec.det.nbDecoded ≤
        s.dec.data.length + (s.dec.det.sources.keys.filter (fun x => decide (x ∉ s.dec.det.handed))).length := by
  intro h
  have hp : RunPermits (cfg8 dbg) true (Sys.init (cfg8 dbg).clk true) lostActs :=
    runPermits_of_late _ _ (by clear h; revert dbg; decide +kernel)
  obtain ⟨s, hs⟩ := C29_permitted_runs (cfg8_ok dbg) hp
  have h1 := h _ s hp hs
  have h2 : ((Sys.init (cfg8 dbg).clk true).run (cfg8 dbg) lostActs).toOption.map (fun s => decide (
      nbFresh gf8 dbg (cfg8 dbg).clk (NDec.init (cfg8 dbg).clk true) (decCalls (cfg8 dbg) (Sys.init (cfg8 dbg).clk true) lostActs) + s.dec.det.nbDecoded ≤
        s.dec.data.length + (s.dec.det.sources.keys.filter (fun x => decide (x ∉ s.dec.det.handed))).length)) = some false := by
    clear h h1 hs hp s; revert dbg; decide +kernel
  rw [hs] at h2
  simp only [Except.toOption, Option.map_some, Option.some.injEq, decide_eq_false_iff_not] at h2
  exact h2 h1

end Netcode
