import Verif.Proofs.OneLoss

/-!
# C80: at most one loss between two repairs
-/

set_option linter.unusedSectionVars false

namespace Netcode

variable {w : Nat} {c : Cfg w} {io : Bool} {s : Sys}

theorem range_prefix {l : List Nat} (hs : Sorted l) (m : Nat) (h : ∀ x < m, x ∈ l) : List.range m <+: l := by
  induction m with
  | zero => exact List.nil_prefix
  | succ m ih =>
    obtain ⟨t, rfl⟩ := ih (fun x hx => h x (by omega))
    have hm := h m (by omega)
    have hp := List.pairwise_append.1 hs
    rcases List.mem_append.1 hm with h1 | h1
    · exact absurd (List.mem_range.1 h1) (Nat.lt_irrefl _)
    · cases t with
      | nil => cases h1
      | cons y t =>
        have h2 : m ≤ y := by
          by_contra hcon
          exact absurd (hp.2.2 y (List.mem_range.2 (by omega)) y List.mem_cons_self) (Nat.lt_irrefl _)
        have h3 : y = m := by
          rcases List.mem_cons.1 h1 with h4 | h4
          · exact h4.symm
          · have := (List.pairwise_cons.1 hp.2.1).1 m h4
            omega
        subst h3
        rw [List.range_succ]
        exact ⟨t, by simp⟩

theorem sourcesOf_pairwise {out : List EPkt} (h : List.Pairwise (fun p q : EPkt => ∀ x y, p = .source x → q = .source y → x.id < y.id) out) :
    Sorted ((sourcesOf out).map (·.id)) := by
  induction out with
  | nil => exact List.Pairwise.nil
  | cons p t ih =>
    have h1 := List.pairwise_cons.1 h
    cases p with
    | repair r => exact ih h1.2
    | source x =>
      refine List.pairwise_cons.2 ⟨?_, ih h1.2⟩
      intro z hz
      obtain ⟨y, hy, rfl⟩ := List.mem_map.1 hz
      exact h1.1 _ (mem_sourcesOf.1 hy) x y rfl rfl

/-- The sources sent are those committed, in order. -/
theorem sent_all (hc : c.Ok) (h : Reach c io s) (hl : Listed s) : (sourcesOf s.enc.out).map (·.id) = List.range s.committed.length := by
  have := fact_of_valid hc.width
  refine sorted_eq_range ?_ ?_
  · refine sourcesOf_pairwise (List.pairwise_iff_getElem.2 ?_)
    intro k m hk hm hlt x y hx hy
    exact source_order hc h (by rw [List.getElem?_eq_getElem hk, hx]) (by rw [List.getElem?_eq_getElem hm, hy]) hlt
  · intro x
    constructor
    · intro hx
      obtain ⟨sr, h1, rfl⟩ := List.mem_map.1 hx
      obtain ⟨ems, A, ρ, L, W, K, hI⟩ := inv_of_reach hc h
      obtain ⟨k, hk⟩ := List.getElem?_of_mem (mem_sourcesOf.1 h1)
      obtain ⟨em, hem, hren⟩ := hI.enc.ems_get hk
      cases em with
      | rep rid W' => obtain ⟨r, h1, _⟩ := hren; cases h1
      | src y =>
        cases hren
        exact hI.enc.emLt _ (List.mem_of_getElem? hem) y (by simp [Em.ids])
    · intro hx
      obtain ⟨k, sr, h1, rfl⟩ := hl.sent x hx
      exact List.mem_map.2 ⟨sr, mem_sourcesOf.2 (List.mem_of_getElem? h1), rfl⟩

/-- **C80.** Suppose that a repair arrived, and that as far as that repair no two losses occurred without a repair between them.  Then every
datum committed before the repair was emitted has been handed over; with ordering, they come first and in order. -/
theorem C80_one_loss (hc : c.Ok) (hw : w ≠ 32) (h : KeptLine c io s) (hn : s.committed.length < 2 ^ 16) (i : Nat) (hi : i ∈ s.hist)
    (hir : s.isRepair i) (ho : s.OneLoss i) :
    (s.committed.take (sourcesOf (s.enc.out.take i)).length).Subperm s.dec.data ∧
    (io = true → s.committed.take (sourcesOf (s.enc.out.take i)).length <+: s.dec.data) := by
  have := fact_of_valid hc.width
  have hl := keptLine_line h
  have hr := line_reach hc hw hl hn
  have hlst := listed_of_line hc hw h hn
  have hrec := recovered hc hw h hn i hi hir ho
  obtain ⟨ems, A, ρ, L, W, K, hI⟩ := inv_of_reach hc hr
  have hall := sent_all hc hr hlst
  generalize hm : (sourcesOf (s.enc.out.take i)).length = m
  have hsplit : sourcesOf s.enc.out = sourcesOf (s.enc.out.take i) ++ sourcesOf (s.enc.out.drop i) := by
    rw [← sourcesOf_append, List.take_append_drop]
  have hmle : m ≤ s.committed.length := by
    have := congrArg List.length hall
    rw [List.length_map, hsplit, List.length_append, List.length_range] at this
    omega
  have hids : (sourcesOf (s.enc.out.take i)).map (·.id) = List.range m := by
    have h1 : (sourcesOf (s.enc.out.take i)).map (·.id) <+: List.range s.committed.length := by
      rw [← hall, hsplit, List.map_append]
      exact List.prefix_append _ _
    have h2 := List.prefix_iff_eq_take.1 h1
    rw [List.length_map, hm, List.take_range, Nat.min_eq_left hmle] at h2
    exact h2
  have hknown : ∀ x < m, s.dec.det.Knows x := by
    intro x hx
    have h1 : x ∈ (sourcesOf (s.enc.out.take i)).map (·.id) := by rw [hids]; exact List.mem_range.2 hx
    obtain ⟨sr, h2, rfl⟩ := List.mem_map.1 h1
    obtain ⟨k, hk⟩ := List.getElem?_of_mem (mem_sourcesOf.1 h2)
    rw [List.getElem?_take] at hk
    split at hk
    · next hki => exact hrec k hki sr hk
    · cases hk
  have hhand : ∀ x < m, x ∈ s.dec.det.handed := by
    intro x hx
    cases io with
    | false => exact ((hI.dinv.log.unord hI.io).2.1 _).2 ((hI.knows_iff _).1 (hknown x hx))
    | true =>
      by_contra hh
      rcases hknown x hx with hk | hk
      · exact hh hk
      · obtain ⟨y, hy, h1, -⟩ := C04_withheld_partial hc hr _ hk hh
        exact h1 (hknown y (by omega))
  have hdat : s.dec.data = s.dec.det.logIds.map (fun x => s.committed.getD x []) := data_of_handed hc hr
  rw [hdat, ← map_range_getD hmle]
  constructor
  · obtain ⟨l, h1, h2⟩ := List.subperm_of_subset List.nodup_range (fun x hx => hhand x (List.mem_range.1 hx))
    exact ⟨_, h1.map _, h2.map _⟩
  · rintro rfl
    obtain ⟨t, ht⟩ := range_prefix (hI.dinv.log.ord hI.io).1.logSorted m hhand
    rw [← ht, List.map_append]
    exact List.prefix_append _ _

/-- Runs without evictions (C78) are among those considered, as long as the encoder stays systematic. -/
theorem kept_of_roomy {a : Act} (h : Roomy s a) (hs : ∀ b, a = .setSystematic b → b = true) : Kept s a := by
  cases a with
  | commit d => exact fun hf => absurd hf h
  | setSystematic b => exact hs b rfl
  | _ => trivial

/-- **C80.** With a rate and a window size set at the beginning, the rate at most the window size: if, as far as a repair that arrived, at
most one packet was lost from one repair (excluded) to the next (included), every datum committed before it has been handed over. -/
theorem C80_constant_rate (hc : c.Ok) (hw : w ≠ 32) {rate window : Nat} (hp : 0 < rate) (hrw : rate ≤ window)
    (h : SteadyLine c io rate window s) (hn : s.committed.length < 2 ^ 16) (i : Nat) (hi : i ∈ s.hist) (hir : s.isRepair i)
    (ho : s.OneLoss i) :
    (s.committed.take (sourcesOf (s.enc.out.take i)).length).Subperm s.dec.data ∧
    (io = true → s.committed.take (sourcesOf (s.enc.out.take i)).length <+: s.dec.data) :=
  C80_one_loss hc hw (steadyLine_kept hc hw hp hrw h hn).1 hn i hi hir ho

/-! ## Examples -/

instance (s : Sys) (i : Nat) : Decidable (s.isRepair i) :=
  match h : s.enc.out[i]? with
  | some (.repair r) => isTrue ⟨r, h⟩
  | some (.source _) => isFalse (by rintro ⟨r, hr⟩; rw [hr] at h; cases h)
  | none => isFalse (by rintro ⟨r, hr⟩; rw [hr] at h; cases h)

instance (s : Sys) (i : Nat) : Decidable (s.OneLoss i) :=
  decidable_of_iff (((List.range (i + 1)).all fun k => (List.range k).all fun j =>
      decide (j ∈ s.hist) || decide (k ∈ s.hist) || (List.range k).any fun m => decide (j ≤ m) && decide (s.isRepair m)) = true) (by
    simp only [List.all_eq_true, List.mem_range, Bool.or_eq_true, decide_eq_true_eq, List.any_eq_true, Bool.and_eq_true]
    constructor
    · intro h j k h1 h2 h3 h4
      obtain ⟨m, g1, g2, g3⟩ := ((h k (by omega) j h1).resolve_left (by simp [h3, h4]))
      exact ⟨m, g2, g1, g3⟩
    · intro h k hk j hj
      by_cases h3 : j ∈ s.hist
      · exact Or.inl (Or.inl h3)
      by_cases h4 : k ∈ s.hist
      · exact Or.inl (Or.inr h4)
      obtain ⟨m, g1, g2, g3⟩ := h j k hj (by omega) h3 h4
      exact Or.inr ⟨m, g2, g1, g3⟩)

instance (a : Act) : Decidable (SameSettings a) :=
  match a with
  | .setRate _ | .setWindow _ | .setAdaptive _ | .setSystematic _ => inferInstanceAs (Decidable False)
  | .commit _ | .repair | .deliver _ | .ack _ | .genAck | .maybeAck | .setAckNb _ | .setAckPeriod _ => inferInstanceAs (Decidable True)

def runSteady (c : Cfg w) : Sys → List Act → Option Sys
  | s, [] => some s
  | s, a :: t =>
    if Line w s a ∧ SameSettings a then
      match s.step c a with
      | .ok s' => runSteady c s' t
      | .error _ => none
    else none

theorem steadyLine_of_run {rate window : Nat} (acts : List Act) (h : SteadyLine c io rate window s) {s' : Sys}
    (hr : runSteady c s acts = some s') : SteadyLine c io rate window s' := by
  induction acts generalizing s with
  | nil => cases hr; exact h
  | cons a t ih =>
    unfold runSteady at hr
    split at hr
    · next ha =>
      split at hr
      · next s1 h1 => exact ih (.step h ha.1 ha.2 h1) hr
      · cases hr
    · cases hr

/-- The state reached with a rate and a window size, by correct calls and arrivals in order. -/
@[irreducible] def steadyReached (c : Cfg w) (io : Bool) (rate window : Nat) (acts : List Act) : Sys :=
  match (Sys.init c.clk io).run c [.setRate rate, .setWindow window] with
  | .ok s => (runSteady c s acts).getD (Sys.init c.clk io)
  | .error _ => Sys.init c.clk io

def steadyRuns (c : Cfg w) (io : Bool) (rate window : Nat) (acts : List Act) : Bool :=
  match (Sys.init c.clk io).run c [.setRate rate, .setWindow window] with
  | .ok s => (runSteady c s acts).isSome
  | .error _ => false

theorem steadyReached_line {rate window : Nat} {acts : List Act} (h : steadyRuns c io rate window acts = true) :
    SteadyLine c io rate window (steadyReached c io rate window acts) := by
  unfold steadyRuns at h
  unfold steadyReached
  split at h
  · next s1 h1 =>
    obtain ⟨s2, h2⟩ := Option.isSome_iff_exists.1 h
    rw [h2]
    exact steadyLine_of_run acts (.init h1) h2
  · cases h

/-- A schedule used by the examples, with the rate 2 and the window size 3: the sources 0 and 3 and the last but one repair are lost; data
are evicted by the last two commits. -/
def demoOneLoss : List Act :=
  [.commit [1, 2], .commit [3], .deliver 1, .deliver 2, .commit [4, 5, 6], .commit [7], .deliver 3, .deliver 5, .commit [8], .commit [9, 1],
   .deliver 6, .deliver 7, .commit [2], .commit [3], .deliver 9, .deliver 10, .deliver 11]
theorem demoOneLoss_line (io : Bool) : SteadyLine (cfg8 true) io 2 3 (steadyReached (cfg8 true) io 2 3 demoOneLoss) :=
  steadyReached_line (by cases io <;> decide +kernel)
example (io : Bool) : let s := steadyReached (cfg8 true) io 2 3 demoOneLoss
    s.OneLoss 11 ∧ s.isRepair 11 ∧ s.hist = [1, 2, 3, 5, 6, 7, 9, 10, 11] ∧ s.committed.length = 8 ∧ s.enc.window = 3 ∧
    (sourcesOf (s.enc.out.take 11)).length = 8 ∧ s.dec.det.nbDecoded = 2 := by cases io <;> decide +kernel
example : [[1, 2], [3], [4, 5, 6], [7], [8], [9, 1], [2], [3]] <+: (steadyReached (cfg8 true) true 2 3 demoOneLoss).dec.data := by
  have h := (C80_constant_rate (cfg8_ok true) (by decide) (by decide) (by decide) (demoOneLoss_line true) (by decide +kernel) 11
    (by decide +kernel) (by decide +kernel) (by decide +kernel)).2 rfl
  have h2 : let s := steadyReached (cfg8 true) true 2 3 demoOneLoss
      s.committed.take (sourcesOf (s.enc.out.take 11)).length = [[1, 2], [3], [4, 5, 6], [7], [8], [9, 1], [2], [3]] := by decide +kernel
  simp only at h2
  rwa [h2] at h
example (io : Bool) : let s := steadyReached (cfg8 true) io 2 3 demoOneLoss
    (s.committed.take (sourcesOf (s.enc.out.take 11)).length).Subperm s.dec.data :=
  (C80_one_loss (cfg8_ok true) (by decide) (steadyLine_kept (cfg8_ok true) (by decide) (by decide) (by decide) (demoOneLoss_line io)
    (by cases io <;> decide +kernel)).1 (by cases io <;> decide +kernel) 11
    (by cases io <;> decide +kernel) (by cases io <;> decide +kernel) (by cases io <;> decide +kernel)).1

/-- The rate must not exceed the window size: with the rate 3 and the window size 2, source 0, the only packet lost, is evicted before a
repair lists it, and is never handed over. -/
theorem C80_small_window (dbg io : Bool) :
    let s := steadyReached (cfg8 dbg) io 3 2 [.commit [1], .commit [2], .commit [3], .deliver 1, .deliver 2, .deliver 3]
    SteadyLine (cfg8 dbg) io 3 2 s ∧ s.OneLoss 3 ∧ s.isRepair 3 ∧ s.hist = [1, 2, 3] ∧ s.committed = [[1], [2], [3]] ∧
    s.dec.data = [[2], [3]] :=
  ⟨steadyReached_line (by revert dbg io; decide +kernel), by revert dbg io; decide +kernel, by revert dbg io; decide +kernel,
    by revert dbg io; decide +kernel, by revert dbg io; decide +kernel, by revert dbg io; decide +kernel⟩

/-- Two losses without a repair between them are not recovered by the next repair. -/
theorem C80_two_losses (dbg io : Bool) :
    let s := steadyReached (cfg8 dbg) io 3 3 [.commit [1], .commit [2], .commit [3], .deliver 2, .deliver 3]
    SteadyLine (cfg8 dbg) io 3 3 s ∧ ¬ s.OneLoss 3 ∧ s.isRepair 3 ∧ s.committed = [[1], [2], [3]] ∧
    s.dec.data = (if io then [] else [[3]]) :=
  ⟨steadyReached_line (by revert dbg io; decide +kernel), by revert dbg io; decide +kernel, by revert dbg io; decide +kernel,
    by revert dbg io; decide +kernel, by revert dbg io; decide +kernel⟩

end Netcode
