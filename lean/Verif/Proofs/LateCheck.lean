import Verif.Proofs.Check
import Verif.Spec.Late

/-!
# Checking schedules with late sources
-/

namespace Netcode

variable {w : Nat}

/-- Decides (soundly) whether a source is in time. -/
def Sys.inTimeLateB (s : Sys) (i : Nat) : Bool :=
  decide (i ∈ s.hist) || s.hist.all (fun j => !(decide (i < j) && decide (s.isRepair j))) ||
    s.hist.any (fun j₀ => s.hist.all (fun j => !(decide (i < j) && decide (s.isRepair j)) || decide (j = j₀))) ||
    s.noClashB i

theorem Sys.inTimeLate_of_B {gf : GF w} {s : Sys} {i : Nat} (h : s.inTimeLateB i = true) : s.InTimeLate gf i := by
  unfold Sys.inTimeLateB at h
  rw [Bool.or_eq_true, Bool.or_eq_true, Bool.or_eq_true] at h
  rcases h with ((h | h) | h) | h
  · exact Or.inl (by simpa using h)
  · refine Or.inr (Or.inl ⟨0, ?_⟩)
    intro j hj hij hr
    have := List.all_eq_true.1 h j hj
    simp [hij, hr] at this
  · rw [List.any_eq_true] at h
    obtain ⟨j0, _, h2⟩ := h
    refine Or.inr (Or.inl ⟨j0, ?_⟩)
    intro j hj hij hr
    have := List.all_eq_true.1 h2 j hj
    simpa [hij, hr] using this
  · exact Or.inr (Or.inr (Sys.noClash_of_B h))

/-- Decides (soundly) whether a step is allowed. -/
def allowedLateB (c : Cfg w) (s : Sys) : Act → Bool
  | .deliver i =>
    match s.enc.out[i]? with
    | some (.source _) => s.inTimeLateB i
    | _ => allowedB c s (.deliver i)
  | a => allowedB c s a

theorem allowedLate_of_B {c : Cfg w} {s : Sys} {a : Act} (h : allowedLateB c s a = true) : AllowedLate c s a := by
  have other : (∀ i, a ≠ .deliver i) → AllowedLate c s a := by
    intro hne
    have h' : allowedB c s a = true := by
      cases a with
      | deliver i => exact absurd rfl (hne i)
      | _ => exact h
    have := allowed_of_B h'
    cases a with
    | deliver i => exact absurd rfl (hne i)
    | _ => exact this
  cases a with
  | deliver i =>
    cases hi : s.enc.out[i]? with
    | none =>
      simp only [allowedLateB, hi] at h
      simp only [AllowedLate, hi]
      exact allowed_of_B h
    | some p =>
      cases p with
      | source sr =>
        simp only [allowedLateB, hi] at h
        simp only [AllowedLate, hi]
        exact Sys.inTimeLate_of_B h
      | repair r =>
        simp only [allowedLateB, hi] at h
        simp only [AllowedLate, hi]
        exact allowed_of_B h
  | _ => exact other (by intro i e; cases e)

/-- Run a schedule as long as it is allowed. -/
def runLate (c : Cfg w) : Sys → List Act → Option Sys
  | s, [] => some s
  | s, a :: t =>
    if allowedLateB c s a then
      match s.step c a with
      | .ok s' => runLate c s' t
      | .error _ => none
    else none

theorem late_of_run {c : Cfg w} {io : Bool} {s : Sys} (acts : List Act) (h : ReachLate c io s) {s' : Sys}
    (hr : runLate c s acts = some s') : ReachLate c io s' := by
  induction acts generalizing s with
  | nil => cases hr; exact h
  | cons a t ih =>
    unfold runLate at hr
    split at hr
    · next ha =>
      split at hr
      · next s1 h1 => exact ih (.step h (allowedLate_of_B ha) h1) hr
      · cases hr
    · cases hr

/-- The state reached by an allowed schedule. -/
@[irreducible] def lateReached (c : Cfg w) (io : Bool) (acts : List Act) : Sys :=
  (runLate c (Sys.init c.clk io) acts).getD (Sys.init c.clk io)

theorem lateReached_reach {c : Cfg w} {io : Bool} {acts : List Act}
    (h : (runLate c (Sys.init c.clk io) acts).isSome = true) : ReachLate c io (lateReached c io acts) := by
  obtain ⟨s, hs⟩ := Option.isSome_iff_exists.1 h
  unfold lateReached
  rw [hs]
  exact late_of_run acts .init hs

end Netcode
