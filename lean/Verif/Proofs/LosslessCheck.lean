import Verif.Spec.Lossless
import Verif.Proofs.Check

/-!
# Checking lossless schedules by computation
-/

namespace Netcode

variable {w : Nat}

def fifoB (w : Nat) (s : Sys) (a : Act) : Bool :=
  decide (ApiOk w s a) &&
  match a with
  | .setSystematic b => b
  | .deliver i => decide (i = s.hist.length) && (match s.enc.out[i]? with
    | some (.repair r) => decide (r.ids.length ≤ 16000000)
    | _ => true)
  | .ack j => (match s.dec.out[j]? with
    | some k => decide (k.ids.length ≤ 16000000)
    | none => true)
  | _ => true

theorem fifo_of_B {s : Sys} {a : Act} (h : fifoB w s a = true) : Fifo w s a := by
  unfold fifoB at h
  rw [Bool.and_eq_true, decide_eq_true_eq] at h
  refine ⟨h.1, ?_⟩
  have h2 := h.2
  cases a with
  | setSystematic b => exact h2
  | deliver i =>
    simp only [Bool.and_eq_true, decide_eq_true_eq] at h2 ⊢
    refine ⟨h2.1, fun r hr => ?_⟩
    have h3 := h2.2
    rw [hr] at h3
    simpa using h3
  | ack j =>
    simp only at h2 ⊢
    intro k hk
    rw [hk] at h2
    simpa using h2
  | _ => trivial

/-- Run a lossless schedule. -/
def runFifo (c : Cfg w) : Sys → List Act → Option Sys
  | s, [] => some s
  | s, a :: t =>
    if fifoB w s a then
      match s.step c a with
      | .ok s' => runFifo c s' t
      | .error _ => none
    else none

theorem fifo_of_run {c : Cfg w} {io : Bool} {s : Sys} (acts : List Act) (h : FifoReach c io s) {s' : Sys}
    (hr : runFifo c s acts = some s') : FifoReach c io s' := by
  induction acts generalizing s with
  | nil => simp only [runFifo, Option.some.injEq] at hr; exact hr ▸ h
  | cons a t ih =>
    unfold runFifo at hr
    split at hr
    · next h1 =>
      split at hr
      · next s1 h2 => exact ih (.step h (fifo_of_B h1) h2) hr
      · cases hr
    · cases hr

/-- The state reached by a lossless schedule. -/
@[irreducible] def fifoReached (c : Cfg w) (io : Bool) (acts : List Act) : Sys :=
  (runFifo c (Sys.init c.clk io) acts).getD (Sys.init c.clk io)

theorem fifoReached_reach {c : Cfg w} {io : Bool} {acts : List Act}
    (h : (runFifo c (Sys.init c.clk io) acts).isSome = true) : FifoReach c io (fifoReached c io acts) := by
  obtain ⟨s, hs⟩ := Option.isSome_iff_exists.1 h
  unfold fifoReached
  rw [hs]
  exact fifo_of_run acts .init hs

end Netcode
