import Verif.Spec.Line
import Verif.Proofs.SysFacts
import Verif.Proofs.Check

/-!
# What an encoder has emitted stays
-/

namespace Netcode

variable {w : Nat}

theorem generateRepair_out {gf : GF w} {dbg : Bool} {e e' : Enc} (h : e.generateRepair gf dbg = .ok e') : e.out <+: e'.out := by
  unfold Enc.generateRepair at h
  simp only [bind_ok_iff, pure_ok_iff] at h
  obtain ⟨r, _, _, _, rfl⟩ := h
  exact List.prefix_append _ _

theorem emitNew_out {gf : GF w} {dbg : Bool} {e e' : Enc} {src : ESource} (h : Enc.emitNew gf dbg src e = .ok e') : e.out <+: e'.out := by
  unfold Enc.emitNew at h
  split at h
  · cases h; exact List.prefix_append _ _
  · exact generateRepair_out h

theorem commit_out {gf : GF w} {dbg : Bool} {e e' : Enc} {d : List Byte} (h : e.commit gf dbg d = .ok e') : e.out <+: e'.out := by
  unfold Enc.commit at h
  simp only [bind_ok_iff, pure_ok_iff] at h
  obtain ⟨_, _, _, _, _, _, _, _, e1, h1, e2, h2, rfl⟩ := h
  refine (emitNew_out h1).trans ?_
  show e1.out <+: e2.out
  unfold Enc.autoRepair at h2
  simp only [bind_ok_iff] at h2
  obtain ⟨_, _, h2⟩ := h2
  split at h2
  · exact generateRepair_out h2
  · cases h2; exact List.prefix_refl _

theorem enc_notify_out {F : F64} {dbg : Bool} {e e' : Enc} {p : List Byte} {r : Except CppErr Nat}
    (h : e.notify F dbg p = .ok (e', r)) : e'.out = e.out := by
  unfold Enc.notify at h
  simp only [bind_ok_iff] at h
  obtain ⟨_, _, h⟩ := h
  split at h
  · cases h
  · cases h; rfl
  · split at h
    · cases h
    · cases h; rfl
    · cases h; rfl
  · cases h; rfl

theorem step_out {c : Cfg w} {s s' : Sys} {a : Act} (h : s.step c a = .ok s') : s.enc.out <+: s'.enc.out := by
  cases a <;> simp only [Sys.step, bind_ok_iff, pure_ok_iff] at h
  case commit d => obtain ⟨e, h1, rfl⟩ := h; exact commit_out h1
  case repair => obtain ⟨e, h1, rfl⟩ := h; exact generateRepair_out h1
  case setRate n =>
    obtain ⟨e, h1, rfl⟩ := h
    simp only [Enc.setRate, bind_ok_iff, pure_ok_iff] at h1
    obtain ⟨_, _, rfl⟩ := h1
    exact List.prefix_refl _
  case setWindow n =>
    obtain ⟨e, h1, rfl⟩ := h
    simp only [Enc.setWindowSize, bind_ok_iff, pure_ok_iff] at h1
    obtain ⟨_, _, rfl⟩ := h1
    exact List.prefix_refl _
  case deliver i =>
    split at h
    · cases h; exact List.prefix_refl _
    · simp only [bind_ok_iff, pure_ok_iff] at h
      obtain ⟨_, _, rfl⟩ := h
      exact List.prefix_refl _
  case ack j =>
    split at h
    · cases h; exact List.prefix_refl _
    · simp only [bind_ok_iff, pure_ok_iff] at h
      obtain ⟨⟨e, r⟩, h1, rfl⟩ := h
      simp only
      rw [enc_notify_out h1]
  case setAckNb n => obtain ⟨d, h1, rfl⟩ := h; exact List.prefix_refl _
  all_goals (cases h; exact List.prefix_refl _)

theorem step_hist {c : Cfg w} {s s' : Sys} {a : Act} (h : s.step c a = .ok s') :
    s'.hist = s.hist ∨ ∃ i, a = .deliver i ∧ s'.hist = s.hist ++ [i] ∧ s'.enc = s.enc := by
  cases a <;> simp only [Sys.step, bind_ok_iff, pure_ok_iff] at h
  case deliver i =>
    split at h
    · cases h; exact Or.inl rfl
    · simp only [bind_ok_iff, pure_ok_iff] at h
      obtain ⟨_, _, rfl⟩ := h
      exact Or.inr ⟨i, rfl, rfl, rfl⟩
  case ack j =>
    split at h
    · cases h; exact Or.inl rfl
    · simp only [bind_ok_iff, pure_ok_iff] at h
      obtain ⟨_, _, rfl⟩ := h
      exact Or.inl rfl
  all_goals first
    | (cases h; exact Or.inl rfl)
    | (obtain ⟨_, _, rfl⟩ := h; exact Or.inl rfl)

/-! ## Concrete schedules -/

instance (s : Sys) (a : Act) : Decidable (Line w s a) :=
  match a with
  | .deliver i => inferInstanceAs (Decidable (ApiOk w s (.deliver i) ∧ ∀ j ∈ s.hist, j ≤ i))
  | .commit d => inferInstanceAs (Decidable (ApiOk w s (.commit d) ∧ True))
  | .repair => inferInstanceAs (Decidable (ApiOk w s .repair ∧ True))
  | .setRate n => inferInstanceAs (Decidable (ApiOk w s (.setRate n) ∧ True))
  | .setWindow n => inferInstanceAs (Decidable (ApiOk w s (.setWindow n) ∧ True))
  | .setAdaptive b => inferInstanceAs (Decidable (ApiOk w s (.setAdaptive b) ∧ True))
  | .setSystematic b => inferInstanceAs (Decidable (ApiOk w s (.setSystematic b) ∧ True))
  | .ack j => inferInstanceAs (Decidable (ApiOk w s (.ack j) ∧ True))
  | .genAck => inferInstanceAs (Decidable (ApiOk w s .genAck ∧ True))
  | .maybeAck => inferInstanceAs (Decidable (ApiOk w s .maybeAck ∧ True))
  | .setAckNb n => inferInstanceAs (Decidable (ApiOk w s (.setAckNb n) ∧ True))
  | .setAckPeriod n => inferInstanceAs (Decidable (ApiOk w s (.setAckPeriod n) ∧ True))

def runLine (c : Cfg w) : Sys → List Act → Option Sys
  | s, [] => some s
  | s, a :: t =>
    if Line w s a then
      match s.step c a with
      | .ok s' => runLine c s' t
      | .error _ => none
    else none

theorem lineReach_of_run {c : Cfg w} {io : Bool} {s : Sys} (acts : List Act) (h : LineReach c io s) {s' : Sys}
    (hr : runLine c s acts = some s') : LineReach c io s' := by
  induction acts generalizing s with
  | nil => cases hr; exact h
  | cons a t ih =>
    unfold runLine at hr
    split at hr
    · next ha =>
      split at hr
      · next s1 h1 => exact ih (.step h ha h1) hr
      · cases hr
    · cases hr

/-- The state reached by correct calls and arrivals in order. -/
@[irreducible] def lineReached (c : Cfg w) (io : Bool) (acts : List Act) : Sys :=
  (runLine c (Sys.init c.clk io) acts).getD (Sys.init c.clk io)

theorem lineReached_reach {c : Cfg w} {io : Bool} {acts : List Act}
    (h : (runLine c (Sys.init c.clk io) acts).isSome = true) : LineReach c io (lineReached c io acts) := by
  obtain ⟨s, hs⟩ := Option.isSome_iff_exists.1 h
  unfold lineReached
  rw [hs]
  exact lineReach_of_run acts .init hs

end Netcode
