import Verif.Spec.Schedule
import Verif.Proofs.GFConcrete

/-!
# Checking that concrete schedules are allowed

Used by the examples beside the theorems.
-/

namespace Netcode

variable {w : Nat}

instance (s : Sys) (i : Nat) : Decidable (s.isRepair i) :=
  match h : s.enc.out[i]? with
  | some (.repair r) => isTrue ⟨r, h⟩
  | some (.source _) => isFalse (by rintro ⟨r, hr⟩; rw [h] at hr; cases hr)
  | none => isFalse (by rintro ⟨r, hr⟩; rw [h] at hr; cases hr)

/-- The first case of `NoClash`. -/
def Dec.noClashB (d : Dec) (x : Nat) : Bool :=
  d.repairs.all (fun q => d.repairs.all (fun q' =>
    !(decide (x ∈ q.2.ids) && decide (x ∈ q'.2.ids) && q.2.ids.length == 2) || q'.1 == q.1))

theorem Dec.noClash_of_B {gf : GF w} {d : Dec} {x : Nat} (h : d.noClashB x = true) : d.NoClash gf x := by
  refine Or.inl ?_
  intro q hq q' hq' h1 h2 h3
  have := List.all_eq_true.1 (List.all_eq_true.1 h q hq) q' hq'
  simpa [h1, h2, h3] using this

/-- `NoClash` for a source among the packets of the encoder. -/
def Sys.noClashB (s : Sys) (i : Nat) : Bool :=
  match s.enc.out[i]? with
  | some (.source sr) => s.dec.det.noClashB sr.id
  | _ => true

theorem Sys.noClash_of_B {gf : GF w} {s : Sys} {i : Nat} (h : s.noClashB i = true) :
    ∀ sr, s.enc.out[i]? = some (.source sr) → s.dec.det.NoClash gf sr.id := by
  intro sr hsr
  unfold Sys.noClashB at h
  rw [hsr] at h
  exact Dec.noClash_of_B h

/-- `InTime`, with the overtaking repair sought in the history. -/
def Sys.inTimeB (s : Sys) (i : Nat) : Bool :=
  decide (i ∈ s.hist) || s.hist.all (fun j => !decide (i < j) || !decide (s.isRepair j)) ||
    (!s.dec.det.inOrder &&
      (s.hist.any (fun j₀ => s.hist.all (fun j => !decide (i < j) || !decide (s.isRepair j) || j == j₀)) || s.noClashB i))

theorem Sys.inTime_of_B {gf : GF w} {s : Sys} {i : Nat} (h : s.inTimeB i = true) : s.InTime gf i := by
  unfold Sys.inTimeB at h
  rw [Bool.or_eq_true, Bool.or_eq_true] at h
  rcases h with (h | h) | h
  · exact Or.inl (by simpa using h)
  · refine Or.inr (Or.inl ?_)
    intro j hj hij hr
    have := List.all_eq_true.1 h j hj
    simp [hij, hr] at this
  · rw [Bool.and_eq_true, Bool.or_eq_true, List.any_eq_true] at h
    obtain ⟨h1, ⟨j0, _, h2⟩ | h2⟩ := h
    rotate_left
    · exact Or.inr (Or.inr ⟨by simpa using h1, Or.inr (Sys.noClash_of_B h2)⟩)
    refine Or.inr (Or.inr ⟨by simpa using h1, Or.inl ⟨j0, ?_⟩⟩)
    intro j hj hij hr
    have := List.all_eq_true.1 h2 j hj
    simpa [hij, hr] using this

/-- Decides whether a repair may arrive. -/
def Sys.mayArriveB (s : Sys) (i : Nat) (r : ERepair) : Bool :=
  s.hist.all (fun j => !decide (s.isRepair j) || decide (j ≤ i)) ||
  ((match s.dec.det.lastId with
    | some l => r.ids.all (fun x => decide (x < l))
    | none => false) ||
   (s.dec.det.repairs.has r.id ||
   (decide (s.dec.det.lastId = r.ids.head?) &&
    (s.dec.det.repairs.isEmpty || decide ((r.ids.filter (fun x => !s.dec.det.sources.has x)).length ≠ 1)))))

theorem Sys.mayArrive_of_B {s : Sys} {i : Nat} {r : ERepair} (h : s.mayArriveB i r = true) : s.MayArrive i r := by
  unfold Sys.mayArriveB at h
  rw [Bool.or_eq_true, Bool.or_eq_true, Bool.or_eq_true, Bool.and_eq_true, Bool.or_eq_true] at h
  rcases h with h | h | h | ⟨h1, h2⟩
  · refine Or.inl ?_
    intro j hj hr
    have := List.all_eq_true.1 h j hj
    simpa [hr] using this
  · refine Or.inr (Or.inl ?_)
    split at h
    · next l hl => exact ⟨l, hl, fun x hx => of_decide_eq_true (List.all_eq_true.1 h x hx)⟩
    · cases h
  · exact Or.inr (Or.inr (Or.inl h))
  · refine Or.inr (Or.inr (Or.inr ⟨of_decide_eq_true h1, ?_⟩))
    rcases h2 with h2 | h2
    · exact Or.inl (List.isEmpty_iff.1 h2)
    · exact Or.inr (of_decide_eq_true h2)

/-- Decides (soundly) whether a step is allowed. -/
def allowedB (c : Cfg w) (s : Sys) : Act → Bool
  | .commit d => decide (DataOk w d ∧ s.committed.length + 1 < 2 ^ 32 ∧ s.enc.nbSentRepairs + 2 < 2 ^ 32)
  | .repair => decide (s.enc.window ≠ 0 ∧ s.enc.nbSentRepairs + 1 < 2 ^ 32)
  | .setRate n => decide (0 < n)
  | .setWindow n => decide (0 < n)
  | .deliver i =>
    match s.enc.out[i]? with
    | none => true
    | some (.source _) => s.inTimeB i
    | some (.repair r) => s.mayArriveB i r && decide (WireIds r.ids ∧
        ∀ x ∈ r.ids, SizeFits c.gf (coefficient w r.id x) (BitVec.ofNat 16 (s.committed.getD x []).length))
  | .ack j =>
    match s.dec.out[j]? with
    | none => true
    | some a => decide (WireIds a.ids)
  | .setAckNb n => decide (0 < n)
  | _ => true

theorem allowed_of_B {c : Cfg w} {s : Sys} {a : Act} (h : allowedB c s a = true) : Allowed c s a := by
  cases a with
  | deliver i =>
    unfold allowedB at h
    unfold Allowed
    simp only at h ⊢
    split at h
    · next h1 => rw [h1]; trivial
    · next h1 => rw [h1]; exact Sys.inTime_of_B h
    · next h1 =>
      rw [h1]
      rw [Bool.and_eq_true] at h
      exact ⟨Sys.mayArrive_of_B h.1, of_decide_eq_true h.2⟩
  | ack j =>
    unfold allowedB at h
    simp only at h
    intro a ha
    rw [ha] at h
    exact of_decide_eq_true h
  | commit d => simpa only [Allowed, allowedB, decide_eq_true_eq] using h
  | repair => simpa only [Allowed, allowedB, decide_eq_true_eq] using h
  | setRate n => simpa only [Allowed, allowedB, decide_eq_true_eq] using h
  | setWindow n => simpa only [Allowed, allowedB, decide_eq_true_eq] using h
  | setAckNb n => simpa only [Allowed, allowedB, decide_eq_true_eq] using h
  | _ => trivial

/-- Run a schedule as long as it is allowed. -/
def runAllowed (c : Cfg w) : Sys → List Act → Option Sys
  | s, [] => some s
  | s, a :: t =>
    if allowedB c s a then
      match s.step c a with
      | .ok s' => runAllowed c s' t
      | .error _ => none
    else none

theorem reach_of_run {c : Cfg w} {io : Bool} {s : Sys} (acts : List Act) (h : Reach c io s) {s' : Sys}
    (hr : runAllowed c s acts = some s') : Reach c io s' := by
  induction acts generalizing s with
  | nil => cases hr; exact h
  | cons a t ih =>
    unfold runAllowed at hr
    split at hr
    · next ha =>
      split at hr
      · next s1 h1 => exact ih (.step h (allowed_of_B ha) h1) hr
      · cases hr
    · cases hr

/-- The state reached by an allowed schedule. -/
@[irreducible] def reached (c : Cfg w) (io : Bool) (acts : List Act) : Sys :=
  (runAllowed c (Sys.init c.clk io) acts).getD (Sys.init c.clk io)

theorem reached_reach {c : Cfg w} {io : Bool} {acts : List Act}
    (h : (runAllowed c (Sys.init c.clk io) acts).isSome = true) : Reach c io (reached c io acts) := by
  obtain ⟨s, hs⟩ := Option.isSome_iff_exists.1 h
  unfold reached
  rw [hs]
  exact reach_of_run acts .init hs

instance (w : Nat) (s : Sys) (a : Act) : Decidable (ApiOk w s a) := by
  unfold ApiOk; split <;> infer_instance

/-- Run a schedule of correct calls and any arrivals. -/
def runAny (c : Cfg w) : Sys → List Act → Option Sys
  | s, [] => some s
  | s, a :: t =>
    if ApiOk w s a then
      match s.step c a with
      | .ok s' => runAny c s' t
      | .error _ => none
    else none

theorem anyReach_of_run {c : Cfg w} {io : Bool} {s : Sys} (acts : List Act) (h : AnyReach c io s) {s' : Sys}
    (hr : runAny c s acts = some s') : AnyReach c io s' := by
  induction acts generalizing s with
  | nil => cases hr; exact h
  | cons a t ih =>
    unfold runAny at hr
    split at hr
    · next ha =>
      split at hr
      · next s1 h1 => exact ih (.step h ha h1) hr
      · cases hr
    · cases hr

/-- The state reached by correct calls and any arrivals. -/
@[irreducible] def anyReached (c : Cfg w) (io : Bool) (acts : List Act) : Sys :=
  (runAny c (Sys.init c.clk io) acts).getD (Sys.init c.clk io)

theorem anyReached_reach {c : Cfg w} {io : Bool} {acts : List Act}
    (h : (runAny c (Sys.init c.clk io) acts).isSome = true) : AnyReach c io (anyReached c io acts) := by
  obtain ⟨s, hs⟩ := Option.isSome_iff_exists.1 h
  unfold anyReached
  rw [hs]
  exact anyReach_of_run acts .init hs

/-- The fault of an outcome. -/
def faultOf {α : Type} : Out α → Option Fault
  | .ok _ => none
  | .error f => some f

theorem eq_of_faultOf {α : Type} {o : Out α} {f : Fault} (h : faultOf o = some f) : o = .error f := by
  cases o <;> simp [faultOf] at h; rw [h]

/-- Exact arithmetic. -/
def F0 : F64 := ⟨id⟩

theorem F0_ok : F0.Ok := ⟨fun _ _ h => h, rfl, rfl, rfl, rfl, Rat.le_refl⟩

/-- GF(2^8), exact arithmetic, a clock that does not advance. -/
def cfg8 (dbg : Bool) : Cfg 8 := ⟨gf8, F0, dbg, fun _ => 0⟩

/-- GF(2^32), exact arithmetic, a clock that does not advance. -/
def cfg32 (dbg : Bool) : Cfg 32 := ⟨gf32, F0, dbg, fun _ => 0⟩

theorem cfg32_ok (dbg : Bool) : (cfg32 dbg).Ok := ⟨by decide, F0_ok⟩

theorem cfg8_ok (dbg : Bool) : (cfg8 dbg).Ok := ⟨by decide, F0_ok⟩

end Netcode
