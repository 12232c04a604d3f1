import Verif.Spec.AckThrow
import Verif.Props.AckThrow
import Verif.Props.NoMem

/-!
# C74: an encoder and a decoder whose packet handler throws
-/

namespace Netcode

variable {w : Nat} {c : Cfg w} {io : Bool} {s : Sys}

/-- A packet handler that throws leaves the decoder as if there had been no memory after the last identifier. -/
theorem generateAckT_eq (d : NDec) : d.generateAckT d.det.sources.keys = d.generateAckM d.det.sources.keys.length := by
  unfold NDec.generateAckT NDec.generateAckM
  rw [List.take_length]

theorem maybeAckT_eq (clk : Clock) (d : NDec) : (d.maybeAckT clk d.det.sources.keys).1 = d.maybeAckM clk d.det.sources.keys.length := by
  unfold NDec.maybeAckT NDec.maybeAckM
  split
  · exact generateAckT_eq d
  · split
    · simp only
      split
      · exact generateAckT_eq { d with ticks := d.ticks + 1 }
      · rfl
    · rfl

/-- Each step is one of a system that may run out of memory. -/
theorem stepA_eq (s : Sys) (a : Act) (t : Bool) : ∃ m, MemSafe (a, m) ∧ s.stepA c (a, t) = s.stepM c (a, m) := by
  have same : s.stepA c (a, t) = s.step c a → ∃ m, MemSafe (a, m) ∧ s.stepA c (a, t) = s.stepM c (a, m) := by
    intro h
    have e := C100_model c s [a]
    simp only [List.map_cons, List.map_nil, Sys.runM, Sys.run, List.foldlM_cons, List.foldlM_nil, bind_pure] at e
    exact ⟨.none, by unfold MemSafe; split <;> simp_all, by rw [h, e]⟩
  cases a with
  | genAck =>
    cases t with
    | false => exact same rfl
    | true => exact ⟨.ids s.dec.det.sources.keys.length, trivial, by simp only [Sys.stepA, Sys.stepM, generateAckT_eq]⟩
  | maybeAck =>
    cases t with
    | false => exact same rfl
    | true => exact ⟨.ids s.dec.det.sources.keys.length, trivial, by simp only [Sys.stepA, Sys.stepM, maybeAckT_eq]⟩
  | _ => exact same rfl

theorem reachMem_of_throw (h : ReachThrow c io s) : ReachMem c io s := by
  induction h with
  | init => exact .init
  | @step s s' a t hr ha hst ih =>
    obtain ⟨m, hm, e⟩ := stepA_eq (c := c) s a t
    rw [e] at hst
    exact .step ih ha hm hst

/-- **C74, in part.** The packet handler of the decoder may throw in any calls of `generate_ack` and `maybe_ack`: what the decoder hands over was
committed, each datum at most as often as it was committed, with ordering in that order.
Missing: exceptions of the packet handler inside `decoder(packet)` (`C74_false_twice`). -/
theorem C74_integrity_partial (hc : c.Ok) (h : ReachThrow c io s) :
    (∀ d ∈ s.dec.data, d ∈ s.committed) ∧ (∀ d, s.dec.data.count d ≤ s.committed.count d) ∧ (io = true → s.dec.data.Sublist s.committed) :=
  C100_integrity_partial hc (reachMem_of_throw h)

/-- **C74, in part.** Nor is anything acknowledged that the decoder did not have: what an ack that was not sent would have listed is in the next one. -/
theorem C74_acks_partial (hc : c.Ok) (h : ReachThrow c io s) : ∀ a ∈ s.dec.out, ∀ x ∈ a.ids, s.dec.det.Knows x :=
  C100_acks_partial hc (reachMem_of_throw h)

/-- **C74, in part.** And no call fails, whether the handler throws or not, nor does any packet cause an exception of the library. -/
theorem C74_no_fault_partial (hc : c.Ok) (h : ReachThrow c io s) (a : Act) (t : Bool) (ha : Allowed c s a) :
    ∃ s', s.stepA c (a, t) = .ok s' ∧ s'.errs = 0 := by
  obtain ⟨m, hm, e⟩ := stepA_eq (c := c) s a t
  rw [e]
  exact C100_no_fault_partial hc (reachMem_of_throw h) a m ha hm

/-- Run a schedule in which the handler throws, as far as it is one of those of `ReachThrow`. -/
def runThrow (c : Cfg w) : Sys → List (Act × Bool) → Option Sys
  | s, [] => some s
  | s, (a, t) :: l =>
    if allowedB c s a = true then
      match s.stepA c (a, t) with
      | .ok s' => runThrow c s' l
      | .error _ => none
    else none

theorem reachThrow_of_run {acts : List (Act × Bool)} {s' : Sys} (hs : ReachThrow c io s) (h : runThrow c s acts = some s') : ReachThrow c io s' := by
  induction acts generalizing s with
  | nil => cases h; exact hs
  | cons x t ih =>
    obtain ⟨a, m⟩ := x
    unfold runThrow at h
    split at h
    · next hb =>
      split at h
      · next s1 h1 => exact ih (.step hs (allowed_of_B hb) h1) h
      · cases h
    · cases h

/-- A window of two sources.  The handler throws for the ack of sources 0 and 1; a repair of sources 1 and 2 makes source 0 outdated and gives source 2.
The next ack lists all three. -/
def throwDemo : List (Act × Bool) :=
  [(.setRate 100, false), (.setWindow 2, false), (.commit [1], false), (.commit [2], false), (.deliver 0, false), (.deliver 1, false), (.genAck, true),
   (.commit [3], false), (.repair, false), (.deliver 3, false), (.genAck, false), (.ack 0, false)]

example (dbg io : Bool) : ∃ s, ReachThrow (cfg8 dbg) io s ∧ s.dec.data = [[1], [2], [3]] ∧ s.dec.out.map (·.ids) = [[0, 1, 2]] ∧
    s.dec.det.sources.keys = [1, 2] ∧ s.enc.window = 0 := by
  have h : (runThrow (cfg8 dbg) (Sys.init (cfg8 dbg).clk io) throwDemo).any
      (fun s => decide (s.dec.data = [[1], [2], [3]] ∧ s.dec.out.map (·.ids) = [[0, 1, 2]] ∧ s.dec.det.sources.keys = [1, 2] ∧ s.enc.window = 0)) = true := by
    revert dbg io; decide +kernel
  cases hs : runThrow (cfg8 dbg) (Sys.init (cfg8 dbg).clk io) throwDemo with
  | none => rw [hs] at h; cases h
  | some s =>
    rw [hs] at h
    exact ⟨s, reachThrow_of_run .init hs, of_decide_eq_true h⟩

end Netcode
