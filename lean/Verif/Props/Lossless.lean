import Verif.Proofs.Lossless
import Verif.Proofs.LosslessCheck

/-!
# C40: lossless networks

`FifoReach c io s` (`Verif/Spec/Lossless.lean`): the packets of a systematic encoder reach the decoder once each, in
order.  Acks may be lost, duplicated, delayed and reordered.
-/

namespace Netcode

variable {w : Nat} {c : Cfg w} {io : Bool} {s : Sys}

/-- **C40.** Without losses no call meets undefined behaviour, a failed assertion or an exception, whatever the field
size and the sizes of the data. -/
theorem C40_no_fault (hc : c.Ok) (h : FifoReach c io s) (a : Act) (ha : Fifo w s a) :
    ∃ s', s.step c a = .ok s' ∧ s'.errs = 0 := by
  have := fact_of_valid hc.width
  obtain ⟨data, hA, hD⟩ : ∃ data, Agree data s.committed ∧ ∀ d, a = .commit d → data s.committed.length = d := by
    cases a with
    | commit d =>
      refine ⟨fun x => (s.committed ++ [d]).getD x [], ?_, ?_⟩
      · intro x e hx
        simp only
        rw [List.getD_eq_getElem?_getD, List.getElem?_append_left (getElem?_lt hx), hx]; rfl
      · intro e he
        cases he
        simp
    | _ => exact ⟨_, comData_agree s, by intro d hd; cases hd⟩
  obtain ⟨ems, A, a', L, k, hI⟩ := fifo_inv hc h data hA
  obtain ⟨s', _, _, _, _, _, h1, h2⟩ := hI.step hc a ha hD
  exact ⟨s', h1, h2.errs⟩

/-- **C40.** Without losses the data handed over are, in both modes, the first committed ones, in order, as many as
source packets arrived. -/
theorem C40_transparent (hc : c.Ok) (h : FifoReach c io s) : s.dec.data = s.committed.take s.arrivedSources := by
  have := fact_of_valid hc.width
  obtain ⟨ems, A, a, L, k, hI⟩ := fifo_inv hc h _ (comData_agree s)
  have hk := hI.k_le
  rw [hI.arrived, hI.dataLog, hI.calm.log, ← comData_map s, ← List.map_take, List.take_range]
  rw [Nat.min_eq_left hk]

/-- **C40.** When everything emitted has arrived, exactly the committed data were handed over, in order. -/
theorem C40_complete (hc : c.Ok) (h : FifoReach c io s) (hall : s.hist.length = s.enc.out.length) :
    s.dec.data = s.committed := by
  have := fact_of_valid hc.width
  rw [C40_transparent hc h]
  obtain ⟨ems, A, a, L, k, hI⟩ := fifo_inv hc h _ (comData_agree s)
  have hk : k = s.committed.length := by
    rw [hI.kEq, hall, hI.enc.outLen]; exact hI.shape.all
  rw [hI.arrived, hk, List.take_length]

/-- **C40.** Without losses nothing is rebuilt: no source is decoded, no decoding is attempted, no repair is kept and
no source is missing; every ack lists a run of consecutive identifiers that were handed over. -/
theorem C40_nothing_rebuilt (hc : c.Ok) (h : FifoReach c io s) :
    s.dec.det.nbDecoded = 0 ∧ s.dec.det.nbFailed = 0 ∧ s.dec.det.repairs = [] ∧ s.dec.det.missing = [] ∧
    s.dec.det.ordered = [] ∧ s.dec.det.handed = List.range s.arrivedSources ∧
    ∀ k ∈ s.dec.out, ∃ l u, u ≤ s.arrivedSources ∧ k.ids = List.range' l (u - l) := by
  have := fact_of_valid hc.width
  obtain ⟨ems, A, a, L, k, hI⟩ := fifo_inv hc h _ (comData_agree s)
  rw [hI.arrived]
  refine ⟨hI.calm.dec, hI.calm.failed, hI.calm.repairs, hI.calm.missing, hI.calm.ordered, hI.calm.ids, ?_⟩
  intro q hq
  obtain ⟨⟨l, u, _, hu, hi⟩, _⟩ := hI.acks.out q hq
  exact ⟨l, u, hu, hi.eq⟩

/-- **C40.** Without losses the window is a run of consecutive identifiers that ends with the last committed datum. -/
theorem C40_window (hc : c.Ok) (h : FifoReach c io s) :
    ∃ a ≤ s.committed.length, s.enc.sources.map (·.id) = List.range' a (s.committed.length - a) := by
  have := fact_of_valid hc.width
  obtain ⟨ems, A, a, L, k, hI⟩ := fifo_inv hc h _ (comData_agree s)
  exact ⟨a, hI.aLe, hI.win.eq⟩

/-- A lossless schedule with repairs, a full window, acks out of order and a change of the rate. -/
def demoFifo : List Act :=
  [.setRate 2, .setWindow 3, .commit [1, 2], .commit [3], .deliver 0, .genAck, .commit [4, 5, 6], .deliver 1,
   .deliver 2, .genAck, .commit [7], .deliver 3, .ack 1, .ack 0, .setAdaptive true, .commit [8, 9], .repair,
   .deliver 4, .deliver 5, .deliver 6, .deliver 7]

example (io : Bool) : FifoReach (cfg8 true) io (fifoReached (cfg8 true) io demoFifo) :=
  fifoReached_reach (by revert io; decide +kernel)
example (io : Bool) : let s := fifoReached (cfg8 true) io demoFifo
    s.dec.data = [[1, 2], [3], [4, 5, 6], [7], [8, 9]] ∧ s.hist.length = s.enc.out.length ∧
    s.dec.out.map (·.ids) = [[0], [0, 1]] ∧ s.enc.sources.map (·.id) = [2, 3, 4] ∧ s.dec.nbRepairs = 3 := by
  revert io; decide +kernel

end Netcode
