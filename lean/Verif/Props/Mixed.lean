import Verif.Spec.Mixed
import Verif.Props.Lossless

/-!
# C87: an encoder and a decoder with different fields
-/

namespace Netcode

variable {w v : Nat} {c : Cfg w} {g : GF v} {io : Bool} {s : Sys}

theorem mixed_step (hc : c.Ok) (hv : ValidW v) (h : FifoReach c io s) {a : Act} (ha : Fifo w s a) : s.stepMixed c g a = s.step c a := by
  have := fact_of_valid hc.width
  have := fact_of_valid hv
  cases a with
  | deliver i =>
    obtain ⟨rfl, ha⟩ := ha.2
    simp only [Sys.stepMixed, Sys.step]
    cases hp : s.enc.out[s.hist.length]? with
    | none => simp only [hp]
    | some p =>
      obtain ⟨ems, A, a, L, k, hI⟩ := fifo_inv hc h _ (comData_agree s)
      obtain ⟨x, hx⟩ := hI.notify_any hp (fun r hr => ha r (by rw [hp, hr]))
      simp only [hp, hx v g, hx w c.gf]
  | _ => rfl

/-- **C87.** Without losses, the size of the field of the decoder does not matter: an encoder and a decoder with different fields go
through the same states as an encoder and a decoder with the same field. -/
theorem C87_same_partial (hc : c.Ok) (hv : ValidW v) : MixedReach c g io s ↔ FifoReach c io s := by
  constructor
  · intro h
    induction h with
    | init => exact .init
    | step h1 h2 h3 ih => exact ih.step h2 ((mixed_step hc hv ih h2).symm.trans h3)
  · intro h
    induction h with
    | init => exact .init
    | step h1 h2 h3 ih => exact ih.step h2 ((mixed_step hc hv h1 h2).trans h3)

/-- **C87.** So no call meets a fault or an exception, and the data handed over are the first committed ones, in order, as many as source
packets arrived. -/
theorem C87_transparent_partial (hc : c.Ok) (hv : ValidW v) (h : MixedReach c g io s) :
    s.dec.data = s.committed.take s.arrivedSources ∧
    ∀ a, Fifo w s a → ∃ s', s.stepMixed c g a = .ok s' ∧ s'.errs = 0 := by
  have h1 := (C87_same_partial hc hv).1 h
  refine ⟨C40_transparent hc h1, fun a ha => ?_⟩
  rw [mixed_step hc hv h1 ha]
  exact C40_no_fault hc h1 a ha

/-- A decoder for GF(2^4) gets the packets of an encoder for GF(2^8). -/
example (io : Bool) : MixedReach (cfg8 true) gf4 io (fifoReached (cfg8 true) io demoFifo) :=
  (C87_same_partial (cfg8_ok true) (by decide)).2 (fifoReached_reach (by revert io; decide +kernel))

/-- **C87** is false as soon as a packet is lost: a decoder for GF(2^4) hands over a datum that was never committed to the encoder for
GF(2^8), without any error. -/
theorem C87_false (dbg io : Bool) :
    ((Sys.init (cfg8 dbg).clk io).runMixed (cfg8 dbg) gf4 [.commit [1, 2], .commit [3, 4], .repair, .deliver 0, .deliver 2]).toOption.map
      (fun s => (s.committed, s.dec.data, s.errs)) = some ([[1, 2], [3, 4]], [[1, 2], [3, 208]], 0) := by
  revert dbg io; decide +kernel

/-- **C87** fails worse: with the next repair, the decoder reads outside of the packet. -/
theorem C87_false_ub (dbg io : Bool) :
    (Sys.init (cfg8 dbg).clk io).runMixed (cfg8 dbg) gf4 [.commit [1, 2], .commit [3, 4], .repair, .repair, .deliver 0, .deliver 3] =
      .error (.ub .oobRead) :=
  eq_of_faultOf (by revert dbg io; decide +kernel)

/-- With the field of the encoder, the same packets give the lost datum. -/
example (dbg io : Bool) :
    ((Sys.init (cfg8 dbg).clk io).runMixed (cfg8 dbg) gf8 [.commit [1, 2], .commit [3, 4], .repair, .repair, .deliver 0, .deliver 3]).toOption.map
      (fun s => (s.dec.data, s.errs)) = some ([[1, 2], [3, 4]], 0) := by
  revert dbg io; decide +kernel

end Netcode
