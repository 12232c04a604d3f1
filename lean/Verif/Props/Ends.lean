import Verif.Proofs.Ends
import Verif.Props.Decoder
import Verif.Props.Encoder
import Verif.Props.Settings
import Verif.Props.Late

/-! # Each end of a run is what its own calls make it (C93) -/

namespace Netcode

variable {w : Nat} {c : Cfg w} {io : Bool}

/-- **C93.** In every run, whatever the network does, the encoder is in the state that its own calls and the acks that arrived lead to, the
decoder in the one that its own calls and the packets that arrived lead to. -/
theorem C93_ends {acts : List Act} {s : Sys} (h : (Sys.init c.clk io).run c acts = .ok s) :
    Enc.init.after c.gf c.F c.dbg (encCalls c (Sys.init c.clk io) acts) = .ok s.enc ∧
    (NDec.init c.clk io).after c.gf c.dbg c.clk (decCalls c (Sys.init c.clk io) acts) = .ok s.dec ∧
    s.committed = committedBy acts := by
  obtain ⟨h1, h2, h3⟩ := (run_ends acts _).1 s h
  exact ⟨h1, h2, by simpa [Sys.init] using h3⟩

/-- **C93.** A run fails (a failed assertion, or undefined behaviour) exactly when one of the two objects does, given its own calls. -/
theorem C93_fails (acts : List Act) :
    (∃ f, (Sys.init c.clk io).run c acts = .error f) ↔
      (∃ f, Enc.init.after c.gf c.F c.dbg (encCalls c (Sys.init c.clk io) acts) = .error f) ∨
      (∃ f, (NDec.init c.clk io).after c.gf c.dbg c.clk (decCalls c (Sys.init c.clk io) acts) = .error f) := by
  constructor
  · rintro ⟨f, h⟩
    exact ((run_ends acts _).2 f h).imp (fun h => ⟨f, h⟩) (fun h => ⟨f, h⟩)
  · intro h
    cases hr : (Sys.init c.clk io).run c acts with
    | error f => exact ⟨f, rfl⟩
    | ok s =>
      obtain ⟨h1, h2, -⟩ := C93_ends hr
      rcases h with ⟨f, h⟩ | ⟨f, h⟩
      · rw [h1] at h; cases h
      · rw [h2] at h; cases h

/-- **C93**, statistics and settings of both ends of a run: as many sources and repairs received as packets of these types arrived, as many
acks received as arrived, the ack period and count last set. -/
theorem C93_statistics {acts : List Act} {s : Sys} (h : (Sys.init c.clk io).run c acts = .ok s) :
    let E := encCalls c (Sys.init c.clk io) acts
    let D := decCalls c (Sys.init c.clk io) acts
    s.dec.nbSources = nbOfType 2#8 D ∧ s.dec.nbRepairs = nbOfType 1#8 D ∧ s.dec.nbAcks = s.dec.out.length ∧
    s.dec.ackPeriod = periodSet D ∧ s.dec.ackNb = min (countSet D) 128 ∧ s.enc.nbAcks = nbAcksOf E ∧
    s.enc.windowSize = windowSet E ∧ s.enc.systematic = systematicSet E ∧ s.enc.adaptive = adaptiveSet E := by
  obtain ⟨h1, h2, -⟩ := C93_ends h
  obtain ⟨a1, a2, a3⟩ := C29_counters _ _ _ _ _ _ h2
  obtain ⟨b1, b2⟩ := C50_decoder h2
  obtain ⟨e1, e2, e3⟩ := C50_encoder h1
  exact ⟨a1, a2, a3, b1, b2, C50_received_acks h1, e2, e1, e3⟩

/-- **C93**, without ordering: the number of data handed over is the number of sources that arrived and were fresh, and of those decoded. -/
theorem C93_deliveries {acts : List Act} {s : Sys} (h : (Sys.init c.clk false).run c acts = .ok s) :
    s.dec.data.length =
      nbFresh c.gf c.dbg c.clk (NDec.init c.clk false) (decCalls c (Sys.init c.clk false) acts) + s.dec.det.nbDecoded :=
  C29_deliveries_partial _ _ _ _ _ (C93_ends h).2.1

/-- A run with losses, an ack, settings on both sides, and a packet that was never sent. -/
def endsActs : List Act :=
  [.setRate 3, .setAckPeriod 0, .commit [1, 2], .commit [3], .commit [4, 5, 6], .deliver 0, .maybeAck, .deliver 3, .deliver 2, .genAck, .ack 0,
   .setAckNb 7, .deliver 77, .commit [7], .setWindow 2, .deliver 4, .genAck, .ack 3, .setAckPeriod 4]

example : ((Sys.init clk0 false).run (cfg8 true) endsActs).toOption.map (fun s => (s.dec.data, s.dec.out, s.enc.window)) =
    some ([[1, 2], [4, 5, 6], [3], [7]], [⟨[0, 1, 2], 3⟩, ⟨[0, 1, 2, 3], 1⟩], 1) := by decide +kernel
example : (encCalls (cfg8 true) (Sys.init clk0 false) endsActs).length = 7 ∧ (decCalls (cfg8 true) (Sys.init clk0 false) endsActs).length = 10 ∧
    nbOfType 2#8 (decCalls (cfg8 true) (Sys.init clk0 false) endsActs) = 3 ∧
    committedBy endsActs = [[1, 2], [3], [4, 5, 6], [7]] := by decide +kernel

/-- A run that fails at the decoder, and one that fails at the encoder. -/
example : ((Sys.init clk0 false).run (cfg8 true) [.setRate 9, .setAckNb 0, .commit [1]]).isOk = false ∧
    ((NDec.init clk0 false).after gf8 true clk0 (decCalls (cfg8 true) (Sys.init clk0 false) [.setRate 9, .setAckNb 0, .commit [1]])).isOk = false ∧
    ((Sys.init clk0 false).run (cfg8 true) [.commit [1], .repair, .deliver 0, .genAck, .ack 0, .repair]).isOk = false ∧
    (Enc.init.after gf8 (cfg8 true).F true (encCalls (cfg8 true) (Sys.init clk0 false)
      [.commit [1], .repair, .deliver 0, .genAck, .ack 0, .repair])).isOk = false := by decide +kernel

end Netcode
