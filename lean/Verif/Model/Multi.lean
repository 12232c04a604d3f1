import Verif.Model.System

/-!
# One encoder and several decoders

What the packet handler of the encoder (encoder.hh:32-35) gets is sent to several decoders, and what their packet handlers get (decoder.hh) may
be given to the encoder.  The packets carry no name of an encoder or a decoder (detail/packetizer.hh).
-/

namespace Netcode

variable {w : Nat}

/-- A decoder, the indices of the packets that reached it, and the exceptions thrown. decoder.hh:303-346 and what the network did. -/
structure Recv where
  dec : NDec
  hist : List Nat
  errs : Nat
  deriving DecidableEq, Repr

/-- An encoder, its data, and the decoders. encoder.hh:348-394 and the decoders. -/
structure Multi where
  enc : Enc
  committed : List (List Byte)
  recv : List Recv
  deriving DecidableEq, Repr

/-- A new encoder (encoder.hh:30-62) and new decoders (decoder.hh:35-60), each with its clock and its ordering. -/
def Multi.init (clk : Nat → Clock) (ios : List Bool) : Multi where
  enc := Enc.init
  committed := []
  recv := ios.mapIdx (fun k io => { dec := NDec.init (clk k) io, hist := [], errs := 0 })

/-- The encoder and the decoder number `k`. Models no code. -/
def Multi.view (m : Multi) (k : Nat) : Option Sys :=
  m.recv[k]?.map (fun r => { enc := m.enc, dec := r.dec, committed := m.committed, hist := r.hist, errs := r.errs })

/-- One step of the encoder and the decoder number `k` (`Sys.step`: encoder.hh, decoder.hh).
encoder.hh:80-111, 162-169; decoder.hh:81-122, 213-248. -/
def Multi.step (c : Cfg w) (clk : Nat → Clock) (m : Multi) (k : Nat) (a : Act) : Out Multi :=
  match m.view k with
  | none => return m
  | some s => do
    let s' ← s.step { c with clk := clk k } a
    return { enc := s'.enc, committed := s'.committed, recv := m.recv.set k ⟨s'.dec, s'.hist, s'.errs⟩ }

end Netcode
