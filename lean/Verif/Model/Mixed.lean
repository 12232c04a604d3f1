import Verif.Model.System

/-!
# An encoder and a decoder with different fields

The size of the field is an argument of the constructors of the encoder and of the decoder (encoder.hh:30, decoder.hh:35).  No packet tells it
(detail/packetizer.hh), so nothing checks that both got the same.
-/

namespace Netcode

variable {w v : Nat}

/-- One step of an encoder with the field of `c` and a decoder with the field `g`.  Only the arrival of a packet at the decoder
(decoder.hh:87-122) uses the field of the decoder. -/
def Sys.stepMixed (c : Cfg w) (g : GF v) (s : Sys) : Act → Out Sys
  | .deliver i =>
    match s.enc.out[i]? with
    | none => return s
    | some p => do
      let (d, r) ← s.dec.notify g c.dbg c.clk p.bytes
      return { s with dec := d, hist := s.hist ++ [i], errs := s.errs + errCount r }
  | a => s.step c a

/-- A run. Models no code: a fold. -/
def Sys.runMixed (c : Cfg w) (g : GF v) (s : Sys) (acts : List Act) : Out Sys := acts.foldlM (Sys.stepMixed c g) s

end Netcode
