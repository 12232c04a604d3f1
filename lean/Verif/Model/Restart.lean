import Verif.Model.System

/-!
# Programs that end and are started again

Nothing of an encoder or a decoder outlives the program it is part of: the library has no persistent state, and the
constructors (encoder.hh:51-77, decoder.hh:50-78) always start from identifier 0 and from an empty history.  What a restart
leaves behind are the packets under way.
-/

namespace Netcode

variable {w : Nat}

/-- A decoder constructed (decoder.hh:50-78) when the clock was read `t` times before. -/
def NDec.again (clk : Clock) (io : Bool) (t : Nat) : NDec :=
  { NDec.init clk io with lastAck := clk t, ticks := t + 1 }

/-- The program with the decoder ends and is started again, with a new decoder.  The first `k` packets of
the encoder are gone; the others may be under way (they are counted from 0 again). decoder.hh:60-78. -/
def Sys.restart (clk : Clock) (io : Bool) (k : Nat) (s : Sys) : Sys :=
  { enc := { s.enc with out := s.enc.out.drop k }, dec := NDec.again clk io s.dec.ticks,
    committed := s.committed, hist := [], errs := 0 }

/-- The program with the encoder ends and is started again, with a new encoder (encoder.hh:51-77).  All its packets are gone.
`committed` are the data committed to both. -/
def Sys.restartEnc (s : Sys) : Sys :=
  { enc := Enc.init, dec := s.dec, committed := s.committed, hist := [], errs := s.errs }

/-- An encoder and a decoder, and the acks of the decoders of earlier programs that may still be under way. encoder.hh:348-394, decoder.hh:303-346. -/
structure Pair where
  sys : Sys
  oldAcks : List Ack
  deriving DecidableEq, Repr

/-- The steps of programs that may be restarted. The constructors, encoder.hh and decoder.hh:60-78, and the calls of `Act`. -/
inductive PairAct where
  /-- a step of the running programs -/
  | act (a : Act)
  /-- the decoder is replaced; the first `k` packets of the encoder are gone -/
  | newDecoder (io : Bool) (k : Nat)
  /-- the encoder is replaced; its packets are gone -/
  | newEncoder
  /-- an ack of an earlier decoder reaches the encoder -/
  | oldAck (j : Nat)
  deriving Repr

/-- One step. The constructors, decoder.hh:60-78, and the calls of `Sys.step`. -/
def Pair.step (c : Cfg w) (p : Pair) : PairAct → Out Pair
  | .act a => do
    let s ← p.sys.step c a
    return { p with sys := s }
  | .newDecoder io k => return { sys := p.sys.restart c.clk io k, oldAcks := p.oldAcks ++ p.sys.dec.out }
  | .newEncoder => return { p with sys := p.sys.restartEnc }
  | .oldAck j =>
    match p.oldAcks[j]? with
    | none => return p
    | some a => do
      let (e, r) ← p.sys.enc.notify c.F c.dbg (writeAck a).flatten
      return { p with sys := { p.sys with enc := e, errs := p.sys.errs + errCount r } }

/-- The first programs. decoder.hh:60-78. -/
def Pair.init (clk : Clock) (io : Bool) : Pair := { sys := Sys.init clk io, oldAcks := [] }

end Netcode
