import Verif.Model.System

/-!
# An encoder that is called from within its packet handler

The packet handler of an encoder may call the library when it is told that a packet is complete (`mark_end`, packetizer.hh:356-361):
give the packet to a decoder at once, give the acks of this decoder to the encoder, change settings.  `commit_impl`
(encoder.hh:252-285) is here cut at the two points where the handler runs.  `generate_repair` (encoder.hh:161-169) has nothing left
to do when the handler returns, so calls in its handler are calls after it.  Calls before a packet is complete are not modelled.
The packet handler of a decoder that gives each ack to the encoder is modelled as giving it when the decoder is done: the
encoder does not look at the decoder, nor does the decoder at the encoder.
-/

namespace Netcode

variable {w : Nat}

/-- `operator()(data&&)` and `commit_impl` up to the end of the first packet (encoder.hh:87-96, 255-276). -/
def Enc.commitBegin (gf : GF w) (dbg : Bool) (e : Enc) (d : List Byte) : Out Enc := do
  cassert dbg (d.length ≠ 0)
  cassert dbg (w ≠ 16 ∨ d.length % 2 = 0)
  cassert dbg (w ≠ 32 ∨ d.length % 4 = 0)
  ensure (!(e.sources.length == e.windowSize && e.sources.isEmpty)) .derefEnd
  let window := if e.sources.length = e.windowSize then e.sources.tail else e.sources
  let src : ESource := { id := e.curSrc, sym := d }
  Enc.emitNew gf dbg src { e with sources := window ++ [src] }

/-- `++m_current_source_id` (encoder.hh:284) -/
def Enc.bump (e : Enc) : Enc := { e with curSrc := (e.curSrc + 1) % 2 ^ 32 }

/-- Is an automatic repair due (encoder.hh:279)? -/
def Enc.due (e : Enc) : Bool := (e.curSrc + 1) % 2 ^ 32 % e.rate = 0

/-- Where the encoder is: not in a commit, or in the packet handler for the first, or the second, packet of a commit. encoder.hh:263-284. -/
inductive Phase where
  | idle
  | first
  | second
  deriving DecidableEq, Repr

/-- What the program does next: begin a commit, call the API, or return from the packet handler. encoder.hh:80-111, 162-169; packetizer.hh:359. -/
inductive RAct where
  | begin (d : List Byte)
  | api (a : Act)
  | ret
  deriving Repr

/-- One step of the system with an encoder that is called from within its packet handler (encoder.hh:252-285).  Of a commit begun in a commit
only the inner one is followed to its end. -/
def Sys.stepR (c : Cfg w) : Sys × Phase → RAct → Out (Sys × Phase)
  | (s, _), .begin d => do
    let e ← s.enc.commitBegin c.gf c.dbg d
    return ({ s with enc := e, committed := s.committed ++ [d] }, .first)
  | (s, ph), .api a => do
    let s ← s.step c a
    return (s, ph)
  | (s, .idle), .ret => return (s, .idle)
  | (s, .first), .ret => do
    ensure (s.enc.rate != 0) .divZero
    if s.enc.due then
      let e ← s.enc.generateRepair c.gf c.dbg
      return ({ s with enc := e }, .second)
    else return ({ s with enc := s.enc.bump }, .idle)
  | (s, .second), .ret => return ({ s with enc := s.enc.bump }, .idle)

/-- A run. Models no code: a fold. -/
def Sys.runR (c : Cfg w) (x : Sys × Phase) (acts : List RAct) : Out (Sys × Phase) := acts.foldlM (Sys.stepR c) x

end Netcode
