import Verif.Spec.DecHist
import Verif.Spec.EncHist
import Verif.Model.System

/-!
# Packets followed by other bytes

A receiver often hands over the whole buffer it received a packet in (examples/accelerator/transcoder.hh): the bytes after the
packet are whatever the buffer held.
-/

namespace Netcode

variable {w : Nat}

/-- Nothing is missing at the end of the packet: reading it does not run past its last byte. -/
structure Complete (p : List Byte) : Prop where
  ack : getPacketType p = .ok .ack → ∃ a, readAck p = .ok a
  repair : getPacketType p = .ok .repair → ∃ r, readRepair p = .ok r
  source : getPacketType p = .ok .source → ∃ s, readSource p = .ok s

/-- The second call is the first one; if it gives the decoder a packet, the packet is complete, and followed by other bytes. -/
inductive DAct.Padded : DAct → DAct → Prop
  | packet (p j : List Byte) : Complete p → DAct.Padded (.packet p) (.packet (p ++ j))
  | other (a : DAct) : (∀ p, a ≠ .packet p) → DAct.Padded a a

/-- The same for a call of the interface of an encoder. -/
inductive EAct.Padded : EAct → EAct → Prop
  | packet (p j : List Byte) : Complete p → EAct.Padded (.packet p) (.packet (p ++ j))
  | other (a : EAct) : (∀ p, a ≠ .packet p) → EAct.Padded a a

/-- Two decoders that the user cannot tell apart: they gave the same data, sent the same acks and show the same statistics; they hold
the same sources and lack the same ones. -/
structure SameView (d d' : NDec) : Prop where
  data : d'.data = d.data
  acks : d'.out = d.out
  given : d'.det.log = d.det.log
  held : d'.det.sources = d.det.sources
  missing : d'.det.missing = d.det.missing
  ordering : d'.det.firstMissing = d.det.firstMissing ∧ d'.det.ordered = d.det.ordered ∧ d'.det.lastId = d.det.lastId
  nbDecoded : d'.det.nbDecoded = d.det.nbDecoded
  nbFailed : d'.det.nbFailed = d.det.nbFailed
  nbUseless : d'.det.nbUseless = d.det.nbUseless
  nbRepairs : d'.nbRepairs = d.nbRepairs
  nbSources : d'.nbSources = d.nbSources
  nbAcks : d'.nbAcks = d.nbAcks
  pending : d'.ackPackets = d.ackPackets ∧ d'.lastAck = d.lastAck ∧ d'.ackNb = d.ackNb ∧ d'.ackPeriod = d.ackPeriod

/-- One step of the closed system, when packets arrive followed by the bytes `j`. -/
def Sys.stepPadded (c : Cfg w) (s : Sys) (a : Act) (j : List Byte) : Out Sys :=
  match a with
  | .deliver i =>
    match s.enc.out[i]? with
    | none => return s
    | some p => do
      let (d, r) ← s.dec.notify c.gf c.dbg c.clk (p.bytes ++ j)
      return { s with dec := d, hist := s.hist ++ [i], errs := s.errs + errCount r }
  | .ack i =>
    match s.dec.out[i]? with
    | none => return s
    | some p => do
      let (e, r) ← s.enc.notify c.F c.dbg ((writeAck p).flatten ++ j)
      return { s with enc := e, errs := s.errs + errCount r }
  | a => s.step c a

/-- A run of the closed system; each step comes with the bytes that follow the packet. -/
def Sys.runPadded (c : Cfg w) (s : Sys) (acts : List (Act × List Byte)) : Out Sys :=
  acts.foldlM (fun s x => Sys.stepPadded c s x.1 x.2) s

end Netcode
