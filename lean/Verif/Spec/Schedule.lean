import Verif.Model.System
import Verif.Spec.Basic
import Verif.Spec.Rank

/-!
# Schedules

Which calls and which networks the end-to-end properties range over.  Any number of packets may be lost,
duplicated or delayed in both directions, with these limits:

* repairs reach the decoder in the order in which they were emitted (a repair may arrive several times); a repair that newer
  ones have overtaken may still arrive, or arrive again, if it does no harm (below);
* a source may be overtaken by sources in any way; without ordering it may also be overtaken by one repair, and by any
  number of repairs if this is no clash (below), with ordering by none (a packet that arrived in time may arrive again at
  any later time);
* acks are lost, duplicated, delayed and reordered without limit.

`Verif/Spec/Late.lean` lifts the limit on sources with ordering for the properties that hold without it.  The theorems
on the defects of the decoder (`Verif/Props/Defects.lean`) show that the limits are needed.
-/

namespace Netcode

variable {w : Nat}

/-- Is the `i`-th packet of the encoder a repair? -/
def Sys.isRepair (s : Sys) (i : Nat) : Prop := ∃ r, s.enc.out[i]? = some (.repair r)

/-- A source that arrives late is no clash for the decoder: it does not leave two repairs that list a same source, one of
them nothing else.  Precisely: if a repair that is held lists this source and only one more, no other one lists it; or the
repairs that are held determine all the other missing sources. -/
def Dec.NoClash (gf : GF w) (d : Dec) (x : Nat) : Prop :=
  (∀ q ∈ d.repairs, ∀ q' ∈ d.repairs, x ∈ q.2.ids → x ∈ q'.2.ids → q.2.ids.length = 2 → q'.1 = q.1) ∨
  (d.missing.length = d.repairs.length + 1 ∧
    Independent gf (d.repairs.map (fun q => (q.1, q.2.ids))) (d.missing.keys.filter (fun y => decide (y ≠ x))))

/-- The `i`-th packet of the encoder, a source, arrives early enough: it arrived before, or no newer repair
has arrived, or (without ordering) at most one newer repair has, or its arrival is no clash. -/
def Sys.InTime (s : Sys) (gf : GF w) (i : Nat) : Prop :=
  i ∈ s.hist ∨
  (∀ j ∈ s.hist, i < j → ¬ s.isRepair j) ∨
  (s.dec.det.inOrder = false ∧ ((∃ j₀, ∀ j ∈ s.hist, i < j → s.isRepair j → j = j₀) ∨
    ∀ sr, s.enc.out[i]? = some (.source sr) → s.dec.det.NoClash gf sr.id))

/-- A repair that newer ones have overtaken does no harm.  Either it is ignored: all its sources are older than the first one of
the last repair taken into account, or it is held already.  Or it has the same first source as that last repair, and does not list
exactly one unknown source while other repairs are held. -/
def Dec.Harmless (d : Dec) (id : Nat) (ids : List Nat) : Prop :=
  (∃ l, d.lastId = some l ∧ ∀ x ∈ ids, x < l) ∨ d.repairs.has id = true ∨
  (d.lastId = ids.head? ∧ (d.repairs = [] ∨ (ids.filter (fun x => !d.sources.has x)).length ≠ 1))

/-- The `i`-th packet of the encoder, a repair, may arrive: no newer repair has arrived, or it does no harm. -/
def Sys.MayArrive (s : Sys) (i : Nat) (r : ERepair) : Prop :=
  (∀ j ∈ s.hist, s.isRepair j → j ≤ i) ∨ s.dec.det.Harmless r.id r.ids

/-- The calls and arrivals considered.
* `commit`: data of at most 65535 bytes, a whole number of field words; fewer than 2^32 data and repairs.
* `repair`: the window is not empty.
* `deliver`: see above; the identifier list of a repair is one the wire format can carry, and for w = 32
  the products of its sizes and coefficients fit in 16 bits.
* `ack`: the identifier list of the ack is one the wire format can carry. -/
def Allowed (c : Cfg w) (s : Sys) : Act → Prop
  | .commit d => DataOk w d ∧ s.committed.length + 1 < 2 ^ 32 ∧ s.enc.nbSentRepairs + 2 < 2 ^ 32
  | .repair => s.enc.window ≠ 0 ∧ s.enc.nbSentRepairs + 1 < 2 ^ 32
  | .setRate n => 0 < n
  | .setWindow n => 0 < n
  | .deliver i =>
    match s.enc.out[i]? with
    | none => True
    | some (.source _) => s.InTime c.gf i
    | some (.repair r) => s.MayArrive i r ∧ WireIds r.ids ∧
        ∀ x ∈ r.ids, SizeFits c.gf (coefficient w r.id x) (BitVec.ofNat 16 (s.committed.getD x []).length)
  | .ack j => ∀ a, s.dec.out[j]? = some a → WireIds a.ids
  | .setAckNb n => 0 < n
  | _ => True

/-- The documented use of the API, without any limit on the network: the conditions of `Allowed` on the calls
alone. -/
def ApiOk (w : Nat) (s : Sys) : Act → Prop
  | .commit d => DataOk w d ∧ s.committed.length + 1 < 2 ^ 32 ∧ s.enc.nbSentRepairs + 2 < 2 ^ 32
  | .repair => s.enc.window ≠ 0 ∧ s.enc.nbSentRepairs + 1 < 2 ^ 32
  | .setRate n => 0 < n
  | .setWindow n => 0 < n
  | .setAckNb n => 0 < n
  | _ => True

/-- What is used of the arithmetic on `double`: rounding is monotone, exact on 1/2, 1, 50 and 100, and the
literal `0.01` is not below 1/100. -/
structure F64.Ok (F : F64) : Prop where
  mono : ∀ a b, a ≤ b → F.rnd a ≤ F.rnd b
  half : F.rnd (1 / 2) = 1 / 2
  one : F.rnd 1 = 1
  fifty : F.rnd 50 = 50
  hundred : F.rnd 100 = 100
  cent : 1 / 100 ≤ F.rnd (1 / 100)

/-- A configuration of a supported field size. -/
structure Cfg.Ok (c : Cfg w) : Prop where
  width : ValidW w
  float : c.F.Ok

/-- The states that allowed calls and arrivals reach from a new encoder and a new decoder. -/
inductive Reach (c : Cfg w) (inOrder : Bool) : Sys → Prop
  | init : Reach c inOrder (Sys.init c.clk inOrder)
  | step {s s' : Sys} {a : Act} : Reach c inOrder s → Allowed c s a → s.step c a = .ok s' → Reach c inOrder s'

/-- The states that correct calls reach, whatever the network does with the packets. -/
inductive AnyReach (c : Cfg w) (inOrder : Bool) : Sys → Prop
  | init : AnyReach c inOrder (Sys.init c.clk inOrder)
  | step {s s' : Sys} {a : Act} : AnyReach c inOrder s → ApiOk w s a → s.step c a = .ok s' → AnyReach c inOrder s'

end Netcode
