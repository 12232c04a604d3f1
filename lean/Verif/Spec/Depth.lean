import Verif.Model.Decoder

/-!
# The nesting of `add_source_recursive`

The code of `addSource` and `scanMissing` once more, with separate bounds: the first argument bounds the number of
calls of `add_source_recursive` that are nested, and each of them makes at most one iteration per missing source.
-/

namespace Netcode

variable {w : Nat}

/-- The loop of detail/decoder.cc:281-325, at most `n` iterations. -/
def scanAtMost (gf : GF w) (dbg : Bool) (add : DSource → Dec → Out Dec) : Nat → Option Nat → Dec → Out Dec
  | _, none, s => .ok s
  | 0, some _, _ => .error .fuel
  | n + 1, some k, s =>
    match s.missing.get? k with
    | none => .error (.ub .dangling)
    | some [rid] =>
      match s.repairs.get? rid with
      | none => .error (.ub .dangling)
      | some r =>
        if r.ids.length = 1 then do
          cassert dbg (match s.lastId with | some l => decide (l ≤ r.ids.headD 0) | none => true)
          cassert dbg (!s.sources.has (r.ids.headD 0))
          let src ← createSource gf dbg r
          let s := { s with nbDecoded := s.nbDecoded + 1, repairs := s.repairs.erase rid,
                            missing := s.missing.erase k }
          let nxt := s.missing.next? k
          let s ← add src s
          scanAtMost gf dbg add n nxt s
        else scanAtMost gf dbg add n (s.missing.next? k) s
    | some _ => scanAtMost gf dbg add n (s.missing.next? k) s

/-- `add_source_recursive` (detail/decoder.cc:249-337), at most `depth` nested calls. -/
def addNested (gf : GF w) (dbg : Bool) : Nat → DSource → Dec → Out Dec
  | 0, _, _ => .error .fuel
  | depth + 1, src, s => do
    let s ← addSourceHead gf dbg src s
    let s ← scanAtMost gf dbg (addNested gf dbg depth) s.missing.length (s.missing.keys.head?) s
    addSourceTail dbg src s

end Netcode
