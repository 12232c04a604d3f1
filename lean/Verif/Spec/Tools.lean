import Verif.Model.Tools
import Verif.Spec.Line

/-!
# What the proxy should do
-/

namespace Netcode

variable {w : Nat} {σ : Type}

/-- The state of a loss after `k` packets. -/
def lossState (L : σ → Bool × σ) (l : σ) : Nat → σ
  | 0 => l
  | k + 1 => (L (lossState L l k)).2

/-- Whether packet `k` is lost. -/
def lossAt (L : σ → Bool × σ) (l : σ) (k : Nat) : Bool := (L (lossState L l k)).1

/-- The datagrams that count. -/
def nonEmpty (ds : List (List Byte)) : List (List Byte) := ds.filter (fun d => d.length ≠ 0)

/-- The calls and arrivals considered: documented calls; the packets come to the proxy in the order in which they were sent (any may
have been lost, and the last one may come again) and fit in its buffer, as do the acks, which may come in any order. -/
def Proxied.Allowed (w : Nat) (t : Proxied σ) : PAct → Prop
  | .call a => ApiOk w t.sys a ∧ (∀ i, a ≠ .deliver i) ∧ (∀ j, a ≠ .ack j)
  | .packet i => (∀ j ∈ t.sys.hist, j ≤ i) ∧ ∀ p, t.sys.enc.out[i]? = some p → p.bytes.length ≤ 4096
  | .ack j => ∀ a, t.sys.dec.out[j]? = some a → (writeAck a).flatten.length ≤ 4096

/-- What comes to the proxy during the steps: the packets of the encoder, and the acks. -/
def Proxied.came (c : Cfg w) (L L' : σ → Bool × σ) : Proxied σ → List PAct → List (List Byte) × List (List Byte)
  | _, [] => ([], [])
  | t, a :: as =>
    let rest := match t.step c L L' a with
      | .ok t' => t'.came c L L' as
      | .error _ => ([], [])
    match a with
    | .packet i => ((t.sys.enc.out[i]?).toList.map EPkt.bytes ++ rest.1, rest.2)
    | .ack j => (rest.1, (t.sys.dec.out[j]?).toList.map (fun a => (writeAck a).flatten) ++ rest.2)
    | .call _ => rest

/-- The states reached. -/
inductive ProxiedReach (c : Cfg w) (io : Bool) (L L' : σ → Bool × σ) (l l' : σ) : Proxied σ → Prop
  | init : ProxiedReach c io L L' l l' ⟨Sys.init c.clk io, Proxy.init l, Proxy.init l'⟩
  | step {t t' : Proxied σ} {a : PAct} : ProxiedReach c io L L' l l' t → t.Allowed w a → t.step c L L' a = .ok t' →
      ProxiedReach c io L L' l l' t'

end Netcode
