import Verif.Spec.Schedule

/-!
# Networks that lose packets but do not reorder them
-/

namespace Netcode

variable {w : Nat}

/-- The calls and arrivals considered: the documented use of the API; a packet of the encoder arrives only if no newer one has arrived
(any may be lost, and the last one that arrived may arrive again).  Acks may be lost, repeated, delayed and reordered. -/
def Line (w : Nat) (s : Sys) (a : Act) : Prop :=
  ApiOk w s a ∧
  match a with
  | .deliver i => ∀ j ∈ s.hist, j ≤ i
  | _ => True

/-- The states that such schedules reach. -/
inductive LineReach (c : Cfg w) (inOrder : Bool) : Sys → Prop
  | init : LineReach c inOrder (Sys.init c.clk inOrder)
  | step {s s' : Sys} {a : Act} : LineReach c inOrder s → Line w s a → s.step c a = .ok s' → LineReach c inOrder s'

end Netcode
