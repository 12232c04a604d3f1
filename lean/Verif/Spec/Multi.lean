import Verif.Model.Multi
import Verif.Spec.Late

/-!
# One encoder and several decoders: schedules
-/

namespace Netcode

variable {w : Nat}

/-- The states that calls and arrivals reach, where each decoder by itself sees what `Permits` allows, and acks reach the encoder only
from the decoders in `acks`. -/
inductive MultiReach (c : Cfg w) (clk : Nat → Clock) (late : Bool) (ios : List Bool) (acks : Nat → Prop) : Multi → Prop
  | init : MultiReach c clk late ios acks (Multi.init clk ios)
  | step {m m' : Multi} {k : Nat} {a : Act} {s : Sys} : MultiReach c clk late ios acks m → m.view k = some s →
      Permits { c with clk := clk k } late s a → (∀ j, a = .ack j → acks k) → m.step c clk k a = .ok m' →
      MultiReach c clk late ios acks m'

end Netcode
