import Verif.Spec.Line
import Verif.Spec.EncHist

/-!
# At most one loss between two repairs
-/

namespace Netcode

variable {w : Nat}

/-- The encoder is systematic, and a commit to a full window, which evicts the oldest source, comes only after a repair that lists that
source has been emitted. -/
def Kept (s : Sys) : Act → Prop
  | .commit _ => s.enc.window = s.enc.windowSize → ∀ x, (s.enc.sources.map (·.id)).head? = some x → ∃ r, .repair r ∈ s.enc.out ∧ x ∈ r.ids
  | .setSystematic b => b = true
  | _ => True

/-- The states that such calls, losses and repetitions (`Verif/Spec/Line.lean`) reach. -/
inductive KeptLine (c : Cfg w) (inOrder : Bool) : Sys → Prop
  | init : KeptLine c inOrder (Sys.init c.clk inOrder)
  | step {s s' : Sys} {a : Act} : KeptLine c inOrder s → Line w s a → Kept s a → s.step c a = .ok s' → KeptLine c inOrder s'

/-- Of the packets that follow a repair up to the next repair (included), at most one was lost, as far as the `i`-th packet: between two
packets that were lost, the first one included, there is a repair. -/
def Sys.OneLoss (s : Sys) (i : Nat) : Prop :=
  ∀ j k, j < k → k ≤ i → j ∉ s.hist → k ∉ s.hist → ∃ m, j ≤ m ∧ m < k ∧ s.isRepair m

/-- Calls that leave the settings of the encoder as they are. -/
def SameSettings : Act → Prop
  | .setRate _ | .setWindow _ | .setAdaptive _ | .setSystematic _ => False
  | _ => True

/-- The states that are reached when the rate and the window size are set at the beginning, and the other settings are the default
ones. -/
inductive SteadyLine (c : Cfg w) (inOrder : Bool) (rate window : Nat) : Sys → Prop
  | init {s : Sys} : (Sys.init c.clk inOrder).run c [.setRate rate, .setWindow window] = .ok s → SteadyLine c inOrder rate window s
  | step {s s' : Sys} {a : Act} : SteadyLine c inOrder rate window s → Line w s a → SameSettings a → s.step c a = .ok s' →
      SteadyLine c inOrder rate window s'

end Netcode
