import Verif.Spec.Gapless
import Verif.Model.EndToEnd

/-!
# Runs with the default window size
-/

namespace Netcode

variable {w : Nat}

/-- The states that correct calls other than `set_window_size`, losses and repetitions (`Verif/Spec/Line.lean`) reach. -/
inductive PlainLine (c : Cfg w) (inOrder : Bool) : Sys → Prop
  | init : PlainLine c inOrder (Sys.init c.clk inOrder)
  | step {s s' : Sys} {a : Act} : PlainLine c inOrder s → Line w s a → (∀ n, a ≠ .setWindow n) → s.step c a = .ok s' →
      PlainLine c inOrder s'

/-- The data that the test programs commit. -/
def testData (size n : Nat) : List (List Byte) := (List.range n).map (testDatum size)

end Netcode
