import Verif.Spec.EncHist
import Verif.Spec.Schedule

/-!
# Calls an encoder allows
-/

namespace Netcode

/-- The arguments that the interface of the encoder allows. The bytes of a packet are not limited. -/
def EAct.Sane (w : Nat) : EAct → Prop
  | .commit d => DataOk w d
  | .setRate n => 0 < n
  | .setWindow n => 0 < n
  | .packet p => p ≠ []
  | _ => True

end Netcode
