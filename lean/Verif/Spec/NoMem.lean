import Verif.Model.NoMem
import Verif.Spec.Late

/-!
# Runs in which the memory runs out
-/

namespace Netcode

variable {w : Nat}

/-- No allocation for a repair fails within a commit. -/
def MemSafe : Act × Mem → Prop
  | (.commit _, m) => m = .none ∨ m = .node
  | _ => True

/-- The states reached by the steps of `Reach`, and by calls that `Reach` allows and in which an allocation of the encoder fails, or that of the list
of a repair that arrives or of an ack the user asks for. -/
inductive ReachMem (c : Cfg w) (inOrder : Bool) : Sys → Prop
  | init : ReachMem c inOrder (Sys.init c.clk inOrder)
  | step {s s' : Sys} {a : Act} {m : Mem} : ReachMem c inOrder s → Allowed c s a → MemSafe (a, m) → s.stepM c (a, m) = .ok s' →
      ReachMem c inOrder s'

/-- The same with sources that may be late with ordering. -/
inductive ReachMemLate (c : Cfg w) (inOrder : Bool) : Sys → Prop
  | init : ReachMemLate c inOrder (Sys.init c.clk inOrder)
  | step {s s' : Sys} {a : Act} {m : Mem} : ReachMemLate c inOrder s → AllowedLate c s a → MemSafe (a, m) → s.stepM c (a, m) = .ok s' →
      ReachMemLate c inOrder s'

end Netcode
