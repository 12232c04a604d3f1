import Verif.Model.Handlers
import Verif.Spec.DecHist

/-!
# Runs with handlers that throw

The closed system of `Verif/Model/System.lean` when the user's handlers throw.  The user catches the exception and goes on.
-/

namespace Netcode

variable {w : Nat}

/-- A step, and whether the packet handler of the encoder throws when it is given the first, and the second, packet of that step. -/
abbrev TAct := Act × Bool × Bool

/-- One step when the packet handler of the encoder may throw.  `committed` lists the data the user gave, whether or not the call ended
with an exception. -/
def Sys.stepT (c : Cfg w) (s : Sys) : TAct → Out Sys
  | (.commit d, t1, t2) => do
    let (e, _) ← s.enc.commitH c.gf c.dbg t1 t2 d
    return { s with enc := e, committed := s.committed ++ [d] }
  | (.repair, t, _) => do
    let (e, _) ← s.enc.generateRepairH c.gf c.dbg t
    return { s with enc := e }
  | (a, _, _) => s.step c a

/-- A run when the packet handler of the encoder may throw. -/
def Sys.runT (c : Cfg w) (s : Sys) (acts : List TAct) : Out Sys := acts.foldlM (Sys.stepT c) s

/-- The handler throws in no commit. -/
def TAct.SafeCommit : TAct → Prop
  | (.commit _, t1, t2) => t1 = false ∧ t2 = false
  | _ => True

/-- Lift of a fault. -/
def Out.stop {α : Type} : Out α → Except Stop α
  | .ok a => .ok a
  | .error f => .error (.fault f)

/-- One step when the data handler of the decoder may throw. -/
def Sys.stepH (c : Cfg w) (H : DHandler) (s : Sys) : Act → Except Stop Sys
  | .deliver i =>
    match s.enc.out[i]? with
    | none => return s
    | some p => do
      let (d, _) ← s.dec.notifyH c.gf H c.dbg c.clk p.bytes
      return { s with dec := d, hist := s.hist ++ [i] }
  | a => (s.step c a).stop

/-- A run when the data handler of the decoder may throw. -/
def Sys.runH (c : Cfg w) (H : DHandler) (s : Sys) (acts : List Act) : Except Stop Sys := acts.foldlM (Sys.stepH c H) s

end Netcode
