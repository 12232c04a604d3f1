import Verif.Spec.EncHist

/-!
# What acks a history of an encoder has
-/

namespace Netcode

/-- The call is the arrival of an ack that names source `x`. -/
def EAct.Names (x : Nat) : EAct → Prop
  | .packet p => ∃ k n, getPacketType p = .ok .ack ∧ readAck p = .ok (k, n) ∧ x ∈ k.ids
  | _ => False

/-- An ack that arrived after the commit of source `x` names it. -/
def Acked (acts : List EAct) (x : Nat) : Prop :=
  ∃ pre a post, acts = pre ++ a :: post ∧ x < (commitsOf pre).length ∧ a.Names x

/-- The window is never made too small for the data committed. -/
def AmpleWindow (acts : List EAct) : Prop := ∀ n, EAct.setWindow n ∈ acts → (commitsOf acts).length < n

/-- No ack names a source before it was committed. -/
def Causal (acts : List EAct) : Prop :=
  ∀ pre a post x, acts = pre ++ a :: post → a.Names x → x < (commitsOf pre).length

end Netcode
