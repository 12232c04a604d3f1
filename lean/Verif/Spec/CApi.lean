import Verif.Model.CApi

/-!
# What a C caller expects
-/

namespace Netcode

/-- The class of error that goes with the end of a C++ call. -/
def expectedType {α : Type} : Except Thrown α → ErrTy
  | .ok _ => .noError
  | .error .packetType => .packetType
  | .error .overflow => .overflow
  | .error .badAlloc => .noMemory
  | .error (.std _) => .unknown
  | .error .other => .unknown

/-- The result a C function returns: 0 after an error. -/
def expectedValue {α : Type} (zero : α) : Except Thrown α → α
  | .ok x => x
  | .error _ => zero

/-- The end of a call is one that `check_error` tells without a message: success, or an error with a class of its
own. -/
def Classified {α : Type} : Except Thrown α → Prop
  | .ok _ => True
  | .error .packetType => True
  | .error .overflow => True
  | .error .badAlloc => True
  | .error _ => False

/-- A C program that makes calls one after the other with the same `ntc_error`.  Each call ends with a result and,
when it needs memory for a message, gets it or not. -/
def callSeq {α : Type} (lax : Bool) (zero : α) : List (Except Thrown α × Bool) → Heap × CError → Out (Heap × CError)
  | [], s => .ok s
  | (r, alloc) :: t, (h, e) => do
    let (h, e, _) ← checkError lax alloc zero r h e
    callSeq lax zero t (h, e)

/-- The message is null or points to memory that is still allocated. -/
def MsgOk (h : Heap) (e : CError) : Prop :=
  ∀ a, e.msg = some a → ∃ b, h[a]? = some b ∧ b.live = true

end Netcode
