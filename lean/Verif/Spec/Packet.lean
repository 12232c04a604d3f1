import Verif.Model.Packet

/-!
# What a packet is compared with

`VOp` lists the operations of a packet that change it.  `VOp.vec` says what each one does to a plain vector of
bytes, in terms of lists; `VOp.pkt` calls the model of `ntc::packet`.
-/

namespace Netcode

/-- How a packet (or a vector) is created. -/
inductive VNew where
  | empty
  | sized (n : Nat)
  | filled (n : Nat) (v : Byte)
  | range (l : List Byte)
  deriving DecidableEq, Repr

/-- Operations that change a packet. -/
inductive VOp where
  | assignFill (n : Nat) (v : Byte)
  | assignRange (l : List Byte)
  | set (i : Nat) (v : Byte)
  | pushBack (v : Byte)
  | clear
  | resize (n : Nat)
  | resizeFill (n : Nat) (v : Byte)
  | reserve (n : Nat)
  | shrinkToFit
  deriving DecidableEq, Repr

/-- A plain vector after its construction. -/
def VNew.vec : VNew → List Cell
  | .empty => []
  | .sized n => List.replicate n none
  | .filled n v => List.replicate n (some v)
  | .range l => l.map some

/-- A plain vector after an operation; `none`: the operation is not allowed in this state. -/
def VOp.vec (v : List Cell) : VOp → Option (List Cell)
  | .assignFill n b => some (List.replicate n (some b))
  | .assignRange l => some (l.map some)
  | .set i b => if i < v.length then some (v.set i (some b)) else none
  | .pushBack b => some (v ++ [some b])
  | .clear => some []
  | .resize n => some (v.take n ++ List.replicate (n - v.length) none)
  | .resizeFill n b => some (v.take n ++ List.replicate (n - v.length) (some b))
  | .reserve _ => some v
  | .shrinkToFit => some v

/-- The number of bytes a construction asks for. -/
def VNew.want : VNew → Nat
  | .empty => 0
  | .sized n => n
  | .filled n _ => n
  | .range l => l.length

/-- The number of bytes an operation asks for, in a vector of `len` bytes. -/
def VOp.want (len : Nat) : VOp → Nat
  | .assignFill n _ => n
  | .assignRange l => l.length
  | .set _ _ => len
  | .pushBack _ => len + 1
  | .clear => 0
  | .resize n => n
  | .resizeFill n _ => n
  | .reserve n => n
  | .shrinkToFit => len

/-- `VRun o ops v`: the sequence `ops` is allowed on a plain vector created by `o` and leaves it equal to `v`;
no step asks for more than the `2^63 - 1` bytes a vector can hold, 9 of which are reserved. -/
inductive VRun (o : VNew) : List VOp → List Cell → Prop where
  | start : o.want + 9 < 2 ^ 63 → VRun o [] o.vec
  | op {ops v v'} (a : VOp) : VRun o ops v → a.want v.length + 9 < 2 ^ 63 → a.vec v = some v' →
      VRun o (ops ++ [a]) v'

/-- The packet created by the same constructor. -/
def VNew.pkt : VNew → Except VecErr Packet
  | .empty => Packet.empty
  | .sized n => Packet.sized n
  | .filled n v => Packet.filled n v
  | .range l => Packet.ofRange l

/-- The same operation on a packet. -/
def VOp.pkt (p : Packet) : VOp → Except VecErr Packet
  | .assignFill n b => p.assignFill n b
  | .assignRange l => p.assignRange l
  | .set i b => p.set i b
  | .pushBack b => p.pushBack b
  | .clear => p.clear
  | .resize n => p.resize n
  | .resizeFill n b => p.resizeFill n b
  | .reserve n => p.reserve n
  | .shrinkToFit => p.shrinkToFit

/-- A packet after a sequence of operations. -/
def pktRun (o : VNew) (ops : List VOp) : Except VecErr Packet := do
  let p ← o.pkt
  ops.foldlM VOp.pkt p

/-- `SameAs p v`: no observation tells the packet `p` from the vector `v`. -/
structure SameAs (p : Packet) (v : List Cell) : Prop where
  size : p.size = v.length
  isEmpty : p.isEmpty = v.isEmpty
  /-- iteration from `begin()` to `end()` -/
  range : p.range = v
  /-- the `size()` bytes at `data()` -/
  data : p.dataRange = v
  /-- indexing inside the packet -/
  index : ∀ i, i < v.length → (p.get i).toOption = v[i]?
  /-- indexing past the end is undefined -/
  past : ∀ i, v.length ≤ i → i + 9 < 2 ^ 64 → p.get i = .error (.ub .oobRead)

end Netcode
