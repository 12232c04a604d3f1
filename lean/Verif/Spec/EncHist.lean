import Verif.Model.Encoder

/-!
# Histories of an encoder

What a user (and the network) can do with an `ntc::encoder`, in any order.
-/

namespace Netcode

variable {w : Nat}

/-- A call of the interface of an encoder. -/
inductive EAct where
  /-- `encoder(data)` -/
  | commit (d : List Byte)
  /-- `generate_repair()` -/
  | repair
  | setRate (n : Nat)
  | setWindow (n : Nat)
  | setAdaptive (b : Bool)
  | setSystematic (b : Bool)
  /-- `encoder(packet)`, with any bytes -/
  | packet (p : List Byte)
  deriving DecidableEq, Repr

/-- The encoder after a call. -/
def Enc.act (gf : GF w) (F : F64) (dbg : Bool) (e : Enc) : EAct → Out Enc
  | .commit d => e.commit gf dbg d
  | .repair => e.generateRepair gf dbg
  | .setRate n => e.setRate dbg n
  | .setWindow n => e.setWindowSize dbg n
  | .setAdaptive b => .ok (e.setAdaptive b)
  | .setSystematic b => .ok (e.setCodeType b)
  | .packet p => (e.notify F dbg p).map (·.1)

/-- The encoder after a sequence of calls. -/
def Enc.after (gf : GF w) (F : F64) (dbg : Bool) (e : Enc) (acts : List EAct) : Out Enc :=
  acts.foldlM (Enc.act gf F dbg) e

/-- The data committed by a sequence of calls. -/
def commitsOf : List EAct → List (List Byte)
  | [] => []
  | .commit d :: t => d :: commitsOf t
  | _ :: t => commitsOf t

/-- The number of repairs asked for. -/
def forcedOf (acts : List EAct) : Nat := acts.count .repair

/-- The number of data committed while the code is not systematic; the first argument is the code at the
beginning. -/
def nonSystematicOf : Bool → List EAct → Nat
  | _, [] => 0
  | s, .commit _ :: t => (if s then 0 else 1) + nonSystematicOf s t
  | _, .setSystematic b :: t => nonSystematicOf b t
  | s, _ :: t => nonSystematicOf s t

/-- Calls that do not change the rate. -/
def KeepsRate : EAct → Prop
  | .setRate _ => False
  | .setAdaptive b => b = false
  | _ => True

/-- The repairs of a list of packets. -/
def repairsOf : List EPkt → List ERepair
  | [] => []
  | .repair r :: t => r :: repairsOf t
  | .source _ :: t => repairsOf t

/-- The sources of a list of packets. -/
def sourcesOf : List EPkt → List ESource
  | [] => []
  | .source s :: t => s :: sourcesOf t
  | .repair _ :: t => sourcesOf t

/-- Sum of bytes (addition is xor). -/
def byteSum (l : List Byte) : Byte := l.foldl (· ^^^ ·) 0#8

/-- Sum of sizes (addition is xor). -/
def sizeSum (l : List (BitVec 16)) : BitVec 16 := l.foldl (· ^^^ ·) 0#16

/-- `r` is the repair number `rid` of the sources `S`: it lists their identifiers; its symbol is as long as the
longest of the data; each byte of it is the sum of the corresponding bytes of the data (continued by zeros)
multiplied by their coefficients; its size is the sum of their sizes multiplied by their coefficients. -/
structure IsRepairOf (gf : GF w) (rid : Nat) (S : List ESource) (r : ERepair) : Prop where
  id : r.id = rid
  ids : r.ids = S.map (·.id)
  longest : (∀ s ∈ S, s.sym.length ≤ r.sym.length) ∧ ∃ s ∈ S, s.sym.length = r.sym.length
  byte : ∀ j, r.sym.getD j 0#8 =
    byteSum (S.map fun s => (mulRegion gf (coefficient w rid s.id) s.sym).getD j 0#8)
  size : r.encSize =
    sizeSum (S.map fun s => mulSize gf (BitVec.ofNat 16 s.sym.length) (coefficient w rid s.id))

end Netcode
