import Verif.Model.Tools

/-!
# The command lines of the programs

`main` of `examples/accelerator/accelerator.cc`, `examples/accelerator-oneway/{sender,receiver}.cc`, `tools/lossy_proxy.cc` and
`tools/source_forwarder.cc`, up to the point where the sockets are made.  A string is the list of its characters, without the NUL that ends
it.  `argv` is the list of the arguments, the name of the program first; the element after the last one is a null pointer.
-/

namespace Netcode

/-- `isspace` in the "C" locale. Part of `std::atoi`, accelerator.cc:45. -/
def isSpace (b : Byte) : Bool := b = 32#8 || (9#8 ≤ b && b ≤ 13#8)

/-- `isdigit`. Part of `std::atoi`, accelerator.cc:45. -/
def isDigit (b : Byte) : Bool := 48#8 ≤ b && b ≤ 57#8

/-- The value of the leading digits. Part of `std::atoi`, accelerator.cc:45. -/
def digitsValue (v : Nat) : List Byte → Nat
  | [] => v
  | b :: t => if isDigit b then digitsValue (10 * v + (b.toNat - 48)) t else v

/-- The value of a sign and digits. Part of `std::atoi`, accelerator.cc:45. -/
def signedValue : List Byte → Int
  | [] => 0
  | b :: t => if b = 45#8 then - (digitsValue 0 t : Int) else if b = 43#8 then digitsValue 0 t else digitsValue 0 (b :: t)

/-- `std::atoi`: white space, a sign, digits; what follows is ignored.  The behaviour is undefined if the value is no `int`
(C11 7.22.1 (1)). accelerator.cc:45, 62; lossy_proxy.cc:152-169. -/
def atoi (s : List Byte) : Out Int :=
  let v := signedValue (s.dropWhile isSpace)
  if - 2 ^ 31 ≤ v ∧ v < 2 ^ 31 then .ok v else .error (.ub .overflow)

/-- `static_cast<unsigned short>(std::atoi(s))` (accelerator.cc:45, 62, sender.cc:224, receiver.cc:244, lossy_proxy.cc:152,
source_forwarder.cc:54) -/
def atoPort (s : List Byte) : Out Nat := do
  let v ← atoi s
  return (v % 2 ^ 16).toNat

/-- `static_cast<unsigned int>(std::atoi(s))` (lossy_proxy.cc:158-161, 168-169) -/
def atoUnsigned (s : List Byte) : Out Nat := do
  let v ← atoi s
  return (v % 2 ^ 32).toNat

/-- `argv[i]` given to `std::atoi`: the behaviour is undefined for the null pointer after the last argument.
accelerator.cc:45, lossy_proxy.cc:158-161. -/
def argAt (argv : List (List Byte)) (i : Nat) : Out (List Byte) :=
  match argv[i]? with
  | some s => .ok s
  | none => .error (.ub .oobRead)

/-- `std::strncmp(s, t, n) == 0`: at most `n` characters are compared, and none after a NUL. accelerator.cc:43, 60; lossy_proxy.cc:156-173. -/
def strncmpEq : Nat → List Byte → List Byte → Bool
  | 0, _, _ => true
  | _ + 1, [], [] => true
  | _ + 1, [], b :: _ => b = 0#8
  | _ + 1, b :: _, [] => b = 0#8
  | n + 1, a :: s, b :: t => a = b && (a = 0#8 || strncmpEq n s t)

/-- The characters of a string literal. accelerator.cc:43, 60; lossy_proxy.cc:156, 166, 173. -/
def chars (s : List Char) : List Byte := s.map fun c => BitVec.ofNat 8 c.toNat

/-- How a program goes on: it prints its usage and exits with status 1, or makes its sockets with `α`. accelerator.cc:17-28. -/
inductive Start (α : Type) where
  | usage
  | go (a : α)
  deriving DecidableEq, Repr

/-- What the accelerator was told (accelerator.cc:43-76): which side it is, the port to listen on, and the name and the service to be
resolved.  `server` listens on the port for the other side and knows its application; `client` listens on the port for its application and
knows the other side. -/
structure AccArgs where
  server : Bool
  port : Nat
  peer : List Byte
  service : List Byte
  deriving DecidableEq, Repr

/-- `main` of accelerator.cc (lines 11-82) -/
def accMain (argv : List (List Byte)) : Out (Start AccArgs) :=
  if argv.length ≠ 5 then return .usage
  else do
    let role ← argAt argv 1
    if strncmpEq 7 role (chars ['s', 'e', 'r', 'v', 'e', 'r']) then
      let port ← atoPort (← argAt argv 2)
      return .go ⟨true, port, ← argAt argv 3, ← argAt argv 4⟩
    else if strncmpEq 7 role (chars ['c', 'l', 'i', 'e', 'n', 't']) then
      let port ← atoPort (← argAt argv 2)
      return .go ⟨false, port, ← argAt argv 3, ← argAt argv 4⟩
    else return .usage

/-- What the programs with one direction were told: the port to listen on, the name and the service to be resolved.
sender.cc:224-226, receiver.cc:244-246, source_forwarder.cc:54-56. -/
structure WayArgs where
  port : Nat
  peer : List Byte
  service : List Byte
  deriving DecidableEq, Repr

/-- `main` of sender.cc (lines 211-237), of receiver.cc (lines 230-252) and of source_forwarder.cc (lines 39-66) -/
def wayMain (argv : List (List Byte)) : Out (Start WayArgs) :=
  if argv.length ≠ 4 then return .usage
  else do
    let port ← atoPort (← argAt argv 1)
    return .go ⟨port, ← argAt argv 2, ← argAt argv 3⟩

/-- The losses that the proxy was told to cause, there and back. lossy_proxy.cc:158-185. -/
inductive LossArgs where
  | burst (good bad goodInv badInv : Nat)
  | uniform (threshold thresholdInv : Nat)
  | file (name nameInv : List Byte)
  deriving DecidableEq, Repr

/-- `main` of lossy_proxy.cc (lines 131-193).  A file that cannot be opened is read as an empty one. -/
def proxyMain (dbg : Bool) (argv : List (List Byte)) : Out (Start (WayArgs × LossArgs)) :=
  if argv.length ≠ 7 ∧ argv.length ≠ 9 then return .usage
  else do
    let port ← atoPort (← argAt argv 1)
    let to : WayArgs := ⟨port, ← argAt argv 2, ← argAt argv 3⟩
    let kind ← argAt argv 4
    if strncmpEq 6 kind (chars ['b', 'u', 'r', 's', 't']) then
      let good ← atoUnsigned (← argAt argv 5)
      let bad ← atoUnsigned (← argAt argv 6)
      let goodInv ← atoUnsigned (← argAt argv 7)
      let badInv ← atoUnsigned (← argAt argv 8)
      return .go (to, .burst good bad goodInv badInv)
    else if strncmpEq 8 kind (chars ['u', 'n', 'i', 'f', 'o', 'r', 'm']) then
      let p ← atoUnsigned (← argAt argv 5)
      let pInv ← atoUnsigned (← argAt argv 6)
      uniformNew dbg (uniformThreshold p)
      uniformNew dbg (uniformThreshold pInv)
      return .go (to, .uniform (uniformThreshold p) (uniformThreshold pInv))
    else if strncmpEq 5 kind (chars ['f', 'i', 'l', 'e']) then
      return .go (to, .file (← argAt argv 5) (← argAt argv 6))
    else return .usage

end Netcode
