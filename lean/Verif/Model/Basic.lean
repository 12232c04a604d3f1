/-!
# Basic vocabulary of the model

Bytes, faults (undefined behaviour, failed assertions), C++ exceptions, and the ordered containers
(`boost::container::map`, `boost::container::flat_set`) the code uses.
-/

namespace Netcode

/-- A `char` of a buffer. packet.hh:40, data.hh: `char`. -/
abbrev Byte := BitVec 8

/-- The kinds of undefined behaviour the model distinguishes. Models no code: what the C++ standard leaves undefined. -/
inductive UB where
  /-- dereference of `end()` (e.g. `find(x)->second` when `x` is absent, `*begin()` of an empty set) -/
  | derefEnd
  /-- use of an iterator or pointer whose element was erased -/
  | dangling
  /-- read past the end of a buffer -/
  | oobRead
  /-- write past the end of a buffer -/
  | oobWrite
  /-- region length which is not a whole number of field words (gf-complete's contract) -/
  | misaligned
  /-- read of a matrix entry that was not written (left over from an earlier use) -/
  | staleRead
  /-- division or remainder by zero -/
  | divZero
  /-- `delete` of memory obtained from `new[]` -/
  | mismatchedDelete
  /-- use of memory already released -/
  | useAfterFree
  /-- signed arithmetic whose result does not fit -/
  | overflow
  deriving DecidableEq, Repr

/-- Why a call did not return (nor throw). Models no code. -/
inductive Fault where
  /-- undefined behaviour -/
  | ub (k : UB)
  /-- a failed `assert` (only possible when the code is built without `NDEBUG`) -/
  | assertion
  /-- the model's recursion bound was exhausted (proved impossible) -/
  | fuel
  deriving DecidableEq, Repr

/-- Result of a call that may fault. Models no code. -/
abbrev Out (α : Type) := Except Fault α

/-- The C++ exceptions of `netcode/errors.hh`. errors.hh:14-30. -/
inductive CppErr where
  /-- `ntc::packet_type_error` -/
  | packetType
  /-- `ntc::overflow_error` -/
  | overflow
  deriving DecidableEq, Repr

/-- `assert(c)`: in a debug build a false condition aborts; under `NDEBUG` it is a no-op.
The default build type of `/repo/CMakeLists.txt` is Release, so both values of `debug` matter.  E.g. decoder.hh:91, detail/decoder.cc:57. -/
def cassert (debug : Bool) (c : Bool) : Out Unit :=
  if debug && !c then .error .assertion else .ok ()

/-- A condition without which the behaviour is undefined, e.g. that there is a last element to be read at detail/decoder.cc:59. -/
def ensure (c : Bool) (k : UB) : Out Unit :=
  if c then .ok () else .error (.ub k)

/-! ## Ordered maps

`boost::container::map<std::uint32_t, V>`: a list of pairs kept strictly sorted by key. -/

/-- An ordered map with `uint32_t` keys. detail/decoder.hh:26, 29, 53, 157. -/
abbrev OMap (V : Type) := List (Nat × V)

namespace OMap
variable {V : Type}

/-- `map::find`. detail/decoder.cc:105, 118, 266. -/
def get? (m : OMap V) (k : Nat) : Option V := (m.find? (fun p => p.1 == k)).map (·.2)

/-- `map::count`. detail/decoder.cc:42, 66. -/
def has (m : OMap V) (k : Nat) : Bool := m.any (fun p => p.1 == k)

/-- `map::emplace`: no effect when the key is present. detail/decoder.cc:93, 122, 329, 335. -/
def emplace (m : OMap V) (k : Nat) (v : V) : OMap V :=
  match m with
  | [] => [(k, v)]
  | p :: t => if k < p.1 then (k, v) :: p :: t else if k = p.1 then p :: t else p :: emplace t k v

/-- Assignment through a reference to an existing element. detail/decoder.cc:98, 127, 271. -/
def modify (m : OMap V) (k : Nat) (f : V → V) : OMap V :=
  m.map (fun p => if p.1 = k then (p.1, f p.2) else p)

/-- `map::erase(key)`. detail/decoder.cc:140, 143, 276, 305. -/
def erase (m : OMap V) (k : Nat) : OMap V := m.filter (fun p => p.1 != k)

/-- `map::erase(begin(), lower_bound(k))`. Used by `drop_outdated`, detail/decoder.cc:387-388. -/
def eraseBelow (m : OMap V) (k : Nat) : OMap V := m.filter (fun p => k ≤ p.1)

/-- The keys in iteration order. detail/decoder.cc:281-282. -/
def keys (m : OMap V) : List Nat := m.map (·.1)

/-- The first key greater than `k`: `std::next` of the iterator at `k`. detail/decoder.cc:281, 308, 317, 323. -/
def next? (m : OMap V) (k : Nat) : Option Nat := (m.find? (fun p => k < p.1)).map (·.1)

end OMap

/-! ## Ordered sets

`boost::container::flat_set`: a strictly sorted list. -/

/-- `flat_set::insert`. detail/decoder.cc:127; decoder.hh:219. -/
def setInsert (s : List Nat) (k : Nat) : List Nat :=
  match s with
  | [] => [k]
  | x :: t => if k < x then k :: x :: t else if k = x then x :: t else x :: setInsert t k

end Netcode
