import Verif.Model.Wire

/-!
# The generator of traffic

`tools/udp_generator.py`: a client that sends numbered datagrams, and a server that checks that it gets all of them, in order.
-/

namespace Netcode

/-- `make_packet` (udp_generator.py:76-77): the number of the packet, in four bytes, repeated.  `none` is the `OverflowError` of
`to_bytes`.  The division `packet_size / 4` is one of floating-point numbers, exact up to 2^53; sizes below 0, which the command line does
not exclude, are left out. -/
def genPacket (size id : Nat) : Option (List Byte) :=
  if id < 2 ^ 32 then some (List.replicate (size / 4) (beBytes 4 id)).flatten else none

/-- `client` (udp_generator.py:79-85): what is sent before `make_packet` fails, if it does.  Left out: the pause between two packets, and
errors of the socket. -/
def genClient (size : Nat) : (nb : Nat) → List (List Byte)
  | 0 => []
  | n + 1 => genClient size n ++ (genPacket size n).toList

/-- Why the server stops (udp_generator.py:35, 42, 48). -/
inductive GStop where
  | size
  | id
  | data
  deriving Repr, DecidableEq

/-- A slice `data[a : a + 4]`. tools/udp_generator.py, `validate_packet`. -/
def slice4 (d : List Byte) (a : Nat) : List Byte := (d.drop a).take 4

/-- `validate_packet` (udp_generator.py:31-48) -/
def genValidate (size id : Nat) (d : List Byte) : Except GStop Unit :=
  if d.length ≠ size then .error .size
  else if beNat (d.take 4) ≠ id then .error .id
  else if (List.range' 1 (size / 4 - 1)).all (fun i => slice4 d (i * 4) == d.take 4) then .ok ()
  else .error .data

/-- `server` (udp_generator.py:50-63), from the number of packets accepted: what it accepted, and why it stopped, if it did.  The socket cuts
datagrams at 4096 bytes.  Left out: the statistics printed (udp_generator.py:65-71). -/
def genServer (size : Nat) : (current : Nat) → List (List Byte) → Nat × Option GStop
  | n, [] => (n, none)
  | n, d :: t =>
    match genValidate size n (d.take 4096) with
    | .ok () => genServer size (n + 1) t
    | .error e => (n, some e)

end Netcode
