import Verif.Model.System
import Verif.Model.EndToEnd

/-!
# The basic examples

`examples/basic/cpp_basic.cc` and `examples/basic/c_basic.c`: data are given to an encoder, and after each one, all that the encoder has
given to its packet handler is handed to the decoder as one packet.  The programs do so for two data; here it is any list of data.

Not modelled: the output; that the C program never frees its packet, and nothing if an error occurs.
-/

namespace Netcode

/-- The encoder, the decoder, and what the data handler of the C program has in its buffer, of which only `nb_read` bytes are kept here
(c_basic.c:12-17). -/
structure Basic where
  enc : Enc
  dec : NDec
  sink : List Byte
  deriving DecidableEq, Repr

/-- The encoder and the decoder (cpp_basic.cc:55-62; c_basic.c:70-86). -/
def Basic.init (c : Cfg 8) : Out Basic := do
  let e ← Enc.init.setWindowSize c.dbg 32
  return ⟨e, (NDec.init c.clk true).setAckPeriod 200, []⟩

/-- All that the packet handler of the encoder was given by a call (cpp_basic.cc:16-22; c_basic.c:22-29). -/
def emitted (before after : Enc) : List Byte := (after.out.drop before.out.length).flatMap EPkt.bytes

/-- One datum in the C++ program (cpp_basic.cc:64-79, 81-106).  The assertions look at the bytes that the data handler was given; the
buffer may be shorter. -/
def Basic.cppRound (c : Cfg 8) (t : Basic) (d : List Byte) : Except EndStop Basic :=
  match t.enc.commit c.gf c.dbg d with
  | .error f => .error (.fault f)
  | .ok e =>
    match t.dec.notify c.gf c.dbg c.clk (emitted t.enc e) with
    | .error f => .error (.fault f)
    | .ok (_, .error _) => .error .thrown
    | .ok (dc, .ok _) =>
      let got := (dc.data.drop t.dec.data.length).flatten
      if c.dbg = true ∧ got.length < d.length then .error (.fault (.ub .oobRead))
      else if c.dbg = true ∧ got.take d.length ≠ d then .error (.fault .assertion)
      else .ok ⟨e, dc, t.sink⟩

/-- The C++ program. examples/basic/cpp_basic.cc:51-116. -/
def cppBasic (c : Cfg 8) (ds : List (List Byte)) : Except EndStop Basic :=
  match Basic.init c with
  | .error f => .error (.fault f)
  | .ok t => ds.foldlM (Basic.cppRound c) t

/-- The sizes of the buffers of the C program: of its packet and of its data (c_basic.c:111, 138, 141), and of its contexts (c_basic.c:16). -/
def cPacket : Nat := 1024
/-- The size of the buffer of a context (c_basic.c:16). -/
def cContext : Nat := 4096

/-- `receive_data` (c_basic.c:45-51) for the data handed over by a call. -/
def cReceive (sink : List Byte) (ds : List (List Byte)) : Except EndStop (List Byte) :=
  ds.foldlM (fun _ d => if d.length > cContext then .error (.fault (.ub .oobWrite)) else .ok d) sink

/-- One datum in the C program (c_basic.c:88-135, 138-192): the first one too, whose data and packet have the sizes that the later ones
get. -/
def Basic.cRound (c : Cfg 8) (t : Basic) (d : List Byte) : Except EndStop Basic :=
  if d.length > cPacket then .error (.fault (.ub .oobWrite))
  else
    match t.enc.commit c.gf c.dbg d with
    | .error f => .error (.fault f)
    | .ok e =>
      let incoming := emitted t.enc e
      if incoming.length > cContext ∨ incoming.length > cPacket then .error (.fault (.ub .oobWrite))
      else
        match t.dec.notify c.gf c.dbg c.clk incoming with
        | .error f => .error (.fault f)
        | .ok (_, .error _) => .error .thrown
        | .ok (dc, .ok _) =>
          match cReceive t.sink (dc.data.drop t.dec.data.length) with
          | .error x => .error x
          | .ok sink => if c.dbg = true ∧ sink ≠ d then .error (.fault .assertion) else .ok ⟨e, dc, sink⟩

/-- The C program. examples/basic/c_basic.c:55-204. -/
def cBasic (c : Cfg 8) (ds : List (List Byte)) : Except EndStop Basic :=
  match Basic.init c with
  | .error f => .error (.fault f)
  | .ok t => ds.foldlM (Basic.cRound c) t

end Netcode
