# Formal model of ahamez/netcode — design

## Layout

* `lean/Verif/Model/*`: the C++ of `/repo/netcode` transcribed function by function into total, computable Lean 4
  functions.  Each definition cites the file and lines it models.
* `lean/Verif/Spec/*`: small specifications, written without the helpers of the proofs (what a schedule is, what is
  observed of a decoder, what a plain vector does, what "independent equations" means, ...).
* `lean/Verif/Props/*`: the property theorems, named after the property (`C01_...`), each with an example that meets its
  hypotheses.
* `lean/Verif/Proofs/*`: helper lemmas.
* `properties.jsonl` and `MANIFEST.json` are generated by `tools/props.py`, `tools/status.py` and `tools/manifest.py`.
  `tools/gfcert.py` computed the certificates of `Proofs/GFConcrete.lean`; nothing trusts it.
* `seeded/LOG.jsonl`: what became of the theorems when the model was made wrong on purpose.

## Representation choices

* bytes are `BitVec 8`; identifiers are `Nat` with explicit reduction modulo 2^32 wherever the
  code's `uint32_t` arithmetic can wrap; `uint16_t` truncations are explicit.
* A Galois field of width `w` is a structure `GF w` (multiplication and inverse on `BitVec w`, xor as
  addition, field laws as fields).  Theorems quantify over every `GF w`; the concrete fields
  w = 4, 8, 16, 32 with gf-complete's default polynomials are constructed and their laws proved.
* A memory region handed to gf-complete is a byte list read as a little-endian sequence of w-bit
  words; a length that is not a whole number of words is a fault (gf-complete asserts).
* C++ faults are outcomes, not totalised away: `Fault.ub k` (end() dereference, dangling
  iterator, out-of-bounds read/write, uninitialised read, ...), `Fault.assertion` (only in
  debug builds: CMake's default build type is Release, which compiles assertions out, so the model has
  a `dbg : Bool` parameter and theorems cover both), `Fault.fuel` (recursion bound; proved unreachable, C38).
* C++ exceptions are a separate error type carried next to the (possibly modified) state.
* Iterators stored by the code are modelled by the key they point to; using one whose key
  is gone is a fault.
* Callbacks append to an output log which is part of the state.
* The clock is an arbitrary function giving the k-th reading.
* The network is an adversarial scheduler choosing which emitted packet is delivered next.
* Arithmetic on `double` is a rounding function `F64.rnd : Rat → Rat` of which most theorems use only `F64.Ok`.
  `Model/Float.lean` gives the one of IEEE-754 (53 bits, ties to even, without limits of the exponent, which the values
  at hand do not approach); `ieee_ok` proves `F64.Ok` for it, and C51 is about it.

## Plan per property

| id | model | proof |
|----|-------|-------|
| C01 C02 C03 C04 C05 C43 | encoder + wire bytes + decoder + adversarial scheduler | the unrestricted claims are FALSE of the code (see "Disagreements"): negations with concrete honest-encoder executions; `_partial` theorems for every schedule of `Spec/Schedule.lean` (`Reach`), by a system invariant and induction over the schedule |
| C06 | packet readers on arbitrary byte lists | totality with explicit cursor; consumed <= length |
| C07 | decoder on arbitrary bytes | FALSE: crafted-packet witnesses; partial: any sequence of source packets is safe; on a decoder without repairs, exactly the repair packets that do no harm (`Spec/Crafted.lean`); on a decoder that holds repairs, exactly which repairs that are kept do no harm, by the same induction over the loop that links a repair, that sources for which no repair waits do no harm, and exactly which other sources do none if nothing is decoded with them (`Proofs/CraftedKept.lean`); for any bytes, the kinds of faults that remain (`Spec/Faults.lean`), by a Hoare-style pass over all functions of detail/decoder.cc |
| C08 C09 C10 C11 | writers/readers | round-trip laws by induction (RLE + prefix sums); C11 false for gaps >= 65536: negation + partial |
| C12 | readers | equality for ack/source; FALSE for repairs (trailing duplicate symbol): negation + exact value |
| C13 | readers and top-level objects | prefix argument + state frame |
| C14 | packet type, dispatch | case analysis over all bytes and states |
| C15 | coefficient | modular arithmetic |
| C16 | gf-complete model | linear algebra over GF(2): ring laws from commuting operators, inverses by a Berlekamp-style certificate checked on a basis |
| C17 | invert | loop invariants `inv * M0 = M`, kernel preservation |
| C18 C22 C23 C25 C26 C27 | encoder | invariants over all operation lists; C22 false when the window is shrunk: negation + partial |
| C19 C20 C44 | system | the state after a repair arrived, from the system invariant and linear algebra; C19 false for w = 32, C44 false for singular minors |
| C21 | multiply_size | proof for w <= 16, negation for w = 32 |
| C24 C29 C30 C31 C32 C33 C38 C45 C46 | decoder fed with arbitrary bytes | step theorems and invariants over all packet sequences; C46 by two simulations between decoders with and without ordering: one of the states, one of the data handed over (`Proofs/DecCover.lean`) |
| C28 | rate_for_loss with an abstract monotone rounding | arithmetic |
| C50 | encoder, decoder | invariants: each setting is a function of the list of calls |
| C51 | adaptive rate with IEEE-754 rounding | the rounding errors of the quotients cannot reach the next integer or the threshold, except at 1/98 (certificate table for loss rates near it); FALSE there and when the 16-bit counter wraps |
| C52 | decoder fed with arbitrary bytes | invariant relating the start of the window to everything held |
| C53 | system | consequence of the invariant of C04 and C24; FALSE with ordering and late sources: witness |
| C54 | decoder, encoder, system | simulation: the decoder with longer buffers for its repairs (`Proofs/Trail.lean`), for every history |
| C55 | decoder | FALSE: witness; partial: invariant over histories, every automatic ack is due to the count |
| C56 | encoder, system (`Model/Handlers.lean`) | handlers as oracles that throw; FALSE for commits: witnesses; partial: simulation by a run without exceptions whose packets are a superlist |
| C57 | decoder (`Model/Handlers.lean`) | the code of the decoder again, with exits that carry the state; simulation: cut after some callbacks; FALSE afterwards: witnesses |
| C58 | encoder, system (`Model/Reenter.lean`) | a commit cut at the two points where the handler runs; simulation: each state, with the identifier incremented, is reached without calls from within the handler (a commit with a large rate, then the calls); FALSE for commits and for acks that empty the window: witnesses |
| C59 | two sides of the accelerator example (`Model/Tunnel.lean`) | each direction is the closed system with bytes after the packets (C54), with either kind of schedule (`Permits`, `Reaches` of `Spec/Late.lean`), all packets fit in the buffers: invariant on both directions; FALSE for datagrams near the limits of UDP: witnesses |
| C60 | packetizer | a byte-level layout written without the functions of the model (`Spec/Layout.lean`); the runs are shown to be determined by three conditions |
| C61 | closed system | the invariant says that no source of the window is outdated for the decoder, so that what it knows it still holds and lists |
| C62 | encoder | invariant over the continuation: the source is not in the window, and all numbers given from now on are larger |
| C63 | closed system, late sources too | a run with the other data that leads to the same decoder (`Proofs/OtherRun.lean`), then C01 for both runs |
| C64 | closed system | FALSE: sources whose numbers are congruent modulo 2^w - 1 have equal coefficients, so that exchanging their data gives the same repairs (C63), for any number of repairs; partial: two other losses are recovered within 2^w repairs (modular arithmetic, C65 and induction over the repairs) |
| C65 | closed system | exact evolution of the repairs held when a repair arrives (too few: kept; independent: decoded; dependent: given up); FALSE: held repairs that depend on each other block the decoder for ever (left kernel of the coefficient matrix, induction over the number of repairs) |
| C66 | closed system whose packets are replaced by what a buffer holds of them (`Spec/Via.lean`) | invariant that compares three decoders: repairs as sent, as received, and without the bytes never read; the invariant of the closed system is proved for the third |
| C67 | the two programs of the one-way example (`Model/OneWay.lean`) | C66 with buffers of 4096 bytes; FALSE for datagrams near that size: witnesses for any history |
| C68 | closed system, decoder without ordering | the repairs held list nested sets, so the oldest one is left with a single source; its arrival finds the assertion of `remove_source_data_from_repair` |
| C69 | closed system, decoder | an overtaken repair is ignored, or keeps the invariant of the decoder (the repairs held still list nested sets); the two other cases from the model of `operator()(repair)`; that these are all of them from the nesting of windows |
| C70 | closed system over a network without reordering (`Spec/Line.lean`) | such schedules meet the limits of `Spec/Schedule.lean`, so the theorems on `Reach` apply; a source that arrives is never outdated, since all repairs before it were emitted before it |
| C71 | `tools/lossy_proxy.cc` and `tools/loss/*` (`Model/Tools.lean`); numbers drawn are parameters | induction on the datagrams and on the lines of the file; with an encoder and a decoder: refinement to C70. FALSE for some settings of the percentages |
| C72 | `tools/source_forwarder.cc` (`Model/Tools.lean`) | what is read from a source packet followed by any bytes; C26 for the packets of an encoder. FALSE for long and for short datagrams |
| C73 | `m_sources`, `m_missing_sources`, `m_repairs` of the decoder | the invariant of the closed system (what is kept lies between the newest repair's first source and the last commit; keys are distinct) and counting. FALSE without repairs: induction on the number of commits of a run without a repair |
| C74 | `generate_ack`, `maybe_ack` and `decoder(packet)` with a packet handler that throws (`Model/AckThrow.lean`) | simulation: the decoder after the exception and the one without it differ only in the identifiers in store, and after the next ack only in that ack; for an encoder and a decoder, each such call is one that runs out of memory (C100), so the invariant is kept (`Props/AckThrowRun.lean`). FALSE inside `decoder(packet)` |
| C75 | the rate of `notify_impl` and the repairs of `commit_impl` | the exact rate (C51), an inequality about it by cases on the rate, and induction on the commits that follow the ack. FALSE when more than a third of the packets are lost |
| C76 | identifiers of 32 bits | the invariant of lossless runs below 2^32 data. FALSE beyond: from the state after 2^32 - 1 data (induction), five more steps, for all fields and data |
| C77 | `handle_source` with a handler that calls the decoder (`Model/DataCalls.lean`) | simulation for any packets; the invariant of the closed system for acks asked for by the handler. FALSE for packets given from the handler |
| C78 | encoder, decoder and network (`Model/System.lean`) | invariant: what is neither in the window nor the start of a repair is known to the decoder |
| C79 | the two end-to-end test programs (`Model/EndToEnd.lean`) | every call they make is one of C70 and C78, by induction over rounds, or over schedules of the threads |
| C80 | encoder, decoder and network (`Model/System.lean`) | induction: when a repair arrives, all it lists is known but the one packet lost since the last repair, and C70 recovers it |
| C81 | the basic examples (`Model/BasicEx.lean`) | induction over the data: what a round emits starts with the source, and the decoder ignores the rest of a packet; every source arrives, so C70 applies |
| C82 | restarts (`Model/Restart.lean`, `Spec/Restart.lean`) | what the encoder does next does not depend on what it emitted; so a new decoder meets the invariant of C01 with the set of acknowledged sources empty. FALSE for encoders and for what outlives a decoder: witnesses |
| C83 | runs in which no ack reaches the encoder (`Spec/Wait.lean`) | without acks the window is the last `W` numbers, so that a repair never lists sources that are `W` apart; with C04 and the invariant of C01. FALSE when acks arrive: by induction on the data committed after two losses that C64 shows to be unrecoverable |
| C84 | the length of the bytes of each packet (`Props/Length.lean`) | from the layouts (C60), the meaning of repairs (C18), the bound of the window (C22), and for runs without acks the consecutive windows of C83. FALSE for repairs, whose symbol is written twice |
| C85 | a program that uses the C interface (`Model/CProg.lean`) and how it does what a C++ program does (`Spec/CProg.lean`) | a relation between the objects of both programs that each step keeps: the packet object is one the library made or one that was moved from (C34), the calls are those of C36. FALSE for long data |
| C86 | an encoder and any number of decoders (`Model/Multi.lean`), acks from some of them (`Spec/Multi.lean`) | projection: the steps of other decoders without acks are no steps of the pair, those of the encoder are steps of all pairs. FALSE with the acks of another decoder |
| C87 | an encoder and a decoder with different fields (`Model/Mixed.lean`), packets in order and without losses (`Spec/Mixed.lean`) | in the states of C40 the decoder does the same with the next packet whatever its field, so the runs are the same. FALSE with a loss |
| C88 C89 | decoder fed with arbitrary bytes | relations between the states before and after each function of detail/decoder.cc: what is handed over is held, only `drop_outdated` removes sources; and an invariant: all numbers in the decoder were named by a packet (`Proofs/Keep.lean`). With an invariant of the encoder alone (`Proofs/AnySched.lean`) these give C24 and C61 for all schedules (`Props/AnySched.lean`) |
| C90 | a decoder that records its packets, and all of `tools/replay.cc` (`Model/Replay.lean`) | the loop reads back each packet (C35); the decoders of both differ in their acks only, which no decoding depends on. FALSE for the last packet, after an exception, for other fields and without ordering |
| C91 | `generate_ack` and `maybe_ack` with a packet handler that calls the decoder (`Model/AckCalls.lean`) | as C77, with the ack that is not yet reset in the invariant. FALSE for handlers that ask again and again, and for the counts of packets |
| C92 | `maybe_ack` with the 64-bit arithmetic of `std::chrono` (`Model/AckPeriod.lean`) | invariant: the last date is a reading of the clock and the period fits; then both models agree for all histories. FALSE for longer periods |
| C93 | encoder, decoder and network (`Model/System.lean`), the calls of each end of a run (`Spec/Ends.lean`) | induction over the run; the theorems on histories of one object (C29, C50) then apply to runs |
| C94 | encoder with any calls and any bytes (`Spec/EncHist.lean`, `Spec/EncSafe.lean`) | an invariant: rate and window size are not 0, the window holds committed data; each function then returns. Repairs that are asked for fail with an empty window, which a made-up ack may cause: FALSE |
| C95 | `tools/udp_generator.py`: client, check and server (`Model/Generator.lean`) | a datagram passes the check exactly if it is the one of the client; induction over what arrives. With the theorems on the accelerators (C59, C67). Sizes that are no multiples of 4 or above 4096: FALSE |
| C96 | Histories of one encoder (`Enc.after`) | the window is characterised by induction over the history from its last call, with `Acked` (an ack after the commit names the source) as specification; two windows with the same members are equal since both are sorted by identifier. That the room and the order of commit and ack are needed: `C96_needs_room`, `C96_needs_commit`. |
| C97 | `main` of the five programs up to the making of the sockets (`Model/Main.lean`): `atoi`, the casts, `strncmp`, `argv` with its null pointer | case by case from the arguments; a lemma that `strncmp` with one more than the length of the literal compares whole strings; decimal numerals as specification (`Spec/Main.lean`). The resolution of names is left out: the name and the service are handed on. |
| C98 | the addresses of both sides of the tunnel on top of `Model/Tunnel.lean` (`Model/Peers.lean`) | an invariant over all runs: the server has been heard of only by what the client sent, which the client sends only once its application spoke; datagrams of strangers are steps of the model too. |
| C99 | `galois_field::multiply`, `multiply_add`, `multiply_size`, `detail::encoder`, `commit_impl`, `mk_repair` and all of `detail::decoder` that multiplies on a big-endian machine (`Model/ByteOrder.lean`, `Model/ByteOrderDec.lean`): regions are multiplied with the bytes of each word reversed | with 4 and 8 bits the functions are equal, so are all runs; concrete runs for 16 and 32 bits; for two machines of the other order, a simulation by little-endian ones with the words of all data reversed (`Spec/ByteOrder.lean`, `Proofs/Swap*.lean`; while only sources have arrived, runs that differ in the symbols of repairs only, `Proofs/SwapSrc.lean`): every function of the encoder and the decoder commutes with the reversal, and the bytes that follow a symbol in a packet are shown not to matter by relating both runs to a third one without them |
| C100 | `commit_impl`, `generate_repair`, `notify_impl`, and in part `detail::decoder`, in calls in which an allocation fails (`Model/NoMem.lean`, `Model/NoMemDecode.lean`) | the invariant of the closed system is kept by a failing call; a full window loses its oldest source earlier, which the next commit would have removed; concrete runs for repairs within commits |
| C101 | the addresses of the two programs on top of `Model/OneWay.lean` (`Model/WayPeers.lean`) | an invariant over all runs: no ack is made before a packet of the sender arrived |
| C34 | packet class | simulation with a plain vector over all operation sequences |
| C35 C47 | serializer, replay tool | round trip; C35 false beyond 65526 bytes, C47 false |
| C36 C37 C48 C49 | check_error and the C functions | decision logic; C37 false (delete of new[] memory, no NUL, dangling pointer), C48 false (constructors that throw) |
| C39 | attempt_full_decoding | exactly one repair dropped; "carries no information" is FALSE: witness |
| C40 | system with first-in first-out channels (`FifoReach`) | its own invariant: the whole state is a function of the number of packets received |
| C41 | generate_repair | FALSE on an empty window: witness; safe iff non-empty |
| C42 | encoder_source size | FALSE beyond 65535 bytes: witness; positive below |

## Disagreements between the code and the properties

Each is proved as a theorem on a concrete execution, or on all executions of a kind; the `_partial` theorem beside it
says what remains true.

| theorem | what happens |
|---------|--------------|
| `C01_false`, `C43_false`, `C69_false_single` | repairs that arrive out of order: when a repair is reduced to one source, the missing source is erased from `m_missing_sources` before `add_source_recursive` is called, which then removes it from no other repair; the next full decoding delivers wrong bytes |
| `C01_false_w32`, `C19_false_w32`, `C20_false_w32`, `C05_false_w32`, `C21_false` | field size 32: the product of a size and a coefficient is truncated to 16 bits; data are delivered truncated, are lost, or memory is read out of bounds, with no reordering at all |
| `C02_false`, `C03_false`, `C69_false_back` | an older repair moves the start of the decoder's window back, outdated sources are decoded and delivered again, or out of order |
| `C04_false`, `C29_false`, `C29_late_false` | ordering, one source overtaken by one repair: a source is never delivered |
| `C04_late_false`, `C53_false` | the same within the limits of the other theorems; the source lost was acknowledged, so that the encoder no longer has it either |
| `C05_false_dangling` | reordered repairs: the scan of missing sources continues with an erased iterator |
| `C05_false_assertion`, `C05_false_deref` | a source overtaken by two repairs (a clash, C68): failed assertion (debug), `end()` dereferenced (release) |
| `C07_false_*` | crafted repairs: `*begin()` of an empty set, read and write out of bounds |
| `C09_false`, `C10_false`, `C11_false` | two consecutive identifiers 65536 or more apart do not survive the wire format |
| `C12_repair_bytes_false` | the number of bytes read reported for a repair leaves out the symbol |
| `C22_false` | `set_window_size` with a size smaller than the current window disables the bound for ever |
| `C33_false` | the number of packets in an ack wraps around at 65536 |
| `C34_huge_resize` | `resize(2^64 - 1)` leaves a packet with 8 bytes of storage (a vector throws `length_error`); outside the limits of C34 |
| `C35_false` | the length of a dumped packet of 65527 bytes or more is truncated |
| `C37_false_*` | error messages: `delete` of `new[]` memory, no terminating NUL, pointer left dangling |
| `C39_false`, `C44_false` | a failed full decoding gives up the last repair even when another one is the redundant one; two distinct repairs may be dependent |
| `C41_false*` | `generate_repair` on an empty window: assertion or `end()` dereferenced |
| `C42_false`, `C42_truncated` | data of 65536 bytes or more are truncated |
| `C47_false` | the replay tool drops the last packet of every dump |
| `C48_false*` | C constructors end the program instead of returning null when the C++ constructor throws |
| `C55_false` | an ack period of zero does not disable automatic acks (decoder.hh:252) |
| `C56_false_commit`, `C56_false_retry`, `C56_false_auto` | an exception of the packet handler in a commit leaves the source in the window under an identifier that the next commit reuses; repairs then mix both data and a decoder hands over neither |
| `C57_false_next` | an exception of the data handler during a full decoding leaves the repairs and missing sources in place; the next packet meets an assertion or undefined behaviour |
| `C57_false_terminate` | `drop_outdated` is `noexcept` but calls the data handler: an exception ends the program |
| `C58_false_ack` | an ack given to the encoder by its own packet handler may empty the window before the automatic repair of the same commit: assertion or undefined behaviour |
| `C58_false_commit` | a commit made by the packet handler uses the identifier of the commit that is under way |
| `C59_false_long` | a datagram of 32749 bytes or more makes a repair longer than a UDP datagram: `send_to` throws and the program ends |
| `C59_false_cut` | a datagram of 65498 to 65500 bytes is sent in a packet longer than the buffer of the receiver: `overflow_error` ends the program |
| `C64_false_congruent`, `C64_false_more`, `C64_false_many` | the coefficient depends on the number of the source modulo 2^w - 1 only (while the product does not overflow): sources 0 and 15 in GF(2^4), or 0 and 255 in GF(2^8), are never recovered when both are lost, nor are 2^w or more losses in one window |
| `C64_false_same_repair` | repairs of one window repeat, up to their number, after 2^w - 1 repairs: 15 in GF(2^4), 255 in GF(2^8) |
| `C65_false`, `C65_false_stuck` | repairs are only checked against each other when they are as many as the unknown sources, and the last one is then given up: with three losses in GF(2^4), repairs 1 and 2 depend on each other, stay, and all later repairs are given up; the sources are never recovered although repairs 1, 3 and 4 determine them |
| `C67_false_cut`, `C67_false_repair` | the one-way receiver has a buffer as long as that of the sender, so the packet of a datagram of 4090 to 4096 bytes, or a repair after one of 4082 or more, is cut there: `overflow_error` ends the program |
| `C71_false_uniform`, `C71_false_burst` | `loss::uniform` asserts that the percentage is neither 0 nor 100; `loss::burst` compares with `<` numbers from 1 to 100, so that p_good = 100 still loses one packet in a hundred and p_bad = 100 lets one in a hundred pass |
| `C72_false_short`, `C72_false_long` | the forwarder does not resize its buffer to the length of the datagram: of one that announces more than it has, uninitialized memory is sent on; a source packet of more than 4096 bytes is cut and ends the program |
| `C73_false` | only repairs make a decoder forget sources: with a window of one source and nothing lost it keeps any number N of them if no repair is sent |
| `C74_false_twice` | an exception for the ack that the arrival of a source causes leaves `detail::decoder` before the source is stored, after its datum was handed over: it is handed over again when the packet is repeated |
| `C75_false` | two packets of five lost: the rate becomes 2, one repair in three packets, less than the losses |
| `C76_false` | the datum committed after 2^32 others gets the identifier 0, which the decoder takes for outdated: it is never handed over although nothing was lost |
| `C76_false_twice` | with ordering, the datum committed after 2^32 - 1 others is handed over, and, because the next number to hand over is then 0, also withheld; the repair that follows it has it handed over again, over a network that loses and repeats nothing |
| `C76_false_repairs` | the repair emitted after 2^32 others has the number 0 again; a decoder that still holds the first repair 0 takes it for a duplicate, so that a source, the only one of this repair that it does not know, is not handed over |
| `C77_false_again`, `C77_false_other` | the callback runs before the source is in `m_sources`: a data handler that gives the decoder a copy of the packet being handled, or another source that completes a repair of both, is given the same datum twice; with assertions the program stops |
| `C81_false_long`, `C81_false_fifth` | c_basic.c with a datum of more than 1017 bytes, or a fifth one of 333: it writes past the end of its packet of 1024 bytes |
| `C82_false_old_ack`, `C82_false_old_packet` | the program with the decoder is restarted while an ack, or a packet emitted before an ack, is under way: although nothing is reordered, the new decoder hands over bytes that were never committed |
| `C82_false_new_encoder` | the program with the encoder is restarted: its first data are ignored, and its repairs are combined with data of the first encoder |
| `C82_false_waits` | a new decoder that is asked for ordering waits for a source that an earlier decoder acknowledged |
| `C83_false_stall`, `C83_false` | with ordering and acks, two losses whose numbers differ by a multiple of 2^w - 1 stop the delivery for good: the acks of all later data keep the window from filling, so that the two are neither recovered nor given up |
| `C84_false` | a repair packet carries its symbol twice (packetizer.hh:102-106 and 114-118), so that it is more than twice as long as the data |
| `C85_false` | sizes in the C interface are `uint16_t` (c/packet.cc:53-58), but repairs of data of 32760 bytes or more are longer than 65535 bytes: a C program cannot give them to its decoder |
| `C85_false_size` | `ntc_packet_get_size` of a packet that `ntc_decoder_add_packet` took is 65527: the size of a packet that was moved from is 2^64 - 9 (packet.hh), cut to 16 bits |
| `C86_false` | acks do not say whose they are: what one decoder acknowledged leaves the window, so that another decoder gets a repair of a single source while it holds one that lists this source and the acknowledged one (as in `C82_false_old_ack`); it hands over data that were never committed |
| `C87_false`, `C87_false_ub` | packets do not tell the size of the field: a decoder with another one decodes repairs with other coefficients and products, so that sizes and bytes are wrong; the size may exceed the repair, and the decoder reads outside of it |
| `C90_false_last`, `C90_false_throw`, `C90_false_order`, `C90_false_field` | tools/replay.cc tests for the end of the file before it uses the packet it read; it ends at the first exception, where the recorded program may have gone on; the size of the field (8) and the ordering of its decoder are fixed, and the file does not tell those of the recorded one |
| `C91_false_maybe`, `C91_false_count` | `generate_ack` resets the ack, and `maybe_ack` takes note of its date, only after the packet handler returned: a packet handler that calls `maybe_ack` recurses without end, and one that asks for an ack has the same packets reported twice |
| `C92_false`, `C92_false_c` | `now - m_last_ack_date >= m_ack_period` converts milliseconds to nanoseconds in 64 bits: a period of more than 292 years, as `milliseconds::max()`, is undefined behaviour; `ntc_decoder_set_ack_period(SIZE_MAX)` is a period of -1 ms, so that an ack is sent each time |
| `C61_false` | of 65538 sources only the first and the last arrive: differences of identifiers have 16 bits, so that the ack of 0 and 65537 is the ack of 0 and 1, for all fields and data |
| `C01_false_gap`, `C63_false` | sources 0 and 65537 are lost, all between them arrive and are acked: the repair of the two is read as a repair of 0 and 1, and a datum never committed is handed over, with no packet out of order; what was received does not determine it |
| `C94_false` | an ack that somebody made up empties the window; `generate_repair()`, which the application has no means to guard but `window()`, then encodes nothing: `C41_false` |
| `C95_false_size` | `udp_generator.py` with a size that is no multiple of 4, or above 4096 bytes (the server's `recvfrom` cuts there): the server rejects what the client sends |
| `C95_false_many` | `to_bytes` of a number of 2^32 or more raises `OverflowError`, which ends the client |
| `C97_false_port`, `C97_false_word`, `C97_false_burst`, `C97_false_percent`, `C97_false_negative` | `static_cast<unsigned short>(std::atoi(...))` reduces ports modulo 65536, takes words for 0 and is undefined for numbers of 2^31 or more; `lossy_proxy ... burst p_good p_bad` with seven arguments reads `argv[7]` (null) and `argv[8]`; `uniform` above 100 percent loses nothing; negative ports and percentages wrap around |
| `C98_false_stranger`, `C98_false_two`, `C98_false_eager` | `async_receive_from` overwrites the endpoint that the handlers send to: any datagram, even an empty one, redirects all that is sent; before the first one the endpoint of the server is not set and `send_to` throws |
| `C99_false`, `C99_false_w32` | packets are converted to one byte order, but with fields of 16 and 32 bits the words of symbols are multiplied in the order of the machine: a little-endian decoder given a source and a repair of a big-endian encoder, or the other way round, hands over a datum that was never committed, without any error |
| `C100_false`, `C100_false_next`, `C100_false_first` | `commit_impl` increments the number of the source last: if there is no memory for a repair that it makes, the source is in the window and was perhaps sent, and the next commit uses the same number.  The next repair then has this number twice; a datum given again cancels out (an empty datum is handed over), the next datum is never handed over |
| `C100_false_decoder` | `add_source_recursive` hands a datum over before it allocates the node that remembers it: without memory, a copy of the packet is handed over again |
| `C100_false_links` | a repair is kept before it is linked with the sources it needs: if there is no memory for a link, `drop_outdated` later dereferences `find(src_id)` of a source without links (undefined behaviour) |
| `C100_false_matrix` | the matrices are allocated when there are as many repairs as missing sources: if there is no memory, both stay, and the next repair makes one repair too many, so that `attempt_full_decoding` leaves entries of the matrix unwritten and inverts it (an assertion fails in debug mode) |
| `C100_false_decoded` | `attempt_full_decoding` hands sources over one by one and removes them from the missing ones at the end: if there is no memory for one of them, the ones before it are decoded and handed over again by the next call |
| `C100_false_terminate` | `create_source_from_repair` is `noexcept` and allocates the packet of the source: without memory `std::terminate` is called, no exception reaches the caller |
| `C101_false_sender`, `C101_false_receiver` | as C98: `async_receive_from` overwrites the endpoint that the handlers send to |
| `C66_false` | in GF(2^32) a repair of a datum of 36 bytes stands for one of 92 (sizes lose their upper bits): the decoder reads outside of the packet, or, if bytes follow it in the buffer, hands those over |
| `C51_false` | one packet out of 98 lost: rounding makes the rate 50 instead of 49 |
| `C51_wrap_false` | the number of packets sent between two acks wraps around at 65536: everything lost, rate 50 |

Limits of the positive end-to-end theorems (`Spec/Schedule.lean`): repairs arrive in emission order (any may be lost or
duplicated), and one that newer ones have overtaken only if it does no harm (`Dec.Harmless`; C69 shows that this limit is exact); a source is overtaken by at most one repair, or by several if
this is no clash (`Dec.NoClash`; C68 shows that without ordering this limit is exact); with ordering see `Spec/Late.lean`
(for C04 and C53: overtaken by none); identifier lists that the wire format
can carry; for w = 32, sizes whose products with the coefficients fit in 16 bits; fewer than 2^32 data and repairs.  C40
is about channels without loss nor reordering; there the data are at most 65535 bytes and the identifier lists at most
16 million long.

## Trusted base

* Lean 4.33.0's kernel.  No axiom of our own; every theorem of `MANIFEST.json` depends on a subset of `propext`,
  `Classical.choice` and `Quot.sound` (`#print axioms`).  No `sorry`, `native_decide`, `bv_decide`, `implemented_by`,
  `unsafe`.
* The faithfulness of the hand-written model to the code.  Each definition cites the lines it models.
  `Conform/*.lean` run the unit tests of /repo/tests on the model (tests, not proofs; not listed in `MANIFEST.json`): on their
  inputs the model gives the results the project requires of the code, for the four fields.  Left out: the tests of the
  allocator of buffers, and the C test of a constructor.  The end-to-end programs, whose inputs are random, are modelled
  (`Model/EndToEnd.lean`) and proved to pass (C79).
* The contract of gf-complete: `GF w`, regions as in `Model/GF.lean`, `gf_init_easy` as a parameter (C48).
* The contract of the containers of Boost and of the standard library, as stated in `Model/Basic.lean` and
  `Model/Packet.lean`.  In the loop of decoder.cc:102-130 a reverse iterator is used after the element before it was erased from
  a `flat_set`; this works when iterators are pointers into one array, which is assumed.
* Allocators that align on 16 bytes as they are told to.  Addresses are not modelled; symbols start at the beginning of a buffer or 16 bytes
  after it, so that all regions given to gf-complete are aligned and the assertion of encoder.cc:23 holds.
* A little-endian machine with 64-bit `size_t` (the code's target: gf-complete with SSE); machines of the other byte order are in C99 only.

Modelled: `detail/{decoder,encoder,galois_field,invert_matrix,packetizer,packet_type,source_list,repair,source,ack,
serialize_packet,symbol_alignment,buffer,square_matrix}`, `encoder.hh`, `decoder.hh`, `dispatch.hh`, `packet.hh`,
`data.hh`, `errors.hh`, `c/*`, `tools/replay.cc`, `examples/accelerator/transcoder.hh` and `examples/accelerator-oneway/{sender,receiver}.cc`, `tools/lossy_proxy.cc`, `tools/loss/*`, `tools/udp_generator.py` and `tools/source_forwarder.cc` (sockets as datagrams; statistics left out; endpoints of the accelerators in `Model/Peers.lean` and `Model/WayPeers.lean`), `main` of the programs (`Model/Main.lean`; resolution of names and the options of sockets left out), `tests/end_to_end.cc` and `tests/end_to_end_mt.cc`, `examples/basic/{cpp_basic.cc,c_basic.c}`.

Not modelled: memory exhaustion inside the library other than in C36, C37, C48 and C100 (all allocations of an encoder, most of those of a decoder); handlers that call back into the library before a packet is complete, or that give packets to a decoder from its own packet handler (data handlers that call the decoder are in `Model/DataCalls.lean`,
packet handlers that ask it for acks in `Model/AckCalls.lean`, data handlers
and packet handlers that throw are in `Model/Handlers.lean` and `Model/AckThrow.lean`, calls at the end of a packet of an encoder in `Model/Reenter.lean`); capacity and reallocation of vectors, hence iterators of users into
packets; timing other than the clock readings; several threads (other than those of C79, which share only locked queues); `m_cache`-like reuse of buffers, which has no effect on
contents except where a stale entry could be read (`UB.staleRead`); the other examples, tests and tools; the
Doxygen files.

This file is updated as the work proceeds.
