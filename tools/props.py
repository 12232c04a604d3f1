#!/usr/bin/env python3
# Source of properties.jsonl (one tuple per property); run to regenerate it.
import json,sys
P=[]
def p(title, statement, quantifier, why, anchors):
    P.append(dict(id="C%02d"%(len(P)+1), title=title, statement=statement, quantifier=quantifier, why_tests_cant=why, anchors=anchors))

p("End-to-end integrity",
  "Every byte string an ntc::decoder hands to its data handler is byte-for-byte one of the data committed to the peer ntc::encoder, whether it arrived as a source or was rebuilt from repairs.",
  "all committed data, all encoder settings, all acks, all loss/duplication/reordering patterns of the packets the encoder emitted",
  "the number of histories is unbounded and corruption needs a particular interleaving of repairs",
  ["netcode/decoder.hh: decoder::operator()", "netcode/encoder.hh: encoder::commit_impl", "netcode/detail/decoder.cc: attempt_full_decoding, create_source_from_repair, operator()(decoder_repair&&)"])
p("At-most-once delivery",
  "No committed datum is handed to the data handler more often than it was committed.",
  "all histories of an encoder/decoder pair over a lossy, duplicating network",
  "duplicates require the decoder to forget a source and accept it again; only particular repair orders do that",
  ["netcode/detail/decoder.cc: operator(), drop_outdated (m_last_id)"])
p("In-order mode delivers in commit order",
  "A decoder constructed with in_order::yes hands data to its handler in the order in which they were committed (some may be skipped, none is swapped or repeated).",
  "all histories of an encoder/decoder pair over a lossy, duplicating network",
  "order violations depend on the interleaving of sources, repairs and window moves",
  ["netcode/detail/decoder.cc: add_source_recursive, flush_ordered_sources, drop_outdated, attempt_full_decoding"])
p("In-order mode withholds nothing deliverable",
  "In in_order::yes mode a datum the decoder holds (received or decoded) is handed over as soon as every older datum has been handed over or has been outdated by the encoder's window; it is never silently dropped.",
  "all histories of an encoder/decoder pair over a lossy, duplicating network",
  "a lost hand-over shows only when a source arrival triggers the decoding of its predecessors",
  ["netcode/detail/decoder.cc: add_source_recursive lines 252-336, flush_ordered_sources"])
p("No undefined behaviour or failed assertion on genuine traffic",
  "Feeding a decoder packets emitted by an encoder of the same field size never triggers undefined behaviour (dangling iterator, end() dereference, out-of-bounds access) nor a failed assertion.",
  "all histories of an encoder/decoder pair over a lossy, duplicating network, both build modes",
  "use-after-free and end() dereference depend on rare interleavings and may go unnoticed when they happen",
  ["netcode/detail/decoder.cc: add_source_recursive loop, drop_outdated, remove_source_data_from_repair"])
p("Parsing arbitrary bytes never overruns",
  "For every byte string given to an encoder or decoder, parsing either succeeds or raises packet_type_error/overflow_error; it never reads outside the packet and never reports more consumed bytes than the packet holds.",
  "all non-empty byte strings (the API takes packets that hold at least the type byte)",
  "the input space is all byte strings",
  ["netcode/detail/packetizer.hh: read_ack, read_repair, read_source, read_ids, read", "netcode/detail/packet_type.hh: get_packet_type"])
p("Hostile repairs cannot corrupt memory",
  "A decoder fed arbitrary (possibly crafted) packets never reads or writes outside the packets' buffers.",
  "all sequences of byte strings",
  "the input space is all sequences of byte strings",
  ["netcode/detail/decoder.cc: create_source_from_repair, remove_source_data_from_repair, operator()(decoder_repair&&)"])
p("Source packets round-trip",
  "What write_source emits for a source with id i and data d, read_source parses back as id i, data d, having consumed the whole packet; the layout is type(1) id(4, big-endian) size(2, big-endian) data.",
  "all ids and all data the API accepts",
  "all ids and all data",
  ["netcode/detail/packetizer.hh: write_source, read_source"])
p("Repair packets round-trip",
  "What write_repair emits, read_repair parses back to the same id, source-id set, encoded size and symbol.",
  "all repairs the encoder can build",
  "all id sets, symbols and sizes",
  ["netcode/detail/packetizer.hh: write_repair, read_repair"])
p("Ack packets round-trip",
  "What write_ack emits, read_ack parses back to the same packet count and source-id set, having consumed the whole packet.",
  "all acks the decoder can build",
  "all id sets",
  ["netcode/detail/packetizer.hh: write_ack, read_ack"])
p("Identifier-list compression is lossless",
  "The run-length/adjacent-difference encoding of a set of 32-bit identifiers decodes to the same set.",
  "all finite sets of 32-bit identifiers",
  "all sets; run length 255/256 and 16-bit difference boundaries",
  ["netcode/detail/packetizer.hh: write(const source_id_list&), read_ids"])
p("Number of consumed bytes",
  "The value returned when a packet is given to an encoder/decoder is the number of bytes of that packet.",
  "all packets emitted by the peer",
  "all packets",
  ["netcode/detail/packetizer.hh: read_*", "netcode/encoder.hh: notify_impl", "netcode/decoder.hh: operator()"])
p("Truncated packets are rejected without effect",
  "Giving a decoder/encoder a strict prefix (up to the last byte it needs) of a genuine packet raises overflow_error and changes neither the decoding state, the data handed out, nor the encoder window.",
  "all genuine packets, all truncation points, all states",
  "every truncation point of every packet in every state",
  ["netcode/detail/packetizer.hh: read_*", "netcode/decoder.hh: operator()", "netcode/encoder.hh: notify_impl"])
p("Packet-type routing",
  "An encoder accepts only acks, a decoder only sources and repairs; anything else raises packet_type_error and leaves the object completely unchanged; dispatch() routes each packet to the object that accepts it.",
  "all non-empty byte strings, all states",
  "all first bytes in all states",
  ["netcode/detail/packet_type.hh", "netcode/dispatch.hh", "netcode/encoder.hh: notify_impl", "netcode/decoder.hh: operator()"])
p("Coefficients are valid non-zero field elements",
  "For each repair id and source id, the coding coefficient is non-zero and smaller than 2^w, so each repair really depends on each source it lists.",
  "all 32-bit repair ids and source ids, all field sizes",
  "2^64 pairs per field size, wrap-around of 32-bit arithmetic",
  ["netcode/detail/galois_field.hh: coefficient"])
p("Galois-field arithmetic",
  "Scalar multiplication/inversion on w-bit words with xor as addition satisfies the field laws for w = 4, 8, 16, 32, and region multiplication acts word-wise, so that dividing undoes multiplying.",
  "all field elements, all regions",
  "2^96 triples for w = 32",
  ["netcode/detail/galois_field.hh: multiply, multiply_add, invert"])
p("Matrix inversion is correct",
  "invert() reports success exactly on the non-singular matrices, and then yields the inverse.",
  "all square matrices of all dimensions over all supported fields",
  "all matrices of all dimensions",
  ["netcode/detail/invert_matrix.cc: invert", "netcode/detail/square_matrix.hh"])
p("A repair encodes exactly the encoder's window",
  "Each repair packet emitted lists exactly the identifiers currently in the window and carries the coefficient-weighted sum of their zero-padded data and of their sizes.",
  "all encoder histories",
  "all histories of commits, acks and configuration changes",
  ["netcode/encoder.hh: generate_repair, mk_repair", "netcode/detail/encoder.cc: operator()"])
p("A single loss is always recovered",
  "If all sources listed by a repair but one are known to the decoder, receiving that repair recovers the missing one exactly, size included.",
  "all windows, all missing positions, all data, all repair ids",
  "all windows and data",
  ["netcode/detail/decoder.cc: operator()(decoder_repair&&), create_source_from_repair, remove_source_data_from_repair", "netcode/detail/galois_field.hh: multiply_size"])
p("n losses are recovered from n independent repairs",
  "When as many repairs as missing sources are held and their coefficient matrix is non-singular, all the missing sources are recovered exactly at once.",
  "all numbers of losses, all windows, all data",
  "unbounded dimension",
  ["netcode/detail/decoder.cc: attempt_full_decoding"])
p("Size recovery",
  "The size of a lost datum is recovered exactly from the repair's encoded size, for every field size.",
  "all sizes 1..65535, all coefficients, field sizes 4, 8, 16, 32",
  "the failure for w = 32 needs large coefficients, which tests with few packets never reach",
  ["netcode/detail/galois_field.hh: multiply_size"])
p("Window bound",
  "window() never exceeds the configured window size.",
  "all encoder histories",
  "all histories, in particular those which change the window size mid-stream",
  ["netcode/encoder.hh: commit_impl, set_window_size"])
p("An ack removes exactly the sources it names",
  "After an ack the window consists of the previous sources that the ack does not name, in the same order; repeating an ack or exchanging two acks makes no difference.",
  "all windows, all acks",
  "all pairs of sorted lists",
  ["netcode/detail/source_list.hh: erase", "netcode/encoder.hh: notify_impl"])
p("Acks name only sources the decoder has",
  "Each identifier in each emitted ack is one whose data the decoder received or decoded, and each source it still holds is named.",
  "all packet sequences given to a decoder, all calls to generate_ack/maybe_ack",
  "all histories",
  ["netcode/decoder.hh: generate_ack", "netcode/detail/decoder.cc"])
p("A source leaves the window only by ack or overflow",
  "A committed source stays in the window (and hence in each later repair) until an ack names it or the window limit evicts it, oldest first; the newest datum is always in the window right after its commit.",
  "all encoder histories",
  "all histories",
  ["netcode/encoder.hh: commit_impl, notify_impl", "netcode/detail/source_list.hh"])
p("Source numbering",
  "The k-th committed datum gets identifier k; in systematic mode a source packet with identifier k and the unmodified data is emitted at once.",
  "all encoder histories",
  "all histories",
  ["netcode/encoder.hh: commit_impl"])
p("Repair cadence",
  "With constant rate r, n commits emit exactly n/r automatic repairs (plus n repairs in non-systematic mode); nb_sent_repairs/nb_sent_sources count the packets emitted.",
  "all n, r > 0 and histories",
  "all n and r",
  ["netcode/encoder.hh: commit_impl, generate_repair"])
p("Adaptive rate stays in [1, 50]",
  "In adaptive mode each ack sets the rate to a value between 1 and 50, never 0 (a rate of 0 would divide by zero), is 50 below 1% loss and is antitone in the loss.",
  "all numbers of sent and acknowledged packets",
  "2^32 pairs and floating point rounding",
  ["netcode/encoder.hh: notify_impl, rate_for_loss"])
p("Statistics are exact",
  "nb_received_sources/repairs count the packets given by type (truncated ones included), nb_sent_acks the acks emitted, and nb_decoded the data recovered from repairs: data handed out (or held and still withheld by ordering) = fresh sources received + nb_decoded.",
  "all packet sequences",
  "all histories",
  ["netcode/decoder.hh", "netcode/detail/decoder.cc: m_nb_decoded, m_nb_useless_repairs, m_nb_failed_full_decodings"])
p("Duplicate and outdated packets are ignored",
  "A source already held, a source older than the window start of the last repair, a repair already held and a repair wholly older than that start change nothing and deliver nothing.",
  "all decoder states, all such packets",
  "all states",
  ["netcode/detail/decoder.cc: operator()"])
p("Immediate delivery when order is not requested",
  "With in_order::no a fresh, not outdated source packet is handed to the data handler during the call, as the first delivery, with exactly the packet's data.",
  "all decoder states, all source packets",
  "all states",
  ["netcode/detail/decoder.cc: operator()(decoder_source&&), add_source_recursive"])
p("Useless repairs are free",
  "A repair all of whose sources are known is counted useless, delivers nothing new out of it, and its symbol is never used.",
  "all decoder states, all such repairs",
  "all states",
  ["netcode/detail/decoder.cc: operator()(decoder_repair&&) lines 77-89"])
p("Ack triggering",
  "maybe_ack sends an ack exactly when the number of packets since the last ack reaches the configured count, or the (non-zero) period has elapsed; the ack reports the number of packets received since the previous one; the configured count is clamped to 128.",
  "all states, clock readings and settings",
  "all clock readings",
  ["netcode/decoder.hh: maybe_ack, generate_ack, set_ack_nb_packets"])
p("ntc::packet behaves like a byte vector",
  "Any sequence of packet operations (assign, resize, push_back, clear, indexing, ...) is indistinguishable through size/data/[]/begin/end from the same sequence on a plain byte vector as long as sizes stay below 2^63-9 bytes; the symbol always starts 7 bytes after data(), on a 16-byte boundary; resize, clear and assign make a moved-from packet usable again.",
  "all operation sequences",
  "all sequences",
  ["netcode/packet.hh", "netcode/detail/symbol_alignment.hh"])
p("Packet dumps round-trip",
  "A sequence of packets written by serialize_packet::write is read back identically by serialize_packet::read.",
  "all sequences of packets",
  "all sequences and sizes",
  ["netcode/detail/serialize_packet.hh"])
p("C interface reports errors faithfully",
  "Each C call reports exactly the error class that the C++ call raises, resets the error on success, and returns 0 on error.",
  "all calls",
  "all outcomes and all previous contents of the error structure",
  ["netcode/c/detail/check_error.hh", "netcode/c/*.cc"])
p("C interface error messages are well managed",
  "Any sequence of failing C calls allocates and releases the error message without undefined behaviour and leaves message null or a valid string.",
  "all sequences of calls sharing an ntc_error",
  "new[]/delete mismatch and dangling pointers show no symptom in most runs",
  ["netcode/c/detail/check_error.hh: check_error"])
p("Every call terminates",
  "Each call to the decoder terminates; the recursion it triggers is bounded by the number of repairs held.",
  "all states (even corrupted ones) and all packets",
  "non-termination needs adversarial states",
  ["netcode/detail/decoder.cc: add_source_recursive"])
p("Failed full decoding loses one repair only",
  "When the coefficient matrix is singular exactly one held repair is given up, and it is one that carries no information beyond the others.",
  "all states in which full decoding is attempted",
  "needs singular systems of dimension three or more",
  ["netcode/detail/decoder.cc: attempt_full_decoding lines 446-468", "netcode/detail/invert_matrix.cc: invert"])
p("Lossless transparency",
  "Over a network that loses, duplicates and reorders nothing, a systematic encoder/decoder pair hands out exactly the committed data in order, in both ordering modes, and rebuilds nothing; acks may be lost, duplicated or reordered.",
  "all sequences of fewer than 2^32 commits of at most 65535 bytes each, of settings and of acks, all field sizes, identifier lists of up to 16 million identifiers (the wire format carries no more)",
  "all histories",
  ["netcode/encoder.hh", "netcode/decoder.hh"])
p("Forcing a repair with nothing to encode",
  "generate_repair() is safe to call at any time.",
  "all encoder states",
  "the failing state (empty window) arises only after acks empty the window",
  ["netcode/encoder.hh: generate_repair, mk_repair", "netcode/detail/encoder.cc"])
p("Data of any length is transmitted unharmed",
  "Every non-empty datum (a vector of any length) given to the encoder arrives as the same datum.",
  "all data lengths",
  "needs data longer than 65535 bytes",
  ["netcode/detail/source.hh: encoder_source::size", "netcode/detail/packetizer.hh: write_source"])
p("Decoder bookkeeping is consistent",
  "After each packet of a genuine in-order stream: no source is both held and missing, each held repair lists only missing sources, fewer repairs than missing sources are held, and nb_missing_sources() counts exactly the sources some received repair lists that are neither known nor outdated.",
  "all histories of an encoder/decoder pair in which repairs that are overtaken do no harm and a source is overtaken by repairs only as long as it is no clash (by none with ordering)",
  "all histories",
  ["netcode/detail/decoder.cc", "netcode/detail/decoder.hh"])
p("Two losses are recovered from two repairs",
  "Any two lost sources are recovered from any two distinct repairs which both list them.",
  "all pairs of repair ids and source ids",
  "singular 2x2 coefficient minors are sparse among 2^128 quadruples",
  ["netcode/detail/galois_field.hh: coefficient", "netcode/detail/decoder.cc: attempt_full_decoding"])
p("No data out of nothing",
  "nb_decoded, nb_failed_full_decodings, nb_useless_repairs and the number of repairs still held add up to at most the number of repair packets received: each repair is used at most once, and each rebuilt datum costs one.",
  "all sequences of packets (arbitrary bytes) and calls",
  "a counter-example needs a particular sequence of decodings",
  ["netcode/detail/decoder.cc: attempt_full_decoding, add_source_recursive", "netcode/decoder.hh: nb_received_repairs, nb_decoded"])
p("Ordering does not influence decoding",
  "A decoder with in_order::yes and one with in_order::no that are given the same packets hold the same sources and repairs, miss the same sources and report the same statistics; each datum that the one with ordering hands over, the other hands over too, under the same number.",
  "all sequences of packets (arbitrary bytes) and calls",
  "two implementations of every path have to agree on every history",
  ["netcode/detail/decoder.cc: add_source_recursive, flush_ordered_sources, drop_outdated, attempt_full_decoding"])
p("Replaying a dump feeds the decoder every dumped packet",
  "The replay tool, run on the dump of a decoder, gives its own decoder exactly the packets of that dump, in order.",
  "all sequences of packets",
  "all sequences; the packet left out has no visible effect in most runs",
  ["tools/replay.cc", "netcode/detail/serialize_packet.hh", "netcode/decoder.hh: NTC_DUMP_PACKETS"])
p("C constructors return a null pointer on failure",
  "ntc_new_encoder, ntc_new_decoder, ntc_new_packet and ntc_new_data return an object or, when they fail, a null pointer; they never end the program.",
  "all arguments and all allocation failures",
  "needs allocation failures inside constructors or refused field sizes",
  ["netcode/c/encoder.cc", "netcode/c/decoder.cc", "netcode/c/packet.cc", "netcode/c/data.cc", "netcode/detail/galois_field.hh: galois_field"])
p("C packets have the size asked for",
  "ntc_packet_get_size returns the size given to the last ntc_new_packet_from or ntc_packet_resize, and the bytes given at creation are kept up to the smallest of these sizes.",
  "all contents and sequences of resizes",
  "all sequences; sizes cross the 16-bit boundary of the interface",
  ["netcode/c/packet.cc", "netcode/packet.hh"])
p("Settings hold until they are changed",
  "The code type, window size, adaptive mode, rate, ack period and ack frequency are the last ones set (the documented defaults if never set; the ack frequency is limited to 128), whatever is committed, sent or received in between; only an accepted ack in adaptive mode changes the rate. nb_received_acks() counts the ack packets.",
  "all sequences of calls and packets (arbitrary bytes)",
  "all histories: any call could disturb a setting",
  ["netcode/encoder.hh", "netcode/decoder.hh", "netcode/detail/encoder.hh"])
p("The adaptive rate follows the loss rate",
  "In adaptive mode an accepted ack sets the rate to half of the inverse of the loss rate, rounded up, or to 50 when less than 1 % is lost; the loss rate is the one of the packets emitted since the previous accepted ack.",
  "all histories of an encoder, all acks",
  "floating-point rounding and a 16-bit counter: the failing values are isolated",
  ["netcode/encoder.hh: notify_impl, rate_for_loss (lines 288-344)"])
p("A decoder forgets what is outdated, and nothing else is",
  "A decoder never holds, waits for or keeps a repair listing a source older than the first source of the last repair it took into account. Only a repair that is neither held already nor wholly outdated changes which sources are outdated.",
  "all sequences of packets (arbitrary bytes) and calls",
  "all histories",
  ["netcode/detail/decoder.cc: operator()(decoder_repair&&), drop_outdated", "netcode/detail/decoder.hh: m_last_id"])
p("What is acknowledged is not lost",
  "A source listed in an ack the decoder emitted was handed over, or is held with the committed bytes and waits for an older source; it is never discarded without being handed over.",
  "all schedules: loss, duplication, delay and reordering in both directions, both ordering modes",
  "the encoder discards acknowledged sources, so one that the decoder discards as well is lost for good; needs particular interleavings of late sources, repairs and acks",
  ["netcode/decoder.hh: generate_ack, maybe_ack, handle_source", "netcode/detail/decoder.cc: drop_outdated, callback", "netcode/encoder.hh: notify_impl"])
p("Bytes after the end of a packet are ignored",
  "A decoder or an encoder that is given complete packets followed by any other bytes behaves as if it was given the packets alone: same data, acks, emitted packets, statistics and returned byte counts.",
  "all histories of calls, all packets (arbitrary bytes), all bytes after them; also a closed system whose network adds bytes to the packets of both directions",
  "the bytes left in a reception buffer are arbitrary, and the decoder keeps them with the repairs it holds; the example programs hand over whole buffers",
  ["examples/accelerator/transcoder.hh", "netcode/detail/packetizer.hh: read_source, read_repair, read_ack", "netcode/detail/decoder.cc: remove_source_data_from_repair, create_source_from_repair, attempt_full_decoding"])
p("An ack period of zero means no automatic acks",
  "After set_ack_period(0) a decoder sends an ack only when generate_ack() is called (the documentation: 'If 0, ack won't be sent automatically').",
  "all sequences of packets and calls, all ack frequencies",
  "the other trigger needs as many packets as the configured frequency (50 by default), in any history",
  ["netcode/decoder.hh: set_ack_period, maybe_ack"])
p("A packet handler that throws loses that packet and nothing else",
  "If the packet handler of an encoder throws while it is given a packet, the exception reaches the caller and that packet is lost; the encoder, its window and its identifiers are as if the packet had been sent, so that all that is sent later is decoded correctly.",
  "all histories and all choices of the packets for which the handler throws",
  "an exception at each of the handler calls of each history",
  ["netcode/encoder.hh: commit_impl, generate_repair", "netcode/detail/packetizer.hh: write_source, write_repair"])
p("A data handler that throws loses that datum and nothing else",
  "If the data handler of a decoder throws, the exception reaches the caller of decoder(packet), the data handed over so far are the ones that would have been, and the decoder can be used further.",
  "all decoder states, packets and choices of the handler calls that throw",
  "an exception at each of the handler calls of each history",
  ["netcode/decoder.hh: handle_source", "netcode/detail/decoder.cc: add_source_recursive, attempt_full_decoding, drop_outdated, flush_ordered_sources"])
p("The packet handler of an encoder may call the library",
  "When a packet is complete, the packet handler of an encoder may itself call the library (give the packet to a decoder, give acks to the encoder, change settings, ask for a repair, commit data): it has the same effects as calls made outside of the handler, and no failed assertion or undefined behaviour.",
  "all histories, all calls from within the handler, for each packet of each commit",
  "every call at every packet of every history; a loopback in the handler is natural in simulations and in proxies with several encoders",
  ["netcode/encoder.hh: commit_impl, generate_repair, notify_impl", "netcode/detail/packetizer.hh: mark_end"])
p("The example tunnel carries the datagrams of both applications",
  "Two transcoders of the accelerator example, facing each other over a network that loses, duplicates and delays packets: each application gets datagrams that the other one sent, in the same order, each at most as often as it was sent, and neither program stops (no exception, failed assertion or undefined behaviour).",
  "all schedules of both applications, of the network in both directions (packets and acks share a socket) and of the timers; all old contents of the reception buffers",
  "interleavings of two encoders and two decoders, sizes close to the limits of UDP, and old bytes behind each packet",
  ["examples/accelerator/transcoder.hh", "netcode/dispatch.hh", "netcode/encoder.hh", "netcode/decoder.hh"])
p("Packets have a fixed layout",
  "Sources are type 2, identifier (4 bytes), size (2), data; repairs are type 1, identifier (4), symbol size (2), symbol, list of sources, encoded size (2), symbol size and symbol again; acks are type 0, number of packets (2), list of sources. Numbers are big-endian. A list of sources is the number of runs plus one (2), the first source (4) and the runs of equal gaps, of at most 255, as length (1) and gap (2); so consecutive sources take 6 bytes plus 3 for every 255.",
  "all packets and acks, all lists of sources",
  "peers built from different versions or languages rely on each byte; a round trip through the same build cannot reveal a change made in both directions",
  ["netcode/detail/packetizer.hh", "netcode/detail/packet_type.hh"])
p("After an ack round trip the window holds exactly what the decoder lacks",
  "At any moment, when the decoder sends an ack and the encoder receives it, the sources left in the window of the encoder are those of before that the decoder does not know, in the same order; if it knows them all, window() is 0.",
  "all reachable states of an encoder and a decoder over a lossy network, ordered or not",
  "depends on all that was lost, decoded, acknowledged and evicted before",
  ["netcode/decoder.hh: generate_ack", "netcode/encoder.hh: notify_impl", "netcode/detail/source_list.hh: erase"])
p("What has left the window is never coded again",
  "A source that was acknowledged, or evicted by the window limit, is listed by no repair emitted afterwards, whatever the application and the network do then.",
  "all histories of up to 2^32 commits, all later calls and packets received",
  "quantifies over all continuations of all histories, with settings changes and hostile packets",
  ["netcode/encoder.hh: commit_impl, notify_impl, mk_repair", "netcode/detail/source_list.hh: erase, pop_front"])
p("A decoder never guesses",
  "A decoder holds or hands over a source only if the packets it received determine it: every assignment of data to the sources for which the encoder would have emitted the packets received gives that source the same data.",
  "all reachable states of an encoder and a decoder, all other assignments of data that fit what was received",
  "compares each run with all other runs that the decoder cannot tell apart from it",
  ["netcode/detail/decoder.cc: operator(), add_source_recursive, attempt_full_decoding", "netcode/detail/galois_field.hh: coefficient"])
p("Enough repairs recover any loss",
  "As long as the lost sources stay in the window of the encoder, and repairs keep arriving, the decoder eventually recovers them, whatever their number and their positions.",
  "all reachable states, all sets of lost sources in the window, all numbers of repairs",
  "no number of repairs received in a test shows that more would not help",
  ["netcode/detail/galois_field.hh: coefficient", "netcode/encoder.hh: generate_repair", "netcode/detail/decoder.cc: attempt_full_decoding"])
p("A decoder makes the best of the repairs it received",
  "A repair that arrives is used at once if the repairs available determine the unknown sources it lists, kept for later if they are too few, and given up if it brings nothing; so lost sources are recovered as soon as some of the repairs that arrived since determine them.",
  "all reachable states, all sets of lost sources, all numbers of repairs and all dependencies between them",
  "needs all combinations of coefficients of all repairs held; that a decoder never recovers cannot be seen in a finite run",
  ["netcode/detail/decoder.cc: operator(), attempt_full_decoding", "netcode/detail/invert_matrix.cc"])
p("Receive buffers may cut repairs and add bytes",
  "If every source and every ack arrives whole, every repair at least up to the end of its encoded size (the second copy of its symbol may be missing), and any bytes may follow, the decoder hands over the same data, sends the same acks and has the same statistics as if all packets arrived as sent; no call throws. A repair cut earlier is refused with overflow_error and nothing else changes.",
  "all schedules of an encoder and a decoder, all places where repairs are cut, all bytes that follow packets",
  "every cut of every packet of every history, and all later decodings that use the repair",
  ["netcode/detail/packetizer.hh: read_repair, write_repair", "netcode/decoder.hh: operator()", "examples/accelerator-oneway/receiver.cc"])
p("The one-way example carries the datagrams of the application",
  "The sender and the receiver of the one-way accelerator, over a network that loses, duplicates and delays packets and acks: the application of the receiver gets datagrams that the one of the sender sent, in the same order, each at most as often as it was sent, and neither program stops (no exception, failed assertion or undefined behaviour).",
  "all schedules of the application, the network in both directions and the timer; all old contents of the buffer for acks",
  "interleavings of data, acks and timers; sizes close to those of the buffers",
  ["examples/accelerator-oneway/sender.cc", "examples/accelerator-oneway/receiver.cc", "netcode/encoder.hh", "netcode/decoder.hh"])
p("What a late source may do to the decoder",
  "Without ordering: a source that arrives after repairs that list it is harmless unless it clashes, that is, unless two repairs are held that list it, one of them only it and one more source, and the repairs held do not determine all other missing sources. If it clashes, the decoder is left without a source although a repair that arrived lists it and otherwise only known sources, and in a debug build the arrival of that source fails an assertion.",
  "all reachable states of an encoder and a decoder, all sources emitted and not yet received",
  "every order of sources and repairs and every number of repairs that overtake a source",
  ["netcode/detail/decoder.cc: add_source_recursive, remove_source_from_repair, attempt_full_decoding", "netcode/decoder.hh: operator()"])
p("What a repair that newer ones have overtaken may do to the decoder",
  "A repair that arrives after newer ones changes nothing if it is held already or wholly outdated. It does no harm either unless it lists both outdated sources and others, or starts with the same source as the newest one, lists exactly one unknown source, and repairs are held. In the first of these cases sources the decoder had forgotten are expected again; in the second the source is decoded, but all repairs that are held go on counting it as unknown.",
  "all reachable states of an encoder and a decoder, all repairs emitted before one that arrived",
  "every order of arrival of any number of repairs over all windows, losses and acks",
  ["netcode/detail/decoder.cc: operator(), drop_outdated, add_source_recursive", "netcode/decoder.hh: operator()"])
p("Losses alone do no harm",
  "Over a network that loses and repeats packets but does not reorder them, with field sizes 4, 8 and 16 and fewer than 65536 data: no call fails and no packet or ack is refused; data are handed over intact, at most once, and in the order of the commits with ordering; a source that arrived is handed over unless ordering waits for an older one; a repair with one unknown source brings it.",
  "all documented calls, all losses and repetitions of packets, all losses, repetitions and reorderings of acks",
  "every pattern of losses of every history",
  ["netcode/encoder.hh", "netcode/decoder.hh: operator()", "netcode/detail/decoder.cc"])
p("The lossy proxy loses what it is told to lose and nothing else",
  "The proxy sends on the datagrams that the loss chosen lets pass, in order and unchanged (cut at 4096 bytes), and its counters are right. With a file, packet k is lost if line k does not begin with 0; with a percentage, if the number drawn exceeds 100 minus the percentage; with bursts, according to whether the previous one was lost. An encoder and a decoder on both sides of it go on, and the data arrive intact, at most once, in order with ordering.",
  "all sequences of datagrams, all files, all numbers drawn, all histories of an encoder and a decoder with packets of at most 4096 bytes",
  "sequences of losses of any length, all numbers drawn",
  ["tools/lossy_proxy.cc: listen, main", "tools/loss/burst.hh", "tools/loss/stream.hh", "tools/loss/uniform.hh"])
p("The forwarder sends on exactly the data of the sources that arrive",
  "Of the packets of an encoder, lost, repeated and reordered in any way, the forwarder sends on the data of the sources, in the order in which they arrive, and ignores repairs; it does not stop. If all packets of a systematic encoder arrive in order, all data committed are sent on in order.",
  "all histories of an encoder (hostile acks included), all subsequences, repetitions and orders of its packets, all old contents of the buffer",
  "every history and every arrival order; contents of uninitialized memory",
  ["tools/source_forwarder.cc: main", "netcode/detail/packetizer.hh: read_source", "netcode/packet.hh"])
p("What a decoder keeps is bounded",
  "The memory of a decoder does not grow with the number of data sent: with a window of at most W sources at the encoder, the decoder keeps a bounded number of sources, missing sources and repairs. In detail: it keeps at most the sources committed since the oldest one of any repair that arrived, known or missing, and no more repairs than it misses sources.",
  "all reachable states of an encoder and a decoder, all window sizes",
  "histories of any length",
  ["netcode/detail/decoder.cc: drop_outdated, add_source_recursive, attempt_full_decoding", "netcode/encoder.hh: window_size", "netcode/decoder.hh: operator()"])
p("A packet handler of a decoder that throws loses that ack and nothing else",
  "If the packet handler of a decoder throws while it is given an ack, the decoder goes on as if that ack had not been due: data are handed over as without the exception, no call fails that did not, and the next ack reports all packets since the last ack that was sent, and names all sources held. maybe_ack tries again at the next call.",
  "all states of a decoder, all calls in which the handler throws, all later calls and packets",
  "every history before and after the exception",
  ["netcode/decoder.hh: generate_ack, maybe_ack, handle_source, operator()", "netcode/detail/decoder.cc: add_source_recursive", "netcode/detail/packetizer.hh: write_ack"])
p("The repairs of the adaptive mode are enough for the losses measured",
  "In adaptive mode, after an ack, among the packets that the commits emit the share of repairs is at least the share of packets that, according to that ack, were lost since the previous one.",
  "all histories of an encoder before and between the acks, all numbers of packets sent and received, all later commits",
  "every number of packets sent and received, with the rounding of doubles",
  ["netcode/encoder.hh: notify_impl, commit_impl"])
p("A stream may have any length",
  "An encoder may commit any number of data, and over a network that loses nothing the decoder hands over all of them; identifiers that start again from zero do no harm.",
  "all numbers of data",
  "the first failure needs more than four thousand million packets",
  ["netcode/encoder.hh: commit_impl, m_current_source_id", "netcode/detail/decoder.cc: operator(), drop_outdated", "netcode/detail/source.hh"])
p("The data handler of a decoder may call the decoder",
  "A data handler that calls the decoder it is called by - to ask for an ack, change a setting, or give it a packet - disturbs nothing: the data handed over, their order and number, and what later calls do are the same as if the calls came after it returned.",
  "all streams of packets, all handlers, all calls they make and all times at which they make them",
  "the calls happen in the middle of the work of the decoder, in any of its states",
  ["netcode/decoder.hh: handle_source, generate_ack, maybe_ack, set_ack_nb_packets, set_ack_period", "netcode/detail/decoder.cc: operator(), add_source_recursive"])
p("Without evictions nothing is skipped",
  "If the window of the encoder is never full when a datum is committed (with the default window size: always), over a network that loses and repeats packets but does not reorder them, with field sizes 4, 8 and 16 and fewer than 65536 data: with ordering, the data handed over are the first ones committed, none is skipped. A datum that has left the window is known to the decoder, and when window() is 0 all data committed were handed over.",
  "all data, calls, settings, losses and repetitions; acks lost, repeated, delayed and reordered",
  "a datum is lost for good if an ack or a repair that arrives at the wrong moment makes the encoder or the decoder forget it",
  ["netcode/encoder.hh: commit_impl, notify_impl, window", "netcode/decoder.hh: operator(), generate_ack", "netcode/detail/decoder.cc: drop_outdated, flush_ordered_sources"])
p("The end-to-end test programs pass",
  "end_to_end and end_to_end_mt, with fewer than 65536 data: whichever packets and acks are lost, and with threads for all their schedules, no call fails and the data handler, which throws unless it is given the data one after the other and intact, never throws; if nothing is lost it gets all of them.",
  "all choices of the packets and acks lost, all schedules of the two threads, all packet sizes the programs accept, all numbers of data and ack frequencies",
  "the programs are themselves tests, and run one sequence of random losses of the same generator each time",
  ["tests/end_to_end.cc: main, in_order_data_handler, generate_data", "tests/end_to_end_mt.cc: encoder, decoder, packet_handler"])
p("At most one loss between two repairs: everything is recovered",
  "Over a network that loses and repeats packets but does not reorder them, with the field sizes 4, 8 and 16, fewer than 65536 data, a systematic encoder and a constant rate that is at most the window size: if, as far as a repair that arrives, at most one packet was lost from one repair (excluded) to the next (included), every datum committed before that repair has been handed over; with ordering, in order and before any other. More generally for all settings, if data are evicted from the window only after a repair has listed them.",
  "all data, settings, calls, losses, repetitions and acks",
  "there is one pattern of losses for each way to choose a packet of each period, and the window, acks and evictions change what each repair lists",
  ["netcode/encoder.hh: commit_impl, notify_impl, set_rate, set_window_size", "netcode/decoder.hh: operator()", "netcode/detail/decoder.cc: operator(), add_source_recursive, drop_outdated"])
p("The basic examples work for other data",
  "The basic examples, cpp_basic and c_basic, with any sequence of fewer than 65536 data of valid sizes in place of their two: no call fails, no assertion fails, nothing is written past the end of a buffer, and each datum is handed over right after it was given to the encoder, intact and in order.",
  "all sequences of fewer than 65536 data",
  "the examples run two short data; that the fifth datum comes with a repair, which the packet handler appends to the same buffer, shows up only with more and longer ones",
  ["examples/basic/cpp_basic.cc: main, packet_handler, data_handler", "examples/basic/c_basic.c: main, prepare_packet, receive_data"])
p("Either program may be restarted",
  "When the program with the decoder ends, in whatever state it is, and a new one takes its place while the encoder goes on, everything holds of the new decoder that holds of the first: no call fails, what it hands over is intact, at most once and (if asked) in commit order, acks name only what it has, and losses are recovered from as many independent repairs, so that it gets the whole window of the encoder. The same for a new encoder while the decoder goes on.",
  "all histories with any number of restarts at any points, any loss, duplication and reordering of packets, and any orderings asked of the decoders",
  "a test restarts at a few points; what harms is an ack or a packet of before the restart that arrives after it, together with a particular set of losses",
  ["netcode/decoder.hh: decoder, operator()", "netcode/encoder.hh: encoder, notify_impl", "netcode/detail/decoder.cc: operator(), attempt_full_decoding"])
p("With ordering, the wait is bounded",
  "When ordering is asked for, a datum that arrived is withheld only for a bounded time: it is handed over at the latest when the encoder has moved on by a window and a repair emitted then arrives, whether or not the older data it waited for are ever recovered.",
  "all histories, window sizes, rates and losses, and all data that arrived",
  "a test sees the wait for the losses it makes; whether something can be withheld for ever depends on all combinations of losses, acks and evictions",
  ["netcode/detail/decoder.cc: drop_outdated, add_source_recursive, flush_ordered_sources", "netcode/encoder.hh: commit_impl, notify_impl, set_window_size", "netcode/detail/encoder.cc: operator()"])
p("Packets are little longer than the data",
  "A packet is longer than the data it carries only by a header and the list of the sources it names: a source packet by a fixed header, a repair by a header and a list that is short for consecutive sources compared with the longest datum of the window, and an ack is such a list. So a user can bound the size of all packets from the size of the data and of the window.",
  "all histories of the encoder and the decoder, window sizes and data",
  "the length depends on the numbers in the window, which acks can leave with any gaps; a test measures the packets of its own run",
  ["netcode/detail/packetizer.hh: write_source, write_repair, write_ack", "netcode/encoder.hh: commit_impl, notify_impl, set_window_size"])
p("A C program does what the C++ program does",
  "A program that uses the C interface with one encoder, one decoder, one data object, one packet object and one error object, and uses these again and again, can do all that a program that uses the C++ interface does: its callbacks get the same bytes in the same order, and its calls are undefined or terminate only where those of the C++ program are and do. No message is left allocated.",
  "all sequences of calls whose data, packets and settings have sizes that the types of the C interface can hold; all sizes the objects were made with; both interfaces with the same settings",
  "the objects are moved from by some calls and not by others, and what a call does depends on all the calls before it; the tests of the C interface make new objects for each call",
  ["netcode/c/data.cc: ntc_new_data, ntc_data_buffer, ntc_data_get_size, ntc_data_resize", "netcode/c/packet.cc: ntc_new_packet, ntc_packet_buffer, ntc_packet_get_size, ntc_packet_resize", "netcode/c/encoder.cc: ntc_encoder_add_data, ntc_encoder_add_packet, ntc_encoder_generate_repair, ntc_encoder_set_rate, ntc_encoder_set_window_size", "netcode/c/decoder.cc: ntc_decoder_add_packet, ntc_decoder_generate_ack, ntc_decoder_set_ack_period, ntc_decoder_set_ack_nb_packets", "netcode/c/detail/check_error.hh: check_error", "netcode/packet.hh: resize"])
p("One encoder may serve several decoders",
  "The packets of an encoder may be sent to several decoders, each of which loses others, and the acks of the decoders may be given to the encoder: for each decoder all is as if it were alone. In particular it hands over only data that were committed, and no call is undefined, fails an assertion or throws.",
  "all numbers of decoders, with or without ordering, their clocks and settings, all interleavings of calls, losses, duplicates and delays of packets and acks",
  "what the acks of one decoder do to another depends on the combination of losses of both",
  ["netcode/encoder.hh: notify, notify_impl", "netcode/decoder.hh: notify, generate_ack", "netcode/detail/decoder.cc: operator()", "netcode/detail/packetizer.hh: read_ack"])
p("A decoder with another field than the encoder does no harm",
  "The packets of an encoder may reach a decoder that was made with another size of the Galois field. Data that arrive as source packets are handed over all the same; a repair is refused or ignored, and never gives data that were not committed nor undefined behaviour.",
  "all pairs of field sizes, all sequences of calls, with or without ordering, all losses of packets",
  "whether a packet decodes to something wrong depends on all its bytes, on its number and on both fields",
  ["netcode/encoder.hh: encoder", "netcode/decoder.hh: decoder, notify", "netcode/detail/galois_field.hh: galois_field, coefficient", "netcode/detail/packetizer.hh: write_repair, read_repair", "netcode/detail/decoder.cc: operator(), create_source_from_repair"])
p("A decoder acknowledges what it handed over until a repair of later sources arrives",
  "A source whose datum was handed over, or that an ack asked for named, is named by every ack that the user asks for afterwards, as long as no repair packet has arrived whose sources are all later. A decoder forgets for no other reason.",
  "all sequences of calls and packets, with any bytes, ordered or not, all fields, debug and release",
  "depends on everything that the decoder received, decoded and dropped before",
  ["netcode/decoder.hh: generate_ack", "netcode/detail/decoder.cc: drop_outdated, add_source_recursive, attempt_full_decoding, flush_ordered_sources"])
p("A decoder only knows sources that a packet named",
  "Every source that a decoder hands over, holds or names in an ack is one whose source packet arrived, or that a repair packet that arrived listed.",
  "all sequences of calls and packets, with any bytes, ordered or not, all fields, debug and release",
  "a wrong number could come out of any decoding, recursion or ordering step",
  ["netcode/decoder.hh: notify, generate_ack", "netcode/detail/decoder.cc: operator(), add_source_recursive, attempt_full_decoding, create_source_from_repair"])
p("Replaying the recording of a decoder does what the decoder did",
  "The replay tool, run on the file that a decoder recorded its packets in, has a decoder that hands over the same data, with the same counts, as the recorded one.",
  "all sequences of calls and packets, all clocks, debug and release",
  "the run that is replayed is the one that could not be foreseen; the packets that are left out have no visible effect in most runs",
  ["tools/replay.cc: main", "netcode/decoder.hh: NTC_DUMP_PACKETS, operator()", "netcode/detail/serialize_packet.hh"])
p("The packet handler of a decoder may call the decoder",
  "A packet handler that, given an ack, asks the decoder for further acks or changes its settings returns, and changes neither what is handed over nor whether acks are right.",
  "all packet handlers that ask for acks and change settings, all packets from any sender; and all schedules of an encoder, a decoder and a lossy network",
  "the tests use packet handlers that only store the bytes",
  ["netcode/decoder.hh: generate_ack, maybe_ack, set_ack_period, set_ack_nb_packets", "netcode/detail/packetizer.hh: write_ack, mark_end"])
p("Ack periods of any length",
  "set_ack_period may be called with any number of milliseconds: an ack is sent for the time elapsed exactly when at least that many milliseconds passed since the last one, and a period longer than the program runs means no such acks.",
  "all periods that std::chrono::milliseconds (or the size_t of the C interface) represents, all clock readings, all sequences of calls and packets",
  "the tests use periods of a few hundred milliseconds; the arithmetic goes wrong for those that stand for 'never'",
  ["netcode/decoder.hh: maybe_ack, set_ack_period", "netcode/c/decoder.cc: ntc_decoder_set_ack_period"])
p("Each end of a connection is what its own calls make it",
  "In any run of an encoder and a decoder, whatever the network does, the encoder is in the state that its own calls and the acks that arrived lead to, the decoder in the one that its own calls and the packets that arrived lead to; a run fails exactly when one of the two does. So the statistics and settings of both are those of their own calls.",
  "all runs: any calls, any loss, duplication, delay and reordering; all fields, debug and release",
  "any interleaving of the two ends",
  ["netcode/encoder.hh", "netcode/decoder.hh"])
p("No packet makes an encoder fail",
  "Whatever bytes an encoder is given, none of its calls fails as long as the application gives it data and settings that the interface allows: no commit, no setting, no packet, and no repair that is asked for.",
  "all sequences of commits, settings, requests for repairs and byte strings received; all fields, debug and release",
  "any sequence of byte strings, interleaved with any calls",
  ["netcode/encoder.hh: operator()(packet), operator()(data), generate_repair", "netcode/detail/encoder.hh"])
p("The generator of traffic finds every loss",
  "The server of the traffic generator accepts datagrams as long as they are those of the client, of the size asked for, from the first one on, in order and unchanged, and stops at the first other one; so behind an accelerator it stops exactly at the first datagram that was not handed over.",
  "all sizes, all numbers of packets, all sequences of datagrams received; all runs of the accelerators",
  "every size and every sequence of losses and changes",
  ["tools/udp_generator.py: make_packet, client, validate_packet, server", "examples/accelerator-oneway", "examples/accelerator"])
p("The order, the delay and the repetition of acks do not matter",
  "While its window is not set as small as the number of data committed, what an encoder keeps for its repairs is decided by which data an ack named once they were committed: the data committed, less those. When these acks arrived relative to the commits, to each other and to any other call, how often each arrived and which other packets arrived makes no difference, and, whatever the size of the window, data once named never come back. So two histories with the same commits and the same acks, none before the data that it names, leave the same window.",
  "all fields, all histories of calls of an encoder with up to 2^32 commits: commits, repairs, changes of settings, packets of any bytes, acks in any order and any number of times",
  "The interleavings of acks with commits and with each other cannot be enumerated; a test fixes one of them.",
  ["netcode/detail/source_list.hh: erase", "netcode/encoder.hh: notify_impl, commit_impl"])

p("The programs do what their command lines say",
  "The accelerator, the sender, the receiver, the forwarder and the lossy proxy take the port, the role, the percentages and the files from their arguments as their usage says, whatever else the arguments are; anything else makes them show their usage and exit.",
  "all numbers of arguments, all strings, all decimal numerals, both builds",
  "The command lines cannot be enumerated, and the programs have no tests.",
  ["examples/accelerator/accelerator.cc: main", "examples/accelerator-oneway/sender.cc: main", "examples/accelerator-oneway/receiver.cc: main", "tools/lossy_proxy.cc: main", "tools/source_forwarder.cc: main"])
p("Each side of the tunnel sends to its own application and to the other side only",
  "Once both programs are started, each packet and each ack goes to the other side of the tunnel and each datum that was decoded to the application of the side, in order and completely; a missing address never stops a program; datagrams of others change nothing.",
  "all addresses, all orders of events, any loss, repetition and delay of the packets of both directions, datagrams of any other sender",
  "Which address a side has depends on who was heard last, over all interleavings of four parties and the network.",
  ["examples/accelerator/transcoder.hh: packet_handler, data_handler, start_handler, start_app_handler, start_timer_handler", "examples/accelerator/accelerator.cc: main"])

p("Machines of different byte orders understand each other",
  "The numbers of packets are converted to one byte order, so that machines of both can talk: an encoder and a decoder, each on a machine of either order, behave, for all calls and whatever the network does, as if both were on the same machine.",
  "all field sizes, all states of an encoder and a decoder, all calls, losses, repetitions and reorderings",
  "tests run on one machine",
  ["netcode/detail/galois_field.hh: multiply, multiply_add, multiply_size", "netcode/detail/packetizer.hh: read, write", "netcode/detail/encoder.cc: operator()", "netcode/encoder.hh: commit_impl, mk_repair", "netcode/detail/decoder.cc"])
p("Running out of memory",
  "If there is no memory in a call, the exception std::bad_alloc reaches the caller. The call has then had no effect on what is sent and handed over later, other than that a datum may not have been committed, which the user may give again: what a decoder hands over is still what was committed, each datum at most as often as it was committed, nothing is acknowledged that was not received, and no later call fails for any other reason.",
  "all field sizes, all histories of calls, any set of calls in which an allocation fails, all losses, repetitions and reorderings",
  "the point at which the memory runs out, in every history, cannot be enumerated",
  ["netcode/encoder.hh: operator(), commit_impl, notify_impl, mk_repair, generate_repair", "netcode/detail/encoder.cc: operator()", "netcode/detail/source_list.hh: emplace", "netcode/detail/packetizer.hh: read_ack, read_repair", "netcode/detail/decoder.cc: operator(), add_source_recursive"])
p("The one-way programs send packets, acks and data to the right address only",
  "Once both programs are started, each packet goes to the receiver, each ack to the sender and each datum that was decoded to the application of the receiver, in order and completely; the receiver, which is not told the address of the sender, sends nothing to it before it has it; a missing address never stops a program; datagrams of others change nothing.",
  "all addresses, all orders of events, any loss, repetition and delay of packets and acks, datagrams of any other sender",
  "Which address a program has depends on who was heard last, over all interleavings.",
  ["examples/accelerator-oneway/sender.cc: packet_handler, netcode_handler, main", "examples/accelerator-oneway/receiver.cc: packet_handler, data_handler, netcode_handler, main"])
with open(sys.argv[1] if len(sys.argv)>1 else "/verif/properties.jsonl","w") as f:
    for x in P: f.write(json.dumps(x)+"\n")
print(len(P))
