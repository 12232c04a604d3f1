{"id": "C01", "title": "End-to-end integrity", "statement": "Every byte string an ntc::decoder hands to its data handler is byte-for-byte one of the data committed to the peer ntc::encoder, whether it arrived as a source or was rebuilt from repairs.", "quantifier": "all committed data, all encoder settings, all acks, all loss/duplication/reordering patterns of the packets the encoder emitted", "why_tests_cant": "the number of histories is unbounded and corruption needs a particular interleaving of repairs", "anchors": ["netcode/decoder.hh: decoder::operator()", "netcode/encoder.hh: encoder::commit_impl", "netcode/detail/decoder.cc: attempt_full_decoding, create_source_from_repair, operator()(decoder_repair&&)"]}
{"id": "C02", "title": "At-most-once delivery", "statement": "No committed datum is handed to the data handler more often than it was committed.", "quantifier": "all histories of an encoder/decoder pair over a lossy, duplicating network", "why_tests_cant": "duplicates require the decoder to forget a source and accept it again; only particular repair orders do that", "anchors": ["netcode/detail/decoder.cc: operator(), drop_outdated (m_last_id)"]}
{"id": "C03", "title": "In-order mode delivers in commit order", "statement": "A decoder constructed with in_order::yes hands data to its handler in the order in which they were committed (some may be skipped, none is swapped or repeated).", "quantifier": "all histories of an encoder/decoder pair over a lossy, duplicating network", "why_tests_cant": "order violations depend on the interleaving of sources, repairs and window moves", "anchors": ["netcode/detail/decoder.cc: add_source_recursive, flush_ordered_sources, drop_outdated, attempt_full_decoding"]}
{"id": "C04", "title": "In-order mode withholds nothing deliverable", "statement": "In in_order::yes mode a datum the decoder holds (received or decoded) is handed over as soon as every older datum has been handed over or has been outdated by the encoder's window; it is never silently dropped.", "quantifier": "all histories of an encoder/decoder pair over a lossy, duplicating network", "why_tests_cant": "a lost hand-over shows only when a source arrival triggers the decoding of its predecessors", "anchors": ["netcode/detail/decoder.cc: add_source_recursive lines 252-336, flush_ordered_sources"]}
{"id": "C05", "title": "No undefined behaviour or failed assertion on genuine traffic", "statement": "Feeding a decoder packets emitted by an encoder of the same field size never triggers undefined behaviour (dangling iterator, end() dereference, out-of-bounds access) nor a failed assertion.", "quantifier": "all histories of an encoder/decoder pair over a lossy, duplicating network, both build modes", "why_tests_cant": "use-after-free and end() dereference depend on rare interleavings and may go unnoticed when they happen", "anchors": ["netcode/detail/decoder.cc: add_source_recursive loop, drop_outdated, remove_source_data_from_repair"]}
{"id": "C06", "title": "Parsing arbitrary bytes never overruns", "statement": "For every byte string given to an encoder or decoder, parsing either succeeds or raises packet_type_error/overflow_error; it never reads outside the packet and never reports more consumed bytes than the packet holds.", "quantifier": "all non-empty byte strings (the API takes packets that hold at least the type byte)", "why_tests_cant": "the input space is all byte strings", "anchors": ["netcode/detail/packetizer.hh: read_ack, read_repair, read_source, read_ids, read", "netcode/detail/packet_type.hh: get_packet_type"]}
{"id": "C07", "title": "Hostile repairs cannot corrupt memory", "statement": "A decoder fed arbitrary (possibly crafted) packets never reads or writes outside the packets' buffers.", "quantifier": "all sequences of byte strings", "why_tests_cant": "the input space is all sequences of byte strings", "anchors": ["netcode/detail/decoder.cc: create_source_from_repair, remove_source_data_from_repair, operator()(decoder_repair&&)"]}
{"id": "C08", "title": "Source packets round-trip", "statement": "What write_source emits for a source with id i and data d, read_source parses back as id i, data d, having consumed the whole packet; the layout is type(1) id(4, big-endian) size(2, big-endian) data.", "quantifier": "all ids and all data the API accepts", "why_tests_cant": "all ids and all data", "anchors": ["netcode/detail/packetizer.hh: write_source, read_source"]}
{"id": "C09", "title": "Repair packets round-trip", "statement": "What write_repair emits, read_repair parses back to the same id, source-id set, encoded size and symbol.", "quantifier": "all repairs the encoder can build", "why_tests_cant": "all id sets, symbols and sizes", "anchors": ["netcode/detail/packetizer.hh: write_repair, read_repair"]}
{"id": "C10", "title": "Ack packets round-trip", "statement": "What write_ack emits, read_ack parses back to the same packet count and source-id set, having consumed the whole packet.", "quantifier": "all acks the decoder can build", "why_tests_cant": "all id sets", "anchors": ["netcode/detail/packetizer.hh: write_ack, read_ack"]}
{"id": "C11", "title": "Identifier-list compression is lossless", "statement": "The run-length/adjacent-difference encoding of a set of 32-bit identifiers decodes to the same set.", "quantifier": "all finite sets of 32-bit identifiers", "why_tests_cant": "all sets; run length 255/256 and 16-bit difference boundaries", "anchors": ["netcode/detail/packetizer.hh: write(const source_id_list&), read_ids"]}
{"id": "C12", "title": "Number of consumed bytes", "statement": "The value returned when a packet is given to an encoder/decoder is the number of bytes of that packet.", "quantifier": "all packets emitted by the peer", "why_tests_cant": "all packets", "anchors": ["netcode/detail/packetizer.hh: read_*", "netcode/encoder.hh: notify_impl", "netcode/decoder.hh: operator()"]}
{"id": "C13", "title": "Truncated packets are rejected without effect", "statement": "Giving a decoder/encoder a strict prefix (up to the last byte it needs) of a genuine packet raises overflow_error and changes neither the decoding state, the data handed out, nor the encoder window.", "quantifier": "all genuine packets, all truncation points, all states", "why_tests_cant": "every truncation point of every packet in every state", "anchors": ["netcode/detail/packetizer.hh: read_*", "netcode/decoder.hh: operator()", "netcode/encoder.hh: notify_impl"]}
{"id": "C14", "title": "Packet-type routing", "statement": "An encoder accepts only acks, a decoder only sources and repairs; anything else raises packet_type_error and leaves the object completely unchanged; dispatch() routes each packet to the object that accepts it.", "quantifier": "all non-empty byte strings, all states", "why_tests_cant": "all first bytes in all states", "anchors": ["netcode/detail/packet_type.hh", "netcode/dispatch.hh", "netcode/encoder.hh: notify_impl", "netcode/decoder.hh: operator()"]}
{"id": "C15", "title": "Coefficients are valid non-zero field elements", "statement": "For each repair id and source id, the coding coefficient is non-zero and smaller than 2^w, so each repair really depends on each source it lists.", "quantifier": "all 32-bit repair ids and source ids, all field sizes", "why_tests_cant": "2^64 pairs per field size, wrap-around of 32-bit arithmetic", "anchors": ["netcode/detail/galois_field.hh: coefficient"]}
{"id": "C16", "title": "Galois-field arithmetic", "statement": "Scalar multiplication/inversion on w-bit words with xor as addition satisfies the field laws for w = 4, 8, 16, 32, and region multiplication acts word-wise, so that dividing undoes multiplying.", "quantifier": "all field elements, all regions", "why_tests_cant": "2^96 triples for w = 32", "anchors": ["netcode/detail/galois_field.hh: multiply, multiply_add, invert"]}
{"id": "C17", "title": "Matrix inversion is correct", "statement": "invert() reports success exactly on the non-singular matrices, and then yields the inverse.", "quantifier": "all square matrices of all dimensions over all supported fields", "why_tests_cant": "all matrices of all dimensions", "anchors": ["netcode/detail/invert_matrix.cc: invert", "netcode/detail/square_matrix.hh"]}
{"id": "C18", "title": "A repair encodes exactly the encoder's window", "statement": "Each repair packet emitted lists exactly the identifiers currently in the window and carries the coefficient-weighted sum of their zero-padded data and of their sizes.", "quantifier": "all encoder histories", "why_tests_cant": "all histories of commits, acks and configuration changes", "anchors": ["netcode/encoder.hh: generate_repair, mk_repair", "netcode/detail/encoder.cc: operator()"]}
{"id": "C19", "title": "A single loss is always recovered", "statement": "If all sources listed by a repair but one are known to the decoder, receiving that repair recovers the missing one exactly, size included.", "quantifier": "all windows, all missing positions, all data, all repair ids", "why_tests_cant": "all windows and data", "anchors": ["netcode/detail/decoder.cc: operator()(decoder_repair&&), create_source_from_repair, remove_source_data_from_repair", "netcode/detail/galois_field.hh: multiply_size"]}
{"id": "C20", "title": "n losses are recovered from n independent repairs", "statement": "When as many repairs as missing sources are held and their coefficient matrix is non-singular, all the missing sources are recovered exactly at once.", "quantifier": "all numbers of losses, all windows, all data", "why_tests_cant": "unbounded dimension", "anchors": ["netcode/detail/decoder.cc: attempt_full_decoding"]}
{"id": "C21", "title": "Size recovery", "statement": "The size of a lost datum is recovered exactly from the repair's encoded size, for every field size.", "quantifier": "all sizes 1..65535, all coefficients, field sizes 4, 8, 16, 32", "why_tests_cant": "the failure for w = 32 needs large coefficients, which tests with few packets never reach", "anchors": ["netcode/detail/galois_field.hh: multiply_size"]}
{"id": "C22", "title": "Window bound", "statement": "window() never exceeds the configured window size.", "quantifier": "all encoder histories", "why_tests_cant": "all histories, in particular those which change the window size mid-stream", "anchors": ["netcode/encoder.hh: commit_impl, set_window_size"]}
{"id": "C23", "title": "An ack removes exactly the sources it names", "statement": "After an ack the window consists of the previous sources that the ack does not name, in the same order; repeating an ack or exchanging two acks makes no difference.", "quantifier": "all windows, all acks", "why_tests_cant": "all pairs of sorted lists", "anchors": ["netcode/detail/source_list.hh: erase", "netcode/encoder.hh: notify_impl"]}
{"id": "C24", "title": "Acks name only sources the decoder has", "statement": "Each identifier in each emitted ack is one whose data the decoder received or decoded, and each source it still holds is named.", "quantifier": "all packet sequences given to a decoder, all calls to generate_ack/maybe_ack", "why_tests_cant": "all histories", "anchors": ["netcode/decoder.hh: generate_ack", "netcode/detail/decoder.cc"]}
{"id": "C25", "title": "A source leaves the window only by ack or overflow", "statement": "A committed source stays in the window (and hence in each later repair) until an ack names it or the window limit evicts it, oldest first; the newest datum is always in the window right after its commit.", "quantifier": "all encoder histories", "why_tests_cant": "all histories", "anchors": ["netcode/encoder.hh: commit_impl, notify_impl", "netcode/detail/source_list.hh"]}
{"id": "C26", "title": "Source numbering", "statement": "The k-th committed datum gets identifier k; in systematic mode a source packet with identifier k and the unmodified data is emitted at once.", "quantifier": "all encoder histories", "why_tests_cant": "all histories", "anchors": ["netcode/encoder.hh: commit_impl"]}
{"id": "C27", "title": "Repair cadence", "statement": "With constant rate r, n commits emit exactly n/r automatic repairs (plus n repairs in non-systematic mode); nb_sent_repairs/nb_sent_sources count the packets emitted.", "quantifier": "all n, r > 0 and histories", "why_tests_cant": "all n and r", "anchors": ["netcode/encoder.hh: commit_impl, generate_repair"]}
{"id": "C28", "title": "Adaptive rate stays in [1, 50]", "statement": "In adaptive mode each ack sets the rate to a value between 1 and 50, never 0 (a rate of 0 would divide by zero), is 50 below 1% loss and is antitone in the loss.", "quantifier": "all numbers of sent and acknowledged packets", "why_tests_cant": "2^32 pairs and floating point rounding", "anchors": ["netcode/encoder.hh: notify_impl, rate_for_loss"]}
{"id": "C29", "title": "Statistics are exact", "statement": "nb_received_sources/repairs count the packets given by type (truncated ones included), nb_sent_acks the acks emitted, and nb_decoded the data recovered from repairs: data handed out (or held and still withheld by ordering) = fresh sources received + nb_decoded.", "quantifier": "all packet sequences", "why_tests_cant": "all histories", "anchors": ["netcode/decoder.hh", "netcode/detail/decoder.cc: m_nb_decoded, m_nb_useless_repairs, m_nb_failed_full_decodings"]}
{"id": "C30", "title": "Duplicate and outdated packets are ignored", "statement": "A source already held, a source older than the window start of the last repair, a repair already held and a repair wholly older than that start change nothing and deliver nothing.", "quantifier": "all decoder states, all such packets", "why_tests_cant": "all states", "anchors": ["netcode/detail/decoder.cc: operator()"]}
{"id": "C31", "title": "Immediate delivery when order is not requested", "statement": "With in_order::no a fresh, not outdated source packet is handed to the data handler during the call, as the first delivery, with exactly the packet's data.", "quantifier": "all decoder states, all source packets", "why_tests_cant": "all states", "anchors": ["netcode/detail/decoder.cc: operator()(decoder_source&&), add_source_recursive"]}
{"id": "C32", "title": "Useless repairs are free", "statement": "A repair all of whose sources are known is counted useless, delivers nothing new out of it, and its symbol is never used.", "quantifier": "all decoder states, all such repairs", "why_tests_cant": "all states", "anchors": ["netcode/detail/decoder.cc: operator()(decoder_repair&&) lines 77-89"]}
{"id": "C33", "title": "Ack triggering", "statement": "maybe_ack sends an ack exactly when the number of packets since the last ack reaches the configured count, or the (non-zero) period has elapsed; the ack reports the number of packets received since the previous one; the configured count is clamped to 128.", "quantifier": "all states, clock readings and settings", "why_tests_cant": "all clock readings", "anchors": ["netcode/decoder.hh: maybe_ack, generate_ack, set_ack_nb_packets"]}
{"id": "C34", "title": "ntc::packet behaves like a byte vector", "statement": "Any sequence of packet operations (assign, resize, push_back, clear, indexing, ...) is indistinguishable through size/data/[]/begin/end from the same sequence on a plain byte vector as long as sizes stay below 2^63-9 bytes; the symbol always starts 7 bytes after data(), on a 16-byte boundary; resize, clear and assign make a moved-from packet usable again.", "quantifier": "all operation sequences", "why_tests_cant": "all sequences", "anchors": ["netcode/packet.hh", "netcode/detail/symbol_alignment.hh"]}
{"id": "C35", "title": "Packet dumps round-trip", "statement": "A sequence of packets written by serialize_packet::write is read back identically by serialize_packet::read.", "quantifier": "all sequences of packets", "why_tests_cant": "all sequences and sizes", "anchors": ["netcode/detail/serialize_packet.hh"]}
{"id": "C36", "title": "C interface reports errors faithfully", "statement": "Each C call reports exactly the error class that the C++ call raises, resets the error on success, and returns 0 on error.", "quantifier": "all calls", "why_tests_cant": "all outcomes and all previous contents of the error structure", "anchors": ["netcode/c/detail/check_error.hh", "netcode/c/*.cc"]}
{"id": "C37", "title": "C interface error messages are well managed", "statement": "Any sequence of failing C calls allocates and releases the error message without undefined behaviour and leaves message null or a valid string.", "quantifier": "all sequences of calls sharing an ntc_error", "why_tests_cant": "new[]/delete mismatch and dangling pointers show no symptom in most runs", "anchors": ["netcode/c/detail/check_error.hh: check_error"]}
{"id": "C38", "title": "Every call terminates", "statement": "Each call to the decoder terminates; the recursion it triggers is bounded by the number of repairs held.", "quantifier": "all states (even corrupted ones) and all packets", "why_tests_cant": "non-termination needs adversarial states", "anchors": ["netcode/detail/decoder.cc: add_source_recursive"]}
{"id": "C39", "title": "Failed full decoding loses one repair only", "statement": "When the coefficient matrix is singular exactly one held repair is given up, and it is one that carries no information beyond the others.", "quantifier": "all states in which full decoding is attempted", "why_tests_cant": "needs singular systems of dimension three or more", "anchors": ["netcode/detail/decoder.cc: attempt_full_decoding lines 446-468", "netcode/detail/invert_matrix.cc: invert"]}
{"id": "C40", "title": "Lossless transparency", "statement": "Over a network that loses, duplicates and reorders nothing, a systematic encoder/decoder pair hands out exactly the committed data in order, in both ordering modes, and rebuilds nothing; acks may be lost, duplicated or reordered.", "quantifier": "all sequences of fewer than 2^32 commits of at most 65535 bytes each, of settings and of acks, all field sizes, identifier lists of up to 16 million identifiers (the wire format carries no more)", "why_tests_cant": "all histories", "anchors": ["netcode/encoder.hh", "netcode/decoder.hh"]}
{"id": "C41", "title": "Forcing a repair with nothing to encode", "statement": "generate_repair() is safe to call at any time.", "quantifier": "all encoder states", "why_tests_cant": "the failing state (empty window) arises only after acks empty the window", "anchors": ["netcode/encoder.hh: generate_repair, mk_repair", "netcode/detail/encoder.cc"]}
{"id": "C42", "title": "Data of any length is transmitted unharmed", "statement": "Every non-empty datum (a vector of any length) given to the encoder arrives as the same datum.", "quantifier": "all data lengths", "why_tests_cant": "needs data longer than 65535 bytes", "anchors": ["netcode/detail/source.hh: encoder_source::size", "netcode/detail/packetizer.hh: write_source"]}
{"id": "C43", "title": "Decoder bookkeeping is consistent", "statement": "After each packet of a genuine in-order stream: no source is both held and missing, each held repair lists only missing sources, fewer repairs than missing sources are held, and nb_missing_sources() counts exactly the sources some received repair lists that are neither known nor outdated.", "quantifier": "all histories of an encoder/decoder pair in which repairs that are overtaken do no harm and a source is overtaken by repairs only as long as it is no clash (by none with ordering)", "why_tests_cant": "all histories", "anchors": ["netcode/detail/decoder.cc", "netcode/detail/decoder.hh"]}
{"id": "C44", "title": "Two losses are recovered from two repairs", "statement": "Any two lost sources are recovered from any two distinct repairs which both list them.", "quantifier": "all pairs of repair ids and source ids", "why_tests_cant": "singular 2x2 coefficient minors are sparse among 2^128 quadruples", "anchors": ["netcode/detail/galois_field.hh: coefficient", "netcode/detail/decoder.cc: attempt_full_decoding"]}
{"id": "C45", "title": "No data out of nothing", "statement": "nb_decoded, nb_failed_full_decodings, nb_useless_repairs and the number of repairs still held add up to at most the number of repair packets received: each repair is used at most once, and each rebuilt datum costs one.", "quantifier": "all sequences of packets (arbitrary bytes) and calls", "why_tests_cant": "a counter-example needs a particular sequence of decodings", "anchors": ["netcode/detail/decoder.cc: attempt_full_decoding, add_source_recursive", "netcode/decoder.hh: nb_received_repairs, nb_decoded"]}
{"id": "C46", "title": "Ordering does not influence decoding", "statement": "A decoder with in_order::yes and one with in_order::no that are given the same packets hold the same sources and repairs, miss the same sources and report the same statistics; each datum that the one with ordering hands over, the other hands over too, under the same number.", "quantifier": "all sequences of packets (arbitrary bytes) and calls", "why_tests_cant": "two implementations of every path have to agree on every history", "anchors": ["netcode/detail/decoder.cc: add_source_recursive, flush_ordered_sources, drop_outdated, attempt_full_decoding"]}
{"id": "C47", "title": "Replaying a dump feeds the decoder every dumped packet", "statement": "The replay tool, run on the dump of a decoder, gives its own decoder exactly the packets of that dump, in order.", "quantifier": "all sequences of packets", "why_tests_cant": "all sequences; the packet left out has no visible effect in most runs", "anchors": ["tools/replay.cc", "netcode/detail/serialize_packet.hh", "netcode/decoder.hh: NTC_DUMP_PACKETS"]}
{"id": "C48", "title": "C constructors return a null pointer on failure", "statement": "ntc_new_encoder, ntc_new_decoder, ntc_new_packet and ntc_new_data return an object or, when they fail, a null pointer; they never end the program.", "quantifier": "all arguments and all allocation failures", "why_tests_cant": "needs allocation failures inside constructors or refused field sizes", "anchors": ["netcode/c/encoder.cc", "netcode/c/decoder.cc", "netcode/c/packet.cc", "netcode/c/data.cc", "netcode/detail/galois_field.hh: galois_field"]}
{"id": "C49", "title": "C packets have the size asked for", "statement": "ntc_packet_get_size returns the size given to the last ntc_new_packet_from or ntc_packet_resize, and the bytes given at creation are kept up to the smallest of these sizes.", "quantifier": "all contents and sequences of resizes", "why_tests_cant": "all sequences; sizes cross the 16-bit boundary of the interface", "anchors": ["netcode/c/packet.cc", "netcode/packet.hh"]}
{"id": "C50", "title": "Settings hold until they are changed", "statement": "The code type, window size, adaptive mode, rate, ack period and ack frequency are the last ones set (the documented defaults if never set; the ack frequency is limited to 128), whatever is committed, sent or received in between; only an accepted ack in adaptive mode changes the rate. nb_received_acks() counts the ack packets.", "quantifier": "all sequences of calls and packets (arbitrary bytes)", "why_tests_cant": "all histories: any call could disturb a setting", "anchors": ["netcode/encoder.hh", "netcode/decoder.hh", "netcode/detail/encoder.hh"]}
{"id": "C51", "title": "The adaptive rate follows the loss rate", "statement": "In adaptive mode an accepted ack sets the rate to half of the inverse of the loss rate, rounded up, or to 50 when less than 1 % is lost; the loss rate is the one of the packets emitted since the previous accepted ack.", "quantifier": "all histories of an encoder, all acks", "why_tests_cant": "floating-point rounding and a 16-bit counter: the failing values are isolated", "anchors": ["netcode/encoder.hh: notify_impl, rate_for_loss (lines 288-344)"]}
{"id": "C52", "title": "A decoder forgets what is outdated, and nothing else is", "statement": "A decoder never holds, waits for or keeps a repair listing a source older than the first source of the last repair it took into account. Only a repair that is neither held already nor wholly outdated changes which sources are outdated.", "quantifier": "all sequences of packets (arbitrary bytes) and calls", "why_tests_cant": "all histories", "anchors": ["netcode/detail/decoder.cc: operator()(decoder_repair&&), drop_outdated", "netcode/detail/decoder.hh: m_last_id"]}
{"id": "C53", "title": "What is acknowledged is not lost", "statement": "A source listed in an ack the decoder emitted was handed over, or is held with the committed bytes and waits for an older source; it is never discarded without being handed over.", "quantifier": "all schedules: loss, duplication, delay and reordering in both directions, both ordering modes", "why_tests_cant": "the encoder discards acknowledged sources, so one that the decoder discards as well is lost for good; needs particular interleavings of late sources, repairs and acks", "anchors": ["netcode/decoder.hh: generate_ack, maybe_ack, handle_source", "netcode/detail/decoder.cc: drop_outdated, callback", "netcode/encoder.hh: notify_impl"]}
{"id": "C54", "title": "Bytes after the end of a packet are ignored", "statement": "A decoder or an encoder that is given complete packets followed by any other bytes behaves as if it was given the packets alone: same data, acks, emitted packets, statistics and returned byte counts.", "quantifier": "all histories of calls, all packets (arbitrary bytes), all bytes after them; also a closed system whose network adds bytes to the packets of both directions", "why_tests_cant": "the bytes left in a reception buffer are arbitrary, and the decoder keeps them with the repairs it holds; the example programs hand over whole buffers", "anchors": ["examples/accelerator/transcoder.hh", "netcode/detail/packetizer.hh: read_source, read_repair, read_ack", "netcode/detail/decoder.cc: remove_source_data_from_repair, create_source_from_repair, attempt_full_decoding"]}
{"id": "C55", "title": "An ack period of zero means no automatic acks", "statement": "After set_ack_period(0) a decoder sends an ack only when generate_ack() is called (the documentation: 'If 0, ack won't be sent automatically').", "quantifier": "all sequences of packets and calls, all ack frequencies", "why_tests_cant": "the other trigger needs as many packets as the configured frequency (50 by default), in any history", "anchors": ["netcode/decoder.hh: set_ack_period, maybe_ack"]}
{"id": "C56", "title": "A packet handler that throws loses that packet and nothing else", "statement": "If the packet handler of an encoder throws while it is given a packet, the exception reaches the caller and that packet is lost; the encoder, its window and its identifiers are as if the packet had been sent, so that all that is sent later is decoded correctly.", "quantifier": "all histories and all choices of the packets for which the handler throws", "why_tests_cant": "an exception at each of the handler calls of each history", "anchors": ["netcode/encoder.hh: commit_impl, generate_repair", "netcode/detail/packetizer.hh: write_source, write_repair"]}
{"id": "C57", "title": "A data handler that throws loses that datum and nothing else", "statement": "If the data handler of a decoder throws, the exception reaches the caller of decoder(packet), the data handed over so far are the ones that would have been, and the decoder can be used further.", "quantifier": "all decoder states, packets and choices of the handler calls that throw", "why_tests_cant": "an exception at each of the handler calls of each history", "anchors": ["netcode/decoder.hh: handle_source", "netcode/detail/decoder.cc: add_source_recursive, attempt_full_decoding, drop_outdated, flush_ordered_sources"]}
{"id": "C58", "title": "The packet handler of an encoder may call the library", "statement": "When a packet is complete, the packet handler of an encoder may itself call the library (give the packet to a decoder, give acks to the encoder, change settings, ask for a repair, commit data): it has the same effects as calls made outside of the handler, and no failed assertion or undefined behaviour.", "quantifier": "all histories, all calls from within the handler, for each packet of each commit", "why_tests_cant": "every call at every packet of every history; a loopback in the handler is natural in simulations and in proxies with several encoders", "anchors": ["netcode/encoder.hh: commit_impl, generate_repair, notify_impl", "netcode/detail/packetizer.hh: mark_end"]}
{"id": "C59", "title": "The example tunnel carries the datagrams of both applications", "statement": "Two transcoders of the accelerator example, facing each other over a network that loses, duplicates and delays packets: each application gets datagrams that the other one sent, in the same order, each at most as often as it was sent, and neither program stops (no exception, failed assertion or undefined behaviour).", "quantifier": "all schedules of both applications, of the network in both directions (packets and acks share a socket) and of the timers; all old contents of the reception buffers", "why_tests_cant": "interleavings of two encoders and two decoders, sizes close to the limits of UDP, and old bytes behind each packet", "anchors": ["examples/accelerator/transcoder.hh", "netcode/dispatch.hh", "netcode/encoder.hh", "netcode/decoder.hh"]}
{"id": "C60", "title": "Packets have a fixed layout", "statement": "Sources are type 2, identifier (4 bytes), size (2), data; repairs are type 1, identifier (4), symbol size (2), symbol, list of sources, encoded size (2), symbol size and symbol again; acks are type 0, number of packets (2), list of sources. Numbers are big-endian. A list of sources is the number of runs plus one (2), the first source (4) and the runs of equal gaps, of at most 255, as length (1) and gap (2); so consecutive sources take 6 bytes plus 3 for every 255.", "quantifier": "all packets and acks, all lists of sources", "why_tests_cant": "peers built from different versions or languages rely on each byte; a round trip through the same build cannot reveal a change made in both directions", "anchors": ["netcode/detail/packetizer.hh", "netcode/detail/packet_type.hh"]}
{"id": "C61", "title": "After an ack round trip the window holds exactly what the decoder lacks", "statement": "At any moment, when the decoder sends an ack and the encoder receives it, the sources left in the window of the encoder are those of before that the decoder does not know, in the same order; if it knows them all, window() is 0.", "quantifier": "all reachable states of an encoder and a decoder over a lossy network, ordered or not", "why_tests_cant": "depends on all that was lost, decoded, acknowledged and evicted before", "anchors": ["netcode/decoder.hh: generate_ack", "netcode/encoder.hh: notify_impl", "netcode/detail/source_list.hh: erase"]}
{"id": "C62", "title": "What has left the window is never coded again", "statement": "A source that was acknowledged, or evicted by the window limit, is listed by no repair emitted afterwards, whatever the application and the network do then.", "quantifier": "all histories of up to 2^32 commits, all later calls and packets received", "why_tests_cant": "quantifies over all continuations of all histories, with settings changes and hostile packets", "anchors": ["netcode/encoder.hh: commit_impl, notify_impl, mk_repair", "netcode/detail/source_list.hh: erase, pop_front"]}
{"id": "C63", "title": "A decoder never guesses", "statement": "A decoder holds or hands over a source only if the packets it received determine it: every assignment of data to the sources for which the encoder would have emitted the packets received gives that source the same data.", "quantifier": "all reachable states of an encoder and a decoder, all other assignments of data that fit what was received", "why_tests_cant": "compares each run with all other runs that the decoder cannot tell apart from it", "anchors": ["netcode/detail/decoder.cc: operator(), add_source_recursive, attempt_full_decoding", "netcode/detail/galois_field.hh: coefficient"]}
{"id": "C64", "title": "Enough repairs recover any loss", "statement": "As long as the lost sources stay in the window of the encoder, and repairs keep arriving, the decoder eventually recovers them, whatever their number and their positions.", "quantifier": "all reachable states, all sets of lost sources in the window, all numbers of repairs", "why_tests_cant": "no number of repairs received in a test shows that more would not help", "anchors": ["netcode/detail/galois_field.hh: coefficient", "netcode/encoder.hh: generate_repair", "netcode/detail/decoder.cc: attempt_full_decoding"]}
{"id": "C65", "title": "A decoder makes the best of the repairs it received", "statement": "A repair that arrives is used at once if the repairs available determine the unknown sources it lists, kept for later if they are too few, and given up if it brings nothing; so lost sources are recovered as soon as some of the repairs that arrived since determine them.", "quantifier": "all reachable states, all sets of lost sources, all numbers of repairs and all dependencies between them", "why_tests_cant": "needs all combinations of coefficients of all repairs held; that a decoder never recovers cannot be seen in a finite run", "anchors": ["netcode/detail/decoder.cc: operator(), attempt_full_decoding", "netcode/detail/invert_matrix.cc"]}
{"id": "C66", "title": "Receive buffers may cut repairs and add bytes", "statement": "If every source and every ack arrives whole, every repair at least up to the end of its encoded size (the second copy of its symbol may be missing), and any bytes may follow, the decoder hands over the same data, sends the same acks and has the same statistics as if all packets arrived as sent; no call throws. A repair cut earlier is refused with overflow_error and nothing else changes.", "quantifier": "all schedules of an encoder and a decoder, all places where repairs are cut, all bytes that follow packets", "why_tests_cant": "every cut of every packet of every history, and all later decodings that use the repair", "anchors": ["netcode/detail/packetizer.hh: read_repair, write_repair", "netcode/decoder.hh: operator()", "examples/accelerator-oneway/receiver.cc"]}
{"id": "C67", "title": "The one-way example carries the datagrams of the application", "statement": "The sender and the receiver of the one-way accelerator, over a network that loses, duplicates and delays packets and acks: the application of the receiver gets datagrams that the one of the sender sent, in the same order, each at most as often as it was sent, and neither program stops (no exception, failed assertion or undefined behaviour).", "quantifier": "all schedules of the application, the network in both directions and the timer; all old contents of the buffer for acks", "why_tests_cant": "interleavings of data, acks and timers; sizes close to those of the buffers", "anchors": ["examples/accelerator-oneway/sender.cc", "examples/accelerator-oneway/receiver.cc", "netcode/encoder.hh", "netcode/decoder.hh"]}
{"id": "C68", "title": "What a late source may do to the decoder", "statement": "Without ordering: a source that arrives after repairs that list it is harmless unless it clashes, that is, unless two repairs are held that list it, one of them only it and one more source, and the repairs held do not determine all other missing sources. If it clashes, the decoder is left without a source although a repair that arrived lists it and otherwise only known sources, and in a debug build the arrival of that source fails an assertion.", "quantifier": "all reachable states of an encoder and a decoder, all sources emitted and not yet received", "why_tests_cant": "every order of sources and repairs and every number of repairs that overtake a source", "anchors": ["netcode/detail/decoder.cc: add_source_recursive, remove_source_from_repair, attempt_full_decoding", "netcode/decoder.hh: operator()"]}
{"id": "C69", "title": "What a repair that newer ones have overtaken may do to the decoder", "statement": "A repair that arrives after newer ones changes nothing if it is held already or wholly outdated. It does no harm either unless it lists both outdated sources and others, or starts with the same source as the newest one, lists exactly one unknown source, and repairs are held. In the first of these cases sources the decoder had forgotten are expected again; in the second the source is decoded, but all repairs that are held go on counting it as unknown.", "quantifier": "all reachable states of an encoder and a decoder, all repairs emitted before one that arrived", "why_tests_cant": "every order of arrival of any number of repairs over all windows, losses and acks", "anchors": ["netcode/detail/decoder.cc: operator(), drop_outdated, add_source_recursive", "netcode/decoder.hh: operator()"]}
{"id": "C70", "title": "Losses alone do no harm", "statement": "Over a network that loses and repeats packets but does not reorder them, with field sizes 4, 8 and 16 and fewer than 65536 data: no call fails and no packet or ack is refused; data are handed over intact, at most once, and in the order of the commits with ordering; a source that arrived is handed over unless ordering waits for an older one; a repair with one unknown source brings it.", "quantifier": "all documented calls, all losses and repetitions of packets, all losses, repetitions and reorderings of acks", "why_tests_cant": "every pattern of losses of every history", "anchors": ["netcode/encoder.hh", "netcode/decoder.hh: operator()", "netcode/detail/decoder.cc"]}
{"id": "C71", "title": "The lossy proxy loses what it is told to lose and nothing else", "statement": "The proxy sends on the datagrams that the loss chosen lets pass, in order and unchanged (cut at 4096 bytes), and its counters are right. With a file, packet k is lost if line k does not begin with 0; with a percentage, if the number drawn exceeds 100 minus the percentage; with bursts, according to whether the previous one was lost. An encoder and a decoder on both sides of it go on, and the data arrive intact, at most once, in order with ordering.", "quantifier": "all sequences of datagrams, all files, all numbers drawn, all histories of an encoder and a decoder with packets of at most 4096 bytes", "why_tests_cant": "sequences of losses of any length, all numbers drawn", "anchors": ["tools/lossy_proxy.cc: listen, main", "tools/loss/burst.hh", "tools/loss/stream.hh", "tools/loss/uniform.hh"]}
{"id": "C72", "title": "The forwarder sends on exactly the data of the sources that arrive", "statement": "Of the packets of an encoder, lost, repeated and reordered in any way, the forwarder sends on the data of the sources, in the order in which they arrive, and ignores repairs; it does not stop. If all packets of a systematic encoder arrive in order, all data committed are sent on in order.", "quantifier": "all histories of an encoder (hostile acks included), all subsequences, repetitions and orders of its packets, all old contents of the buffer", "why_tests_cant": "every history and every arrival order; contents of uninitialized memory", "anchors": ["tools/source_forwarder.cc: main", "netcode/detail/packetizer.hh: read_source", "netcode/packet.hh"]}
{"id": "C73", "title": "What a decoder keeps is bounded", "statement": "The memory of a decoder does not grow with the number of data sent: with a window of at most W sources at the encoder, the decoder keeps a bounded number of sources, missing sources and repairs. In detail: it keeps at most the sources committed since the oldest one of any repair that arrived, known or missing, and no more repairs than it misses sources.", "quantifier": "all reachable states of an encoder and a decoder, all window sizes", "why_tests_cant": "histories of any length", "anchors": ["netcode/detail/decoder.cc: drop_outdated, add_source_recursive, attempt_full_decoding", "netcode/encoder.hh: window_size", "netcode/decoder.hh: operator()"]}
{"id": "C74", "title": "A packet handler of a decoder that throws loses that ack and nothing else", "statement": "If the packet handler of a decoder throws while it is given an ack, the decoder goes on as if that ack had not been due: data are handed over as without the exception, no call fails that did not, and the next ack reports all packets since the last ack that was sent, and names all sources held. maybe_ack tries again at the next call.", "quantifier": "all states of a decoder, all calls in which the handler throws, all later calls and packets", "why_tests_cant": "every history before and after the exception", "anchors": ["netcode/decoder.hh: generate_ack, maybe_ack, handle_source, operator()", "netcode/detail/decoder.cc: add_source_recursive", "netcode/detail/packetizer.hh: write_ack"]}
{"id": "C75", "title": "The repairs of the adaptive mode are enough for the losses measured", "statement": "In adaptive mode, after an ack, among the packets that the commits emit the share of repairs is at least the share of packets that, according to that ack, were lost since the previous one.", "quantifier": "all histories of an encoder before and between the acks, all numbers of packets sent and received, all later commits", "why_tests_cant": "every number of packets sent and received, with the rounding of doubles", "anchors": ["netcode/encoder.hh: notify_impl, commit_impl"]}
{"id": "C76", "title": "A stream may have any length", "statement": "An encoder may commit any number of data, and over a network that loses nothing the decoder hands over all of them; identifiers that start again from zero do no harm.", "quantifier": "all numbers of data", "why_tests_cant": "the first failure needs more than four thousand million packets", "anchors": ["netcode/encoder.hh: commit_impl, m_current_source_id", "netcode/detail/decoder.cc: operator(), drop_outdated", "netcode/detail/source.hh"]}
{"id": "C77", "title": "The data handler of a decoder may call the decoder", "statement": "A data handler that calls the decoder it is called by - to ask for an ack, change a setting, or give it a packet - disturbs nothing: the data handed over, their order and number, and what later calls do are the same as if the calls came after it returned.", "quantifier": "all streams of packets, all handlers, all calls they make and all times at which they make them", "why_tests_cant": "the calls happen in the middle of the work of the decoder, in any of its states", "anchors": ["netcode/decoder.hh: handle_source, generate_ack, maybe_ack, set_ack_nb_packets, set_ack_period", "netcode/detail/decoder.cc: operator(), add_source_recursive"]}
{"id": "C78", "title": "Without evictions nothing is skipped", "statement": "If the window of the encoder is never full when a datum is committed (with the default window size: always), over a network that loses and repeats packets but does not reorder them, with field sizes 4, 8 and 16 and fewer than 65536 data: with ordering, the data handed over are the first ones committed, none is skipped. A datum that has left the window is known to the decoder, and when window() is 0 all data committed were handed over.", "quantifier": "all data, calls, settings, losses and repetitions; acks lost, repeated, delayed and reordered", "why_tests_cant": "a datum is lost for good if an ack or a repair that arrives at the wrong moment makes the encoder or the decoder forget it", "anchors": ["netcode/encoder.hh: commit_impl, notify_impl, window", "netcode/decoder.hh: operator(), generate_ack", "netcode/detail/decoder.cc: drop_outdated, flush_ordered_sources"]}
{"id": "C79", "title": "The end-to-end test programs pass", "statement": "end_to_end and end_to_end_mt, with fewer than 65536 data: whichever packets and acks are lost, and with threads for all their schedules, no call fails and the data handler, which throws unless it is given the data one after the other and intact, never throws; if nothing is lost it gets all of them.", "quantifier": "all choices of the packets and acks lost, all schedules of the two threads, all packet sizes the programs accept, all numbers of data and ack frequencies", "why_tests_cant": "the programs are themselves tests, and run one sequence of random losses of the same generator each time", "anchors": ["tests/end_to_end.cc: main, in_order_data_handler, generate_data", "tests/end_to_end_mt.cc: encoder, decoder, packet_handler"]}
{"id": "C80", "title": "At most one loss between two repairs: everything is recovered", "statement": "Over a network that loses and repeats packets but does not reorder them, with the field sizes 4, 8 and 16, fewer than 65536 data, a systematic encoder and a constant rate that is at most the window size: if, as far as a repair that arrives, at most one packet was lost from one repair (excluded) to the next (included), every datum committed before that repair has been handed over; with ordering, in order and before any other. More generally for all settings, if data are evicted from the window only after a repair has listed them.", "quantifier": "all data, settings, calls, losses, repetitions and acks", "why_tests_cant": "there is one pattern of losses for each way to choose a packet of each period, and the window, acks and evictions change what each repair lists", "anchors": ["netcode/encoder.hh: commit_impl, notify_impl, set_rate, set_window_size", "netcode/decoder.hh: operator()", "netcode/detail/decoder.cc: operator(), add_source_recursive, drop_outdated"]}
{"id": "C81", "title": "The basic examples work for other data", "statement": "The basic examples, cpp_basic and c_basic, with any sequence of fewer than 65536 data of valid sizes in place of their two: no call fails, no assertion fails, nothing is written past the end of a buffer, and each datum is handed over right after it was given to the encoder, intact and in order.", "quantifier": "all sequences of fewer than 65536 data", "why_tests_cant": "the examples run two short data; that the fifth datum comes with a repair, which the packet handler appends to the same buffer, shows up only with more and longer ones", "anchors": ["examples/basic/cpp_basic.cc: main, packet_handler, data_handler", "examples/basic/c_basic.c: main, prepare_packet, receive_data"]}
{"id": "C82", "title": "Either program may be restarted", "statement": "When the program with the decoder ends, in whatever state it is, and a new one takes its place while the encoder goes on, everything holds of the new decoder that holds of the first: no call fails, what it hands over is intact, at most once and (if asked) in commit order, acks name only what it has, and losses are recovered from as many independent repairs, so that it gets the whole window of the encoder. The same for a new encoder while the decoder goes on.", "quantifier": "all histories with any number of restarts at any points, any loss, duplication and reordering of packets, and any orderings asked of the decoders", "why_tests_cant": "a test restarts at a few points; what harms is an ack or a packet of before the restart that arrives after it, together with a particular set of losses", "anchors": ["netcode/decoder.hh: decoder, operator()", "netcode/encoder.hh: encoder, notify_impl", "netcode/detail/decoder.cc: operator(), attempt_full_decoding"]}
{"id": "C83", "title": "With ordering, the wait is bounded", "statement": "When ordering is asked for, a datum that arrived is withheld only for a bounded time: it is handed over at the latest when the encoder has moved on by a window and a repair emitted then arrives, whether or not the older data it waited for are ever recovered.", "quantifier": "all histories, window sizes, rates and losses, and all data that arrived", "why_tests_cant": "a test sees the wait for the losses it makes; whether something can be withheld for ever depends on all combinations of losses, acks and evictions", "anchors": ["netcode/detail/decoder.cc: drop_outdated, add_source_recursive, flush_ordered_sources", "netcode/encoder.hh: commit_impl, notify_impl, set_window_size", "netcode/detail/encoder.cc: operator()"]}
{"id": "C84", "title": "Packets are little longer than the data", "statement": "A packet is longer than the data it carries only by a header and the list of the sources it names: a source packet by a fixed header, a repair by a header and a list that is short for consecutive sources compared with the longest datum of the window, and an ack is such a list. So a user can bound the size of all packets from the size of the data and of the window.", "quantifier": "all histories of the encoder and the decoder, window sizes and data", "why_tests_cant": "the length depends on the numbers in the window, which acks can leave with any gaps; a test measures the packets of its own run", "anchors": ["netcode/detail/packetizer.hh: write_source, write_repair, write_ack", "netcode/encoder.hh: commit_impl, notify_impl, set_window_size"]}
{"id": "C85", "title": "A C program does what the C++ program does", "statement": "A program that uses the C interface with one encoder, one decoder, one data object, one packet object and one error object, and uses these again and again, can do all that a program that uses the C++ interface does: its callbacks get the same bytes in the same order, and its calls are undefined or terminate only where those of the C++ program are and do. No message is left allocated.", "quantifier": "all sequences of calls whose data, packets and settings have sizes that the types of the C interface can hold; all sizes the objects were made with; both interfaces with the same settings", "why_tests_cant": "the objects are moved from by some calls and not by others, and what a call does depends on all the calls before it; the tests of the C interface make new objects for each call", "anchors": ["netcode/c/data.cc: ntc_new_data, ntc_data_buffer, ntc_data_get_size, ntc_data_resize", "netcode/c/packet.cc: ntc_new_packet, ntc_packet_buffer, ntc_packet_get_size, ntc_packet_resize", "netcode/c/encoder.cc: ntc_encoder_add_data, ntc_encoder_add_packet, ntc_encoder_generate_repair, ntc_encoder_set_rate, ntc_encoder_set_window_size", "netcode/c/decoder.cc: ntc_decoder_add_packet, ntc_decoder_generate_ack, ntc_decoder_set_ack_period, ntc_decoder_set_ack_nb_packets", "netcode/c/detail/check_error.hh: check_error", "netcode/packet.hh: resize"]}
{"id": "C86", "title": "One encoder may serve several decoders", "statement": "The packets of an encoder may be sent to several decoders, each of which loses others, and the acks of the decoders may be given to the encoder: for each decoder all is as if it were alone. In particular it hands over only data that were committed, and no call is undefined, fails an assertion or throws.", "quantifier": "all numbers of decoders, with or without ordering, their clocks and settings, all interleavings of calls, losses, duplicates and delays of packets and acks", "why_tests_cant": "what the acks of one decoder do to another depends on the combination of losses of both", "anchors": ["netcode/encoder.hh: notify, notify_impl", "netcode/decoder.hh: notify, generate_ack", "netcode/detail/decoder.cc: operator()", "netcode/detail/packetizer.hh: read_ack"]}
{"id": "C87", "title": "A decoder with another field than the encoder does no harm", "statement": "The packets of an encoder may reach a decoder that was made with another size of the Galois field. Data that arrive as source packets are handed over all the same; a repair is refused or ignored, and never gives data that were not committed nor undefined behaviour.", "quantifier": "all pairs of field sizes, all sequences of calls, with or without ordering, all losses of packets", "why_tests_cant": "whether a packet decodes to something wrong depends on all its bytes, on its number and on both fields", "anchors": ["netcode/encoder.hh: encoder", "netcode/decoder.hh: decoder, notify", "netcode/detail/galois_field.hh: galois_field, coefficient", "netcode/detail/packetizer.hh: write_repair, read_repair", "netcode/detail/decoder.cc: operator(), create_source_from_repair"]}
{"id": "C88", "title": "A decoder acknowledges what it handed over until a repair of later sources arrives", "statement": "A source whose datum was handed over, or that an ack asked for named, is named by every ack that the user asks for afterwards, as long as no repair packet has arrived whose sources are all later. A decoder forgets for no other reason.", "quantifier": "all sequences of calls and packets, with any bytes, ordered or not, all fields, debug and release", "why_tests_cant": "depends on everything that the decoder received, decoded and dropped before", "anchors": ["netcode/decoder.hh: generate_ack", "netcode/detail/decoder.cc: drop_outdated, add_source_recursive, attempt_full_decoding, flush_ordered_sources"]}
{"id": "C89", "title": "A decoder only knows sources that a packet named", "statement": "Every source that a decoder hands over, holds or names in an ack is one whose source packet arrived, or that a repair packet that arrived listed.", "quantifier": "all sequences of calls and packets, with any bytes, ordered or not, all fields, debug and release", "why_tests_cant": "a wrong number could come out of any decoding, recursion or ordering step", "anchors": ["netcode/decoder.hh: notify, generate_ack", "netcode/detail/decoder.cc: operator(), add_source_recursive, attempt_full_decoding, create_source_from_repair"]}
{"id": "C90", "title": "Replaying the recording of a decoder does what the decoder did", "statement": "The replay tool, run on the file that a decoder recorded its packets in, has a decoder that hands over the same data, with the same counts, as the recorded one.", "quantifier": "all sequences of calls and packets, all clocks, debug and release", "why_tests_cant": "the run that is replayed is the one that could not be foreseen; the packets that are left out have no visible effect in most runs", "anchors": ["tools/replay.cc: main", "netcode/decoder.hh: NTC_DUMP_PACKETS, operator()", "netcode/detail/serialize_packet.hh"]}
{"id": "C91", "title": "The packet handler of a decoder may call the decoder", "statement": "A packet handler that, given an ack, asks the decoder for further acks or changes its settings returns, and changes neither what is handed over nor whether acks are right.", "quantifier": "all packet handlers that ask for acks and change settings, all packets from any sender; and all schedules of an encoder, a decoder and a lossy network", "why_tests_cant": "the tests use packet handlers that only store the bytes", "anchors": ["netcode/decoder.hh: generate_ack, maybe_ack, set_ack_period, set_ack_nb_packets", "netcode/detail/packetizer.hh: write_ack, mark_end"]}
{"id": "C92", "title": "Ack periods of any length", "statement": "set_ack_period may be called with any number of milliseconds: an ack is sent for the time elapsed exactly when at least that many milliseconds passed since the last one, and a period longer than the program runs means no such acks.", "quantifier": "all periods that std::chrono::milliseconds (or the size_t of the C interface) represents, all clock readings, all sequences of calls and packets", "why_tests_cant": "the tests use periods of a few hundred milliseconds; the arithmetic goes wrong for those that stand for 'never'", "anchors": ["netcode/decoder.hh: maybe_ack, set_ack_period", "netcode/c/decoder.cc: ntc_decoder_set_ack_period"]}
{"id": "C93", "title": "Each end of a connection is what its own calls make it", "statement": "In any run of an encoder and a decoder, whatever the network does, the encoder is in the state that its own calls and the acks that arrived lead to, the decoder in the one that its own calls and the packets that arrived lead to; a run fails exactly when one of the two does. So the statistics and settings of both are those of their own calls.", "quantifier": "all runs: any calls, any loss, duplication, delay and reordering; all fields, debug and release", "why_tests_cant": "any interleaving of the two ends", "anchors": ["netcode/encoder.hh", "netcode/decoder.hh"]}
{"id": "C94", "title": "No packet makes an encoder fail", "statement": "Whatever bytes an encoder is given, none of its calls fails as long as the application gives it data and settings that the interface allows: no commit, no setting, no packet, and no repair that is asked for.", "quantifier": "all sequences of commits, settings, requests for repairs and byte strings received; all fields, debug and release", "why_tests_cant": "any sequence of byte strings, interleaved with any calls", "anchors": ["netcode/encoder.hh: operator()(packet), operator()(data), generate_repair", "netcode/detail/encoder.hh"]}
{"id": "C95", "title": "The generator of traffic finds every loss", "statement": "The server of the traffic generator accepts datagrams as long as they are those of the client, of the size asked for, from the first one on, in order and unchanged, and stops at the first other one; so behind an accelerator it stops exactly at the first datagram that was not handed over.", "quantifier": "all sizes, all numbers of packets, all sequences of datagrams received; all runs of the accelerators", "why_tests_cant": "every size and every sequence of losses and changes", "anchors": ["tools/udp_generator.py: make_packet, client, validate_packet, server", "examples/accelerator-oneway", "examples/accelerator"]}
{"id": "C96", "title": "The order, the delay and the repetition of acks do not matter", "statement": "While its window is not set as small as the number of data committed, what an encoder keeps for its repairs is decided by which data an ack named once they were committed: the data committed, less those. When these acks arrived relative to the commits, to each other and to any other call, how often each arrived and which other packets arrived makes no difference, and, whatever the size of the window, data once named never come back. So two histories with the same commits and the same acks, none before the data that it names, leave the same window.", "quantifier": "all fields, all histories of calls of an encoder with up to 2^32 commits: commits, repairs, changes of settings, packets of any bytes, acks in any order and any number of times", "why_tests_cant": "The interleavings of acks with commits and with each other cannot be enumerated; a test fixes one of them.", "anchors": ["netcode/detail/source_list.hh: erase", "netcode/encoder.hh: notify_impl, commit_impl"]}
{"id": "C97", "title": "The programs do what their command lines say", "statement": "The accelerator, the sender, the receiver, the forwarder and the lossy proxy take the port, the role, the percentages and the files from their arguments as their usage says, whatever else the arguments are; anything else makes them show their usage and exit.", "quantifier": "all numbers of arguments, all strings, all decimal numerals, both builds", "why_tests_cant": "The command lines cannot be enumerated, and the programs have no tests.", "anchors": ["examples/accelerator/accelerator.cc: main", "examples/accelerator-oneway/sender.cc: main", "examples/accelerator-oneway/receiver.cc: main", "tools/lossy_proxy.cc: main", "tools/source_forwarder.cc: main"]}
{"id": "C98", "title": "Each side of the tunnel sends to its own application and to the other side only", "statement": "Once both programs are started, each packet and each ack goes to the other side of the tunnel and each datum that was decoded to the application of the side, in order and completely; a missing address never stops a program; datagrams of others change nothing.", "quantifier": "all addresses, all orders of events, any loss, repetition and delay of the packets of both directions, datagrams of any other sender", "why_tests_cant": "Which address a side has depends on who was heard last, over all interleavings of four parties and the network.", "anchors": ["examples/accelerator/transcoder.hh: packet_handler, data_handler, start_handler, start_app_handler, start_timer_handler", "examples/accelerator/accelerator.cc: main"]}
{"id": "C99", "title": "Machines of different byte orders understand each other", "statement": "The numbers of packets are converted to one byte order, so that machines of both can talk: an encoder and a decoder, each on a machine of either order, behave, for all calls and whatever the network does, as if both were on the same machine.", "quantifier": "all field sizes, all states of an encoder and a decoder, all calls, losses, repetitions and reorderings", "why_tests_cant": "tests run on one machine", "anchors": ["netcode/detail/galois_field.hh: multiply, multiply_add, multiply_size", "netcode/detail/packetizer.hh: read, write", "netcode/detail/encoder.cc: operator()", "netcode/encoder.hh: commit_impl, mk_repair", "netcode/detail/decoder.cc"]}
{"id": "C100", "title": "Running out of memory", "statement": "If there is no memory in a call, the exception std::bad_alloc reaches the caller. The call has then had no effect on what is sent and handed over later, other than that a datum may not have been committed, which the user may give again: what a decoder hands over is still what was committed, each datum at most as often as it was committed, nothing is acknowledged that was not received, and no later call fails for any other reason.", "quantifier": "all field sizes, all histories of calls, any set of calls in which an allocation fails, all losses, repetitions and reorderings", "why_tests_cant": "the point at which the memory runs out, in every history, cannot be enumerated", "anchors": ["netcode/encoder.hh: operator(), commit_impl, notify_impl, mk_repair, generate_repair", "netcode/detail/encoder.cc: operator()", "netcode/detail/source_list.hh: emplace", "netcode/detail/packetizer.hh: read_ack, read_repair", "netcode/detail/decoder.cc: operator(), add_source_recursive"]}
{"id": "C101", "title": "The one-way programs send packets, acks and data to the right address only", "statement": "Once both programs are started, each packet goes to the receiver, each ack to the sender and each datum that was decoded to the application of the receiver, in order and completely; the receiver, which is not told the address of the sender, sends nothing to it before it has it; a missing address never stops a program; datagrams of others change nothing.", "quantifier": "all addresses, all orders of events, any loss, repetition and delay of packets and acks, datagrams of any other sender", "why_tests_cant": "Which address a program has depends on who was heard last, over all interleavings.", "anchors": ["examples/accelerator-oneway/sender.cc: packet_handler, netcode_handler, main", "examples/accelerator-oneway/receiver.cc: packet_handler, data_handler, netcode_handler, main"]}
