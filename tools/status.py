LIM = ("Proved for every schedule in which a repair that is overtaken by newer ones does no harm (C69: the exact limit) and a source that is "
       "overtaken by several repairs is no clash (C68: the exact limit without ordering), with unlimited loss, duplication and delay, identifier lists the wire "
       "format can carry and, for w = 32, sizes whose products fit in 16 bits (Spec/Schedule.lean, Spec/Late.lean). ")
status = {
 "C01": ("partial", LIM + "C01_false: a stale link makes the decoder hand out wrong bytes when a source is overtaken by two repairs. C01_false_w32: in GF(2^32) a datum of 36 bytes is handed out as 4 bytes. C01_false_gap: a window with a gap of 65536 identifiers, no reordering: the repair names a wrong source on the wire and wrong bytes are handed out.", []),
 "C02": ("partial", LIM + "C02_false: duplicates when repairs are reordered.", []),
 "C03": ("partial", LIM + "C03_false refutes the claim without the limits.", []),
 "C04": ("partial", "Proved for the schedules of Spec/Schedule.lean: as for C01, and with in-order delivery no repair may overtake a source (C04_late_false shows that this limit is needed). C04_false refutes the claim without the limits.", []),
 "C05": ("partial", LIM + "The C05_false_* theorems give genuine traffic that meets a dangling iterator, a failed assertion and a dereference of end(); C05_false_w32 an out-of-bounds read in GF(2^32).", []),
 "C06": ("proved", "All non-empty byte strings; the empty packet is C06_empty_packet.", []),
 "C07": ("partial", "False for crafted repairs: C07_false_empty (C07_false_any: whatever was received before), C07_false_read and C07_false_write reach undefined behaviour. C07_sources_safe_partial: arbitrary bytes without a whole repair packet never fail. C07_crafted_iff_partial: on a decoder that holds no repairs, exactly which whole repair packets, crafted or not, are handled without a fault; C07_at_once_safe_partial: no other call on such a decoder fails. C07_kept_iff_partial: on a decoder that was given any bytes and holds any repairs, exactly which repair packets that it has to keep are handled without a fault; C07_nothing_new_partial: repairs that bring nothing new do no harm to it. C07_other_source_partial: on such a decoder without ordering, if it misses more sources than it holds repairs, a source for which no repair waits is handled without a fault and handed over; C07_ordered_source_partial: the same with ordering, where it is withheld if it is not the next one; C07_next_source_partial: if it is the next one, withheld data may follow it; C07_awaited_iff_partial: exactly which sources that held repairs wait for, if nothing is decoded with them, are handled without a fault; C07_known_source_partial: known sources never do harm. C07_faults_partial: for any bytes, the faults that remain; with assertions a decoder never writes outside of a buffer. Missing: which packets are safe for decoders that hold repairs, if something is decoded, becomes outdated or, with ordering, is released with them.", []),
 "C08": ("proved", "", []),
 "C09": ("partial", "Fails when identifiers are 65536 or more apart (C09_false); proved for every list the wire format can carry.", []),
 "C10": ("partial", "Fails when identifiers are 65536 or more apart (C10_false); proved for every list the wire format can carry.", []),
 "C11": ("partial", "C11_lossless_iff_partial characterises exactly when the encoding is lossless; C11_false is a pair of identifiers 65536 apart; C11_any_bytes_give_a_set: whatever is read is a set.", []),
 "C12": ("partial", "Exact for sources and acks; for repairs the number excludes the symbol written twice (C12_repair_bytes_false).", []),
 "C13": ("proved", "", []),
 "C14": ("proved", "", []),
 "C15": ("proved", "", []),
 "C16": ("proved", "", []),
 "C17": ("proved", "", []),
 "C18": ("proved", "", []),
 "C19": ("partial", LIM + "C19_false_w32 refutes it when sizes overflow in GF(2^32).", []),
 "C20": ("partial", LIM + "C20_n_losses_partial: for repairs that no newer one has overtaken; C20_overtaken_partial: for the others, when they complete the equations of all missing sources. C20_false_w32 refutes it when sizes overflow in GF(2^32).", []),
 "C21": ("partial", "Proved for w = 4, 8, 16 and, for w = 32, when the product fits in 16 bits; C21_false for w = 32.", []),
 "C22": ("partial", "Proved when the window size is set before any commit exceeds it; C22_false: shrinking the window does not evict.", []),
 "C23": ("proved", "", []),
 "C24": ("proved", "For every sequence of calls with arbitrary bytes. C24_acks_known_partial adds, for genuine traffic, that the data held for these identifiers are the committed ones.", []),
 "C25": ("proved", "", []),
 "C26": ("proved", "", []),
 "C27": ("proved", "", []),
 "C28": ("proved", "", []),
 "C29": ("partial", "Counters: every history. Deliveries: every history without ordering; with ordering, every permitted run (C29_ordered_partial: exact, counting what waits for its turn; C29_late_partial: never more, when sources may be late; C29_late_false: then possibly fewer). C29_false: with ordering a source can be lost (same cause as C04_false).", []),
 "C30": ("proved", "", []),
 "C31": ("proved", "", []),
 "C32": ("proved", "", []),
 "C33": ("partial", "Everything but the number reported when 65536 or more packets arrive between two acks, which wraps around (C33_false).", []),
 "C34": ("proved", "C34_huge_resize shows what lies beyond the size limit of the statement.", []),
 "C35": ("partial", "Packets of at most 65526 bytes; C35_false: the length of longer ones is truncated to 16 bits.", []),
 "C36": ("proved", "", []),
 "C37": ("partial", "C37_false_mismatch: new[] released by delete; C37_false_unterminated: no terminating NUL; C37_false_dangling: released but not reset. Proved: sequences of classified errors, and one unclassified one.", []),
 "C38": ("proved", "", []),
 "C39": ("partial", "Exactly one repair is given up, always the last one held; C39_packet_partial: what a packet after which the counter has grown did and did not, in any state and for any bytes; C39_false: it may be independent of the others, which then stay although one of them is redundant.", []),
 "C40": ("proved", "For every field size, both modes and both builds.", []),
 "C41": ("partial", "Safe whenever the window is not empty (C41_repair_partial); undefined otherwise (C41_false_empty, C41_false).", []),
 "C42": ("partial", "Data of at most 65535 bytes; C42_false: longer data are truncated.", []),
 "C43": ("partial", LIM + " C43_false: with repairs out of order, a decoder holds a repair that lists a source it knows and which is not missing.", []),
 "C44": ("partial", LIM + "For pairs with a non-zero 2x2 determinant; C44_false: two repairs of GF(2^8) whose determinant is zero.", []),
 "C45": ("proved", "", []),
 "C46": ("proved", "", []),
 "C47": ("partial", "C47_false: the last packet of a dump is never replayed; C47_replay_partial: all the others are.", []),
 "C48": ("partial", "C48_false, C48_false_field: a constructor that throws ends the program. C48_null_partial: a null pointer exactly if the memory of the object itself is refused; C48_field_partial: which field sizes do what, in both builds.", []),
 "C49": ("proved", "", []),
 "C50": ("proved", "", []),
 "C51": ("partial", "Exact for IEEE-754 double arithmetic, except when exactly one packet out of 98 is lost (C51_false: 50 instead of 49) and when 65536 or more packets are emitted between two acks (C51_wrap_false).", []),
 "C52": ("proved", "", []),
 "C53": ("partial", "Proved for the schedules of Spec/Schedule.lean (with in-order delivery, no repair overtakes a source). C53_false: with in-order delivery and one repair overtaking two sources, an acknowledged source is discarded by the decoder and the encoder and never handed over.", []),
 "C54": ("proved", "C54_incomplete shows why the packets have to be complete.", []),
 "C55": ("partial", "C55_false: acks are still sent when the count of packets is reached; C55_count_only_partial: for no other reason.", []),
 "C56": ("partial", "Proved for handlers that throw in generate_repair() only, and, of a commit whose handler throws, what it leaves behind (C56_commit); C56_false_commit, C56_false_retry, C56_false_auto: after an exception in a commit the identifier is used again and a decoder hands over a datum that was never given.", []),
 "C57": ("partial", "Proved: everything up to the exception, the state after it when the handler throws for the source just received, and that the exception reaches the caller without ordering. C57_false_next: after an exception during a full decoding the next packet is a failed assertion or undefined behaviour; C57_false_terminate: with ordering the exception may end the program.", []),
 "C58": ("partial", "Proved for all calls but commits, as long as the window is not empty when an automatic repair is due. C58_false_ack: an ack from within the handler that empties the window before the automatic repair; C58_false_commit: a commit from within the handler reuses the identifier.", []),
 "C59": ("partial", "Proved for datagrams of at most 32697 bytes, under the limits of the closed system (no harmful overtaken repair, C69; a source may be overtaken by repairs as long as it is no clash: late = true, the schedules of Spec/Late.lean) and acks that fit in the buffers (always so up to 21832 datagrams: C59_short_partial). C59_false_long: a repair longer than a UDP datagram ends the program; C59_false_cut: a source packet of 65505 bytes or more is cut by the buffer of the receiver and ends the program there.", []),
 "C60": ("proved", "For lists in increasing order of 32-bit identifiers, which all those of the library are (C60_genuine, and C60_repairs_any and C60_acks_any whatever bytes arrive).", []),
 "C61": ("partial", "Proved for all schedules, whatever the network does (the theorems with any in their names), as long as the lists of sources of repairs and of the ack fit in the wire format, always so below 2^16 commits: C61_short_any_partial. C61_false: after an outage of 65536 sources the ack makes the encoder forget a source the decoder does not know and keep one it knows.", []),
 "C62": ("proved", "For sources committed before; an ack may name a source not committed yet, which is then listed later (example beside the theorem).", []),
 "C63": ("partial", "Proved for the schedules of Spec/Late.lean (a superset of those of Spec/Schedule.lean); C63_false: with a gap of 65536 identifiers in a window the decoder hands over a source that what it received does not determine; C01_false and C02_false show that the other limits are needed.", []),
 "C64": ("partial", "C64_false_congruent, C64_false_more: two lost sources whose numbers differ by a multiple of 2^w - 1 (15 in GF(2^4), 255 in GF(2^8)) have the same coefficient in all repairs up to the 65000th or so, and are never recovered; C64_false_many: nor are 2^w losses or more in one window. C64_false_same_repair: repairs of the same window whose numbers differ by a multiple of 2^w - 1 are the same repair. C64_two_recovered_partial: any other two losses are recovered within 2^w repairs, in GF(2^4) and GF(2^8). One loss: C19; several: C20, C65.", []),
 "C65": ("partial", "C65_rule_partial: the exact rule, for all states of the closed system. C65_false_stuck, C65_false: dependencies are only looked for when the repairs are as many as the unknown sources, and the last repair is then given up; when the others already depend on each other they stay for ever and every later repair is given up, so that the sources are never recovered although repairs that arrived determine them.", []),
 "C66": ("partial", "Proved for the schedules of Spec/Schedule.lean (late = false) and of Spec/Late.lean (late = true); that shorter repairs are refused (C66_limit) for all decoders. C66_false: in GF(2^32), when sizes overflow, what follows a packet is handed over.", []),
 "C67": ("partial", "Proved for datagrams of at most 3316 bytes, under the limits of the closed system (no harmful overtaken repair, C69; a source may be overtaken by repairs as long as it is no clash: late = true, the schedules of Spec/Late.lean) and acks that fit in the buffer of 4096 bytes (always so up to 1363 datagrams: C67_short_partial). C67_timer_partial: what the timer of the receiver does. C67_false_cut: the source packet of a datagram of more than 4089 bytes is cut by the buffer of the receiver and ends the program; C67_false_repair: so does a repair after a datagram of 4082 bytes or more.", []),
 "C68": ("proved", "C68_in_time_iff: the schedules of Spec/Schedule.lean admit a source without ordering exactly when it is no clash (and C05_no_fault_partial then says that it is harmless); C68_clash: what happens otherwise.", []),
 "C69": ("proved", "C69_ignored; the other harmless ones are part of the schedules of Spec/Schedule.lean, for which C05_no_fault_partial, C01 and the others are proved; C69_cases: what is left out are exactly the two cases of C69_false_back and C69_false_single, which say what goes wrong there.", []),
 "C70": ("proved", "", []),
 "C71": ("partial", "C71_false_uniform: percentages 0 and 100 fail an assertion; C71_false_burst: p_good and p_bad are off by one as percentages (with p_good = 100 one packet in a hundred is lost). All else as stated: C71_forwards, C71_file, C71_uniform, C71_burst, C71_link, C71_directions, C71_both, C71_no_stop.", []),
 "C72": ("partial", "C72_forwards, C72_all: for data of at most 4089 bytes; C72_false_long: the packet of a longer datum is cut by the buffer of 4096 bytes and ends the program. C72_false_short: of a datagram that is shorter than it says, uninitialized memory is sent on. C72_stops: the first datagram that the parser rejects ends the program.", []),
 "C73": ("partial", "C73_bound_partial: the bounds in terms of the data committed since the oldest source of a repair that arrived, within the limits of the closed system. C73_false: there is no bound otherwise, whatever the window: only repairs make a decoder forget sources, so that a decoder to which no repair comes (a high rate, or repairs lost) keeps all sources for ever.", []),
 "C74": ("partial", "Proved for the calls of generate_ack (C74_generate_ack_partial) and maybe_ack (C74_maybe_ack) by the user. In a closed system with such calls, integrity, order and what acks list are kept, and no call fails (C74_integrity_partial, C74_acks_partial, C74_no_fault_partial; with late sources C74_late_partial, C74_no_fault_late_partial). C74_source, C74_false_twice: if the ack was due because a source was handed over, the decoder forgets that source, and its datum is handed over again when the packet is repeated.", []),
 "C75": ("partial", "C75_enough_partial: if at most a third of the packets were lost, for systematic encoders and whole periods of the rate. C75_false: two packets of five lost, and one repair in three packets. With more than half lost no rate is enough: the least is one repair for each source.", []),
 "C76": ("partial", "C76_below_partial: with fewer than 2^32 data. C76_false: the datum after the first 2^32 has identifier 0 again; the decoder takes it for an outdated one and ignores it, though nothing was lost. C76_false_twice: with ordering, the datum with the last identifier, 2^32 - 1, is handed over twice: after it the number of the next datum to hand over is 0, so that it is also withheld, and a repair of it has it handed over again. C76_false_repairs: the repair after 2^32 others has the number 0 again; while the first repair 0 is held, it is taken for it, and the only unknown source that it lists is not handed over.", []),
 "C77": ("partial", "C77_same_partial: for any packets, handlers that ask for acks and change settings change nothing but acks; C77_system_partial, C77_no_fault_partial: these acks do no harm to the encoder and the decoder (Spec/Schedule.lean and Spec/Late.lean). Packets given from the handler: C77_false_again (the packet being handled, for all decoders without repairs) and C77_false_other (another source, when a repair of both is held): the same datum is handed over twice, and an assertion fails.", []),
 "C78": ("proved", "The theorems with the suffix _partial are for the schedules of Spec/Schedule.lean, with some reordering and more data. C78_evicted: with evictions a lost datum is skipped even when window() is 0.", []),
 "C79": ("proved", "The flag that ends the threads is read without synchronisation (a data race); it is not modelled.", []),
 "C80": ("proved", "C80_small_window: with a rate above the window size a single loss may not be recovered; C80_two_losses: nor are two losses in one period.", []),
 "C81": ("partial", "C81_cpp: the C++ example, in full. C81_c_partial: the C example for data of at most 332 bytes. C81_false_long, C81_false_fifth: it copies into a packet of 1024 bytes without looking at the size, and writes past its end for a datum of more than 1017 bytes, or for a fifth datum of 333.", []),
 "C82": ("partial", "For decoders, if acks do not outlive the decoder that sent them and a new decoder gets no packets emitted before the last ack reached the encoder: C82_no_fault_partial, C82_integrity_partial, C82_at_most_once_partial, C82_in_order_partial, C82_withheld_partial, C82_single_loss_partial, C82_n_losses_partial, C82_acks_known_partial; with late sources: the theorems ending in _late_partial. C82_counters: the counters, without any limits. Both limits are needed (C82_false_old_ack, C82_false_old_packet: without any reordering of packets, data that were never committed are handed over). With ordering a new decoder hands over nothing before a repair arrives (C82_waits_for_repair), and may wait for what an earlier one acknowledged (C82_false_waits). False for encoders: C82_false_new_encoder.", []),
 "C83": ("partial", "On the schedules of C01. In general: a known source is handed over at the latest when a repair all of whose sources are newer arrives (C83_passed_partial). When no acks reach the encoder, a repair that lists a source one window later is such a repair (C83_bounded_partial), and so is the next one asked for once a window of data has been committed (C83_next_repair_partial). False when acks arrive (C83_false_stall, C83_false): they keep the window from filling, so that two lost sources with equal coefficients stay in it; with ordering 60000 later data arrive and none is handed over.", []),
 "C84": ("partial", "The exact length of all packets: a source is 7 bytes longer than its datum (C84_source), an ack has at most 9 bytes and less than 3 for each source it names (C84_ack), and a repair has 17 bytes, twice the longest datum of the window, and less than 3 for each source of the window (C84_repair). So packets are bounded by the longest datum and the window size (C84_fits_partial), and with no acks the list of sources takes 6 bytes and 3 for each 255 sources (C84_no_acks_partial, on the schedules of C01). False for repairs (C84_false): write_repair writes the symbol twice.", []),
 "C85": ("partial", "Step by step the objects of a C program that uses one object of each kind are those of the C++ program (C85_program_partial), for all sequences of calls whose sizes fit in the types of the C interface and that have no maybe_ack, which it does not have. False without that: a repair of a datum of 32760 bytes or more does not fit in a C packet, whose size is a uint16_t, and copying it is undefined behaviour (C85_false); the size of a packet that the decoder took is given as 65527 (C85_false_size).", []),
 "C86": ("partial", "If the acks of no other decoder reach the encoder (so for all decoders if there are no acks), the encoder and a decoder are in a state that they reach without the others (C86_alone_partial), so that all the theorems on one encoder and one decoder apply (C86_integrity_partial, C86_no_fault_partial). False with the acks of another one: C86_false, two decoders to which packets come in the order they were emitted in, and the one that sent no ack hands over a datum that was never committed.", []),
 "C87": ("partial", "Without losses, a pair with different fields goes through exactly the states of a pair with the same field (C87_same_partial), so that everything is handed over, in order and without a fault (C87_transparent_partial). False with one lost packet: C87_false, a decoder for GF(2^4) hands over a datum that was never committed to the encoder for GF(2^8); C87_false_ub, it reads outside of the packet.", []),
 "C88": ("proved", "", []),
 "C89": ("proved", "", []),
 "C90": ("partial", "For a field of 8 bits, in order, and packets of at most 65526 bytes: the replay does exactly what was done before the last packet or before the first packet that was rejected with an exception, and ends as it should (C90_replay_partial). False otherwise: C90_false_last, C90_false_throw, C90_false_order, C90_false_field.", []),
 "C91": ("partial", "For handlers that ask for no more acks from their k-th ack on: same data, same results, same state but for acks (C91_same_partial), the invariants of the closed system (C91_system_partial) and no fault (C91_no_fault_partial). A handler that calls maybe_ack for each ack never returns (C91_false_maybe); packets are reported twice (C91_false_count).", []),
 "C92": ("partial", "Up to 292 years the 64-bit arithmetic of the timer is exact, for all calls and packets (C92_exact_partial), and maybe_ack decides as stated (C92_when_partial). Beyond, the behaviour is undefined (C92_false), and in C the greatest periods, as SIZE_MAX, cause an ack each time (C92_false_c).", []),
 "C93": ("proved", "C93_ends, C93_fails; for statistics and settings C93_statistics and, without ordering, C93_deliveries.", []),
 "C94": ("partial", "For histories of any length, beyond 2^32 commits too: C94_no_call_fails_partial: a call fails exactly if it asks for a repair of an empty window; C94_no_history_fails: none does if no repair is asked for (the automatic ones are no problem). C94_false: one made-up ack empties the window, and the next repair that the application asks for is undefined behaviour.", []),
 "C95": ("partial", "Exactly for sizes that are multiples of 4, from 4 to 4096 (C95_size_iff): C95_accepts_iff, C95_detects; through the accelerators, under the limits of C67 and C59: C95_oneway_partial, C95_tunnel_partial. C95_false_size: with any other size the server rejects the first datagram of the client; C95_false_many: the client fails after 2^32 datagrams.", []),
 "C96": ("proved", "C96_window gives the window after any history in which it is never set as small as the data committed; C96_same and C96_order compare two histories, even of different fields and builds; C96_gone holds whatever the size. Both conditions are needed: with a window that is full, an ack that comes after the next commit finds that the oldest element was dropped (C96_needs_room), and an ack that names data not committed yet is forgotten (C96_needs_commit). Complements C23 (one ack) and C25 (evictions).", []),
 "C97": ("partial", "Proved for ports below 65536 and percentages in decimal digits, all other arguments being any strings (C97_accelerator_partial, C97_oneway_partial, C97_burst_partial, C97_uniform_partial, C97_file_partial, C97_kind_partial; C97_blanks_partial: blanks and a plus sign in front make no difference). C97_false_port: a larger port is taken modulo 65536, and the behaviour is undefined from 2^31 on; C97_false_word: words are taken for port 0; C97_false_burst: seven arguments are accepted with bursts, and two null pointers are then read; C97_false_percent: without assertions a percentage above 100 loses nothing; C97_false_negative: negative ports and percentages are accepted and wrap around.", []),
 "C98": ("partial", "Proved for any run of the two sides and their applications, where that of the server speaks only once it was spoken to: C98_right_partial, C98_data_partial, C98_runs_partial. C98_false_stranger, C98_false_two: one datagram from anybody, be it empty, takes over the traffic of a side; C98_false_eager: a server whose application speaks first stops.", []),
    "C99": ("partial", "Holds with fields of 4 and 8 bits, for an encoder and a decoder on machines of either byte order, all calls and networks (C99_same_partial; C99_field_partial: the operations on the field). With every field, two machines of the other byte order do what two little-endian ones do with data in which the bytes of all words are reversed, and conversely (C99_big_partial, C99_big_all_partial), so no allowed call fails and only committed data are handed over, once and in order (C99_big_safe_partial, C99_big_integrity_partial). With every field and any machines, as long as only sources have arrived, all is as on little-endian machines except for the symbols of repairs (C99_sources_partial). False for machines of different orders with 16 and 32 bits: regions are multiplied word by word in the order of the machine, and a decoder on a machine of the other order than that of the encoder hands over a datum never committed (C99_false, C99_false_w32).", []),
    "C100": ("partial", "Proved for every history in which the memory of the encoder runs out in any calls, unless it does for a repair within a commit, or that for the list of sources of a repair that arrives or of an ack that is asked for (C100_integrity_partial, C100_no_fault_partial, C100_acks_partial; with late sources C100_late_partial, C100_no_fault_late_partial); C100_retry: failed commits leave no trace after the next one that succeeds; C100_ack_retry: the same for acks that are asked for; C100_repair, C100_ack, C100_commit, C100_read: the effects of single calls; C100_model: without failures this is the model of the other properties. False when there is no memory for a repair within a commit: the number of the source is used again (C100_false, C100_false_next, C100_false_first). False for a decoder: a datum is handed over twice (C100_false_decoder), and a repair that is linked with some of its sources only makes a later call read past the end of a map (C100_false_links). Without memory for a matrix decoding is only put off (C100_matrix), but the next repair reads memory that was not written (C100_false_matrix); without memory for one of the sources that are decoded, the ones before it are handed over twice (C100_false_decoded; C100_symbol: nothing was wrong with the repairs then). C100_matrix_call, C100_link_call, C100_rebuild_call, C100_source_node: the same for the calls of the API, with counters and acks. Without memory for a source that is rebuilt from one repair, std::terminate is called, as the function is noexcept (C100_false_terminate; C100_rebuild: only then). Not modelled: the nodes of the maps for decoded sources and for sources that wait for their turn.", []),
    "C101": ("partial", "Proved for all runs of the sender and the receiver among themselves: C101_right_partial, C101_all_partial, C101_runs_partial. C101_false_sender, C101_false_receiver: one datagram from anybody, be it empty, takes over what a program sends, until it hears of the other one again.", []),
}
