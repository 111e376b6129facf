B = "Drip.Bitfield"
c("C01", "proved", B, "C01_bitfield_is_set")
c("C02", "proved", B, "C02_items")
c("C03", "proved", B, "C03_difference C03_difference_items")
c("C04", "proved", B, "C04_panic_iff C04_small_negative C04_new_in_bounds C04_add_length", "The test bitfield_test.go:21-26 of the repository expects Has(16) = false on two bytes; the code panics there, as C04_panic_iff says.")
W = "Drip.PeerWire"
c("C05", "proved", W, "C05_layout C05_roundtrip")
c("C06", "proved", W, "C06_stream C06_injective")
c("C07", "proved", W, "C07_outcome C07_wellformed")
c("C08", "proved", W, "C08_layout C08_accept C08_roundtrip")
c("C09", "proved", W, "C09_message C09_handshake")
D = "Drip.Bencode"
c("C10", "proved", D, "C10_canonical C10_unique")
c("C11", "proved", D, "C11_map_order C11_permuted")
c("C12", "proved", D, "C12_roundtrip C12_accepts_iff")
c("C14", "proved", D, "C14_exact C14_only_source_bytes")
c("C15", "proved", D, "C15_sorted C15_rejected")
c("C16", "proved", D, "C16_prefix C16_sequence")
c("C18", "proved", D, "C18_int C18_uint")
c("C19", "partial", D, "C19_no_panic_refuted C19_huge_length_refuted C19_no_panic_partial C19_raw_no_panic_partial C19_exactly_partial",
  "False of the code: a dictionary key with a negative length, or any length above 2^48, makes Unmarshal panic in make. Proved for inputs whose length texts are all between 0 and 2^48; and, decoding into an any, exactly which texts panic (Fatal in Spec/Fatal.lean).")
c("C20", "proved", D, "C20_limit C20_nesting C20_output_depth")
c("C13", "proved", D, "C13_roundtrip C13_roundtrip_ok", "Round-trippable values are the inductive predicate RT in Spec/RoundTrip.lean: also any with the types Unmarshal chooses, and nil or pointer struct fields. Map order is not significant. Values nested more than 1000 deep are refused by Marshal.")
c("C17", "proved", D, "C17_unknown_keys")
c("C21", "proved", D, "C21_truncated")
c("C22", "proved", D, "C22_terminates C22_bound_irrelevant")
c("C23", "proved", D, "C23_offset")
c("C24", "proved", D, "C24_unique_key C24_increasing C24_resolved C24_dominant")
c("C25", "partial", D, "C25_wellformed_refuted C25_confused_refuted C25_nil_top_refuted C25_nil_element_dropped C25_wellformed_partial",
  "False of the code: a map with a nil value is written as a key without a value (with two, as a well-formed but different map), and a nil at the top as nothing. Proved for values without nil in lists, maps, pointers, interfaces (nil struct fields allowed).")
c("C26", "partial", D, "C26_reuse_partial C26_stream C26_budget_partial C26_reuse_refuted",
  "False after failures: ptrDepth is not restored when Encode fails, so repeated failures exhaust the nesting budget. Proved after any sequence of successful calls; after any calls: every value needs a number of levels of its own and is encoded as on a fresh encoder if and only if these are left.")
c("C27", "proved", D, "C27_injective C27_prefix_free C27_streams")

S = "Drip.Storage"
c("C38", "proved", S, "C38_verified C38_readable")
c("C39", "proved", S, "C39_right_bytes")
c("C40", "proved", S, "C40_load_sound C40_nothing_lost C40_disk")
c("C41", "proved", S, "C41_completes C41_results")
c("C42", "proved", S, "C42_accepted C42_reported")
c("C43", "partial", S, "C43_no_panic_refuted C43_after_end_refuted C43_index_refuted C43_no_panic_partial C43_exactly_partial",
  "False of the code: an empty block at the end of a piece of a multiple of 16 KiB, a full block behind the end, a negative offset or an index that is not a piece panic. Proved for indexes and offsets inside the torrent and the piece, and exactly when it panics.")
c("C44", "proved", S, "C44_layout C44_read")
c("C45", "proved", S, "C45_consistent C45_monotone")
c("C46", "partial", S, "C46_redownload_refuted C46_stuck C46_reset_partial C46_restart_partial",
  "False of the code: after any checksum failure ResetPiece panics and every block is refused (C46_stuck). Proved: a piece without a delivered error can be reset and completed; after a restart and Load every piece can be completed.")
c("C47", "partial", S, "C47_downloaded_refuted C47_loaded_refuted C47_loaded_partial C47_calls_partial C47_history_partial",
  "False of the code: Downloaded does not change when a piece completes and grows when one fails its checksum. Proved right after Load, except for complete multi-file torrents. What it is instead is proved for every later history: what Load found plus the lengths of the pieces that failed their checksum.")
c("C53", "partial", S, "C53_contents_refuted C53_names_refuted C53_panic_refuted C53_names_partial C53_exactly_partial C53_target_partial",
  "False of the code: contents are not verified, names are only matched as a prefix, and foreign names can panic. Proved: a piece is marked only because of the target or a file whose name begins with a number and .piece; and, for every content of the directories when no call to the os fails, exactly when Load panics and exactly which pieces it reports.")
c("C75", "partial", S, "C75_name_refuted C75_always_refuted C75_name_partial C75_exactly_partial",
  "False of the code for the names '', '.' and '..', for which Load reports every piece. Proved for all other names.")
c("C76", "partial", S, "C76_available_refuted C76_available_partial C76_exactly_partial",
  "False of the code between a failed removal of the work directory and the next restart. Proved otherwise; and (C76_exactly_partial) exactly when: a block of a reported piece can be read if and only if the torrent has completed in this process or the file of the piece is still in the work directory.")

M = "Drip.Metainfo"
c("C28", "proved", M, "C28_info_hash")
c("C29", "proved", M, "C29_marshal C29_unmarshal C29_reject C29_roundtrip",
  "Pieces is marshalled through a pointer (the method has a pointer receiver); a Pieces value that is not addressable is encoded as a list instead, see C10.")
c("C30", "proved", M, "C30_total C30_tiling", "Lengths are unbounded integers (no int64 overflow).")
c("C31", "partial", M, "C31_multi_file_refuted C31_never_files C31_single_file_partial",
  "False of the code: the decoder panics on the first element of files (nil *File). Proved: an Info that decodes has no files; a single-file Info decodes.")
c("C32", "proved", M, "C32_single_file")
c("C77", "proved", M, "C77_field_by_field")

T = "Drip.Tracker"
c("C33", "proved", T, "C33_reads C33_roundtrip C33_encode C33_exact C33_decode C33_refuses", "The two hashes have 20 bytes and the numbers fit int64, as in Go.")
c("C34", "proved", T, "C34_writes C34_roundtrip C34_marshal C34_unmarshal C34_accepts C34_refuses",
  "net.ParseIP is modelled in full, IPv6 texts included. Strings up to 2^48 bytes.")
c("C35", "partial", T, "C35_no_panic_refuted C35_lists_partial C35_other_partial C34_accepts",
  "False of the code: a list entry that is not a dictionary with a string id, a string address and an integer port panics. Proved: which values are accepted, refused, and which panic.")
c("C36", "partial", T, "C36_roundtrip_refuted C36_roundtrip_partial C36_marshal_partial",
  "False of the code for the nil list, which is marshalled to no bytes at all. Proved for every other list.")
c("C37", "proved", "Drip.Magnet", "C37_parameters", "Links that begin with magnet:?; parameters without control characters; the fragment has no escapes.")
c("C78", "partial", T, "C78_nil_list_refuted C78_response_partial",
  "False of the code for a nil peer list in the list form, which makes the whole response unreadable. Proved for every response whose peers are missing, compact IPv4, or a list that is not nil.")

c("C48", "proved", "Drip.Future", "C48_blocks C48_wakes C48_value C48_second",
  "Interleavings of atomic steps (sequential consistency; the value is written before the channel is closed and read after).")

P = "Drip.Multi"
c("C54", "proved", P, "C54_get C54_history",
  "The network is arbitrary. Announces one after the other: the code has no lock, see C81. An answer that makes the decoder panic (C35) stops the program, and the theorem says so.")
c("C55", "proved", P, "C55_tiers C55_every_order", "rand.Shuffle is modelled with arbitrary random numbers; slices are arrays in a heap.")
c("C56", "partial", P, "C56_usable_refuted C56_usable_partial",
  "False of the code: without trackers there is neither a response nor an error, and a response without peers is accepted; both crash the server. Proved if there is a tracker and the answer has a peers entry.")
c("C79", "partial", P, "C79_left_refuted C79_left_stays_refuted C79_left_partial C79_history_partial",
  "False of the code: negative for multi-file torrents (Info.Length is 0 for them), and not updated when a piece completes. Proved for single-file torrents right after Load; later it is that number less the bytes of pieces that failed their checksum.")
c("C80", "proved", P, "C80_identity")
c("C81", "partial", P, "C81_concurrent_refuted C81_concurrent_partial C54_history",
  "False of the code, which has no lock: two announces at the same time can lose a tracker and duplicate another. Proved for announces that do not overlap (C54_history). For any number of announces at the same time, with `copy` interrupted anywhere, C81_concurrent_partial: each tier keeps its length, has only its own trackers, no index is out of range, and the first tracker is the old one or one that has answered.")

X = "Drip.Pex"
c("C57", "partial", X, "C57_self_refuted C57_listing_partial C82_exactly_partial",
  "False of the code in one case: a requester whose address was given in a non-canonical text (0::1) is told about itself. Everything else is proved, for every history and every iteration order of the maps; and exactly when the requester is listed (C82_exactly_partial).")
c("C58", "proved", X, "C58_refused C58_other", "The texts of decoding errors are not modelled; they are at most 2^48 bytes.")
c("C59", "partial", X, "C59_answered_refuted C59_answered_partial C59_exactly_partial C59_always_partial C59_compact_partial",
  "False of the code: an IPv6 peer breaks compact answers, an empty swarm breaks the other form, ports above 65535 are accepted and truncated. Proved for compact announces to IPv4 swarms with real ports, and for other announces if somebody else is alive; and (C59_exactly_partial) exactly when an announce fails: in the compact form, when some other live peer has an address that is not IPv4. C59_always_partial is the same for every history, also where the requester is listed itself (Told in Props/PexAlways.lean): compact announces fail exactly when somebody to be told is not IPv4, and other answers can be read exactly when somebody is to be told, and then say exactly these; and (C59_compact_partial) what a compact answer says is exactly who is to be told, with the port modulo 65536.")
c("C60", "proved", X, "C60_removes C60_unnoticed")
c("C82", "partial", X, "C82_id_refuted C82_id_partial C82_exactly_partial",
  "False of the code: the first id since the last cleanup stays. Proved: what is listed has been announced exactly so; and (C82_exactly_partial) exactly what is listed: every live place with the id and text of its first announce since a cleanup at which it was not alive (FirstSince in Spec/FirstSince.lean).")
c("C83", "proved", X, "C83_client_tracker", "For swarms whose live peers have announced IPv4 addresses and ports below 65536 (see C59 for the others).")

c("C51", "partial", "Drip.Paths", "C51_anywhere_refuted C51_inside_refuted C51_inside_partial C51_stays_partial C51_target_partial",
  "False of the code: with .. in a path a file can be created anywhere. Proved for paths of plain names, and for paths that never climb above their start. filepath.Join and Clean are modelled from Go's library; no symbolic links.")
c("C52", "proved", "Drip.P2P", "C52_tiles C52_acceptable")

P2P = "Drip.P2P"
c("C62", "proved", P2P, "C62_step C62_history",
  "Every step of every history of the server model: a PIECE is sent only while a REQUEST for that block is handled and the peer is not choked, with the bytes GetBlock returned; counters match.")
c("C63", "partial", P2P, "C63_refuted C63_partial C63_only_partial",
  "False: messages are handled in order, so a REQUEST is answered before its CANCEL is seen, and the CANCEL then swallows the next REQUEST for the same block. Proved: exactly which requests are answered, as a function of the messages handled before.")
c("C65", "proved", P2P, "C65_send C65_history",
  "Send itself, and every history: REQUESTs are only sent when the last CHOKE/UNCHOKE handled was an UNCHOKE.")
c("C66", "proved", P2P, "C66_active C66_messages",
  "Every history of the server model; the handshake is the bytes received on that connection, decoded. Ids from a tracker are copied into 20 bytes (shorter ones padded).")
c("C67", "proved", P2P, "C67_active C67_goroutines C67_served",
  "The table in every history; also the connections being served, in histories without Block and Stop (with Block see C84).")
c("C68", "partial", P2P, "C68_refuted C68_registered_refuted C68_lock_partial C68_exactly_partial C68_always_partial C68_refused_partial",
  "False: Connect returns with the lock held when it refuses before the handshake, after which nothing ever proceeds; and the peer stays registered when the BITFIELD cannot be written. Proved: in histories without the first kind of refusal the lock is free after every step and no goroutine hangs; all other refusals leave the table as it was. While RequestPieces runs, the lock is lost exactly when such a refusal happens (C68_exactly_partial); after it has returned, also exactly when a message is handled that is a reason to download from its sender (C68_always_partial).")
c("C72", "partial", P2P, "C72_refuted C72_partial C72_stops_partial C72_exactly_partial",
  "False: a message handled after RequestPieces has returned waits for it for ever, holding the lock. Proved: Stop returns and closes everything whenever the lock is free, and the lock is free if the context is cancelled while RequestPieces runs and no connection was refused with the lock held; exactly (C72_exactly_partial): Stop never returns if a connection was refused with the lock held or a message of an open, not yet queued connection was handled after the return of RequestPieces that lets us download or, when we may, announces a piece that we lack; otherwise it returns at once. The request to the tracker in Stop is not modelled.")
c("C73", "partial", P2P, "C73_refuted C73_partial C73_unblocked_partial",
  "False: the table is indexed by id and ip, so the Disconnect of a blocked connection removes its successor. Proved for connections that are in the table; in particular (C73_unblocked_partial) for those being served, unless somebody with their id and ip was blocked or the server stopped.")
c("C84", "partial", P2P, "C84_refuted C84_partial C84_unblocked_partial",
  "False when peers are blocked. Proved for histories without Block and Stop; and (C84_unblocked_partial), whoever else is blocked, for every id and ip under which nobody was.")
c("C69", "partial", P2P, "C69_race_refuted C69_ipv6_refuted C69_once C69_queued C69_not_queued C69_not_dialled_partial C69_bad_data",
  "False: dialPeer checks the address before dialling, so an address blocked in between is dialled; and the address of an IPv6 peer is written differently when it is blocked and when it is looked up. Proved: no address is queued twice, none is queued after it was blocked, and a blocked address is only dialled by goroutines already past their check; an IPv4 peer that sends a wrong piece is blocked.")
c("C70", "proved", P2P, "C70_sound C70_exclusive C70_complete C70_not_interested",
  "Every history of the server model, for every order that sort.Slice produces.")

c("C71", "partial", P2P, "C71_refuted C71_two_partial C71_choice_partial",
  "False: the function given to sort.Slice reads the counts of the positions being compared instead of the counts of the pieces at those positions. Proved when the peer has announced no piece beyond the first two; and which piece is chosen from up to twelve wanted ones of which none is in flight: it depends on how many peers have the pieces 0, 1, 2, …, whichever the wanted ones are.")
c("C90", "proved", P2P, "C90_availability", "Histories without Block and Stop, at times when the lock is free.")
c("C64", "partial", P2P, "C64_write_refuted Drip.FlagConc.C64_interleaved_refuted C64_sequence_partial C64_history_partial Drip.FlagConc.C64_balanced_partial C64_once_partial",
  "False if a write fails (the flag is set first) and if two callers interleave (the flag and the write are separate steps). Proved: sequences of calls that return no error; every history of the server model in which no write to that peer fails; for any interleaving the numbers of messages agree with the flag when all calls have returned; and (C64_once_partial), whatever fails: in every history no CHOKE and at most one UNCHOKE is sent on a connection.")

c("C85", "partial", P2P, "C85_refuted C85_first_partial C85_only_partial C85_silent_partial",
  "False of a connection to which the BITFIELD could not be written: it stays in the table and is sent HAVEs. Proved for connections that are served; and (C85_only_partial) of every connection, that a BITFIELD is only ever the first message; and (C85_silent_partial) that a connection without BITFIELD is sent nothing but HAVE and UNCHOKE, and is not downloaded from.")
c("C86", "proved", P2P, "C86_announced", "Every history of the server model on a storage in any state reachable from empty directories; while the process is alive.")
c("C87", "proved", P2P, "C87_genuine", "As C86; for several files: different paths, no negative lengths.")
c("C88", "partial", P2P, "C88_ipv6_refuted C88_ipv4_partial C88_port_partial", "False of IPv6 addresses: the address is not put in brackets. Proved for IPv4.")
c("C89", "partial", P2P, "C89_refuted C89_served_partial C89_refused_partial",
  "False: serve returns without closing when Connect refuses the connection (Go's finalizer closes it some time later). Proved for connections that were served; and that a connection that was refused is never closed by the program, whatever happens later.")
c("C91", "partial", P2P, "C91_unsolicited_refuted C91_write_refuted C91_have_partial C91_exactly_partial",
  "False of pieces that arrive without having been requested, and when writing to one peer fails. Proved for downloads when the writes succeed; and (C91_exactly_partial) exactly who is told when writes may fail: the open connections gone through before the first failing write.")

c("C74", "partial", P2P, "C74_have_refuted C74_bitfield_refuted C74_request_refuted C74_piece_refuted C74_inrange_partial C74_exactly_partial",
  "False: HAVE, BITFIELD, REQUEST and PIECE with an index outside the torrent panic. Proved: no message within range panics, in every history; and (C74_exactly_partial) exactly which messages do, in every state.")
c("C92", "partial", P2P, "C92_race_refuted C92_corrupt_refuted C92_alive_partial C92_exactly_partial",
  "False: the future of a piece is delivered a second time if the piece is completed between being chosen and the start of its download, and by the next attempt after a checksum failure. Proved: the process stays up in every history in which no download starts of a piece whose future was delivered, and (C92_exactly_partial) that is the only way: it dies exactly when such a download starts.")

c("C61", "proved", "Drip.BlockFuture", "C61_once C61_nil C61_arrived C61_gone",
  "Any number of requests and receiving goroutines in any interleaving; the sections under the mutex are atomic.")
c("C93", "partial", "Drip.BlockFuture", "C93_shared_refuted C93_value_partial C93_reaches_partial",
  "False of two overlapping requests for one block: the deferred delete of the first one loses the future of the second. Proved if requests for one block do not overlap.")

c("C49", "proved", "Drip.StorageConc", "C49_linearizable C49_order C49_verified C49_consistent C49_monotone C49_right_bytes",
  "Any number of goroutines, each making one call; the steps between taking and releasing mutexes are atomic. Every execution is equivalent to the calls in some order that respects real time, in every state the integrity (C38) and bookkeeping (C45) invariants hold, and what GetBlock returns is part of data with the right hash. Memory is sequentially consistent; Bitfield is read without the mutex elsewhere (p2p), which is outside this model.")
c("C50", "partial", "Drip.StorageConc", "C50_progress_refuted C50_progress_partial C50_disjoint_partial C50_reported_partial C50_terminates_partial",
  "False: PutBlock takes the mutex of the piece and then that of the torrent, GetBlock the other way round, so PutBlock and GetBlock of the same piece can block each other for ever. Proved: whenever no GetBlock and PutBlock of the same piece are in that position some call can continue, even if readers wait for waiting writers; in particular if the pieces read are not those written, and if blocks are only asked of pieces reported complete. No execution is infinite.")

c("C94", "proved", P2P, "C94_one C94_download", "A goroutine that has passed the peer on and only has to clear the table of downloads does not count.")
c("C95", "proved", P2P, "C95_interested C95_told C95_only", "The connection is served and open, and the announcement has been handled. C95_told: no write to this peer has failed.")
c("C96", "proved", P2P, "C96_peer C96_total", "The counters are unbounded integers.")
c("C97", "proved", P2P, "C97_duplicate C97_refused", "")
c("C98", "partial", P2P, "C98_refuted C98_cause_partial C98_liar_partial",
  "False: if another peer sends a wrong block of the piece first, the peer that was asked for the piece is blocked although it has sent nothing. Proved: blocking happens only when a piece that is being downloaded from the peer fails its checksum, it hits the addresses of that peer, and its connection is closed; and only if some peer has sent a block of that piece that differs from the data of the torrent, so that nobody is blocked as long as nobody lies. Missing: that it is the blocked peer who has sent the block.")
c("C99", "proved", P2P, "C99_attended", "While the process is alive and the context is not cancelled. The messages that unchoke and announce have been handled.")
c("C100", "proved", P2P, "C100_requests", "")

L = "Drip.Lifecycle"
c("C101", "partial", L, "C101_announce_refuted C101_accept_refuted C101_partial C101_exactly_partial",
  "False: one failed announce or one error of Accept ends all goroutines. Proved if neither happens; and exactly which events end a client: these failures and calls of Stop, nothing else.")
c("C102", "partial", L, "C102_refuted C102_partial C102_exactly_partial",
  "False: interval missing, not positive or too large panics in NewTicker; missing peers are a nil pointer. Proved for errors and for answers with peers and an interval from 1 to 9223372036 seconds; and exactly which events kill the process.")
c("C103", "partial", L, "C103_twice_refuted C103_after_refuted C103_before_refuted C103_partial C103_first_partial",
  "False: Stop by the user tells `stopped` twice, an announce can follow it, and `started` can follow it. Proved: at most one `started`, first unless Stop is called during Start; nothing else than announces and `stopped`; `stopped` at most one more time than Stop is called, and at least once when everything is over.")
c("C104", "partial", L, "C104_refuted", "False: in no history is `completed` told; nothing calls Complete.")
c("C105", "partial", L, "C105_refuted C105_start_refuted C105_terminates_partial C105_partial C105_released_partial",
  "False when a connection holds the lock for ever (C68, C72): Stop never returns, nor does Start once the timer of UnchokePeers has fired, even when the context has ended. Proved: after the end of the context the client cannot run for ever by itself, and when it has come to rest Start and every Stop have returned and the socket is closed.")
c("C106", "partial", S, "C106_downloaded_refuted C106_twice_refuted C106_partial C106_exactly_partial",
  "False: Load delivers the result of a piece again, which panics. Proved as long as nothing is complete and nothing failed; and exactly: it panics if and only if the torrent, or a piece that is on the disk, has a result.")
R = "Drip.LazyReader"
c("C107", "proved", R, "C107_multi C107_multi_succeeds C107_single C107_single_succeeds")
c("C108", "partial", R, "C108_refuted C108_multi_leaks C108_single_refuted C108_partial",
  "False: with several files the last file that was read is never closed, even when all goes well; with one file a failed read leaves it open. Proved: never two at once, and none after success with one file.")
c("C109", "proved", P2P, "C109_unharmed C109_completes",
  "The conditions are in Spec/Seeding.lean: seeders have distinct ids and addresses, join with handshake, bitfield and unchoke, never choke or close; calls of the os do not fail; no piece times out (what happens when one does is C92).")
c("C110", "partial", P2P, "C110_refuted C110_refused_partial C110_leaves_partial C110_stays_partial",
  "False: when writing the bitfield fails, the peer's connection has ended but it stays in the table and its address is refused for ever. Proved: why a connection is refused, and that leaving frees the address if no other identity was used from it; and (C110_stays_partial) that the entry of such a connection indeed stays until the server is stopped or somebody is blocked.")
c("C111", "partial", D, "C111_tagged_refuted C111_twice_refuted C111_used_partial C111_tagged_partial",
  "False: a tag equal to the field's own name loses when it comes second; the same struct embedded twice at one depth is not taken as ambiguous. Proved: a used field wins by the rule if no struct is reachable on two paths; one tagged against one untagged field is decided by the tag in either order if the tag differs from the name.")
c("C112", "proved", M, "C112_reads", "That files in a list cannot be read is C31.")
c("C113", "partial", M, "C113_by_value_refuted C113_writes C113_info_partial",
  "False for an info passed by value: the hashes are written as lists of numbers. Proved for torrents passed either way and for infos passed by pointer.")
c("C114", "proved", T, "C114_reads")
c("C115", "partial", T, "C115_writes_partial C115_refuses C115_refuted",
  "False: a response whose peers are the nil list in the list form is written with a key that has no value. Proved for all other peers.")
c("C116", "partial", D, "C116_writes_partial C116_reads_partial C116_capitals_refuted",
  "False for names in tags with capital letters, which are put in lower case. Proved for structs without embedded structs whose keys differ (conflicts between embedded fields are C111).")
ST = "Drip.Stall"
c("C117", "partial", ST, "C117_progress_partial C117_ends C117_others_partial C117_lock_held C117_registered_refuted C117_have_refuted",
  "False: the BITFIELD is written without a deadline while the server's lock is held, and HAVE is written to one peer after the other. Proved: no deadlock as long as every peer reads; goroutines that have nothing to do with the peers that do not read can finish, unless the lock is held during such a write.")
c("C118", "partial", ST, "C118_maps_partial C118_inflight_refuted C118_bits_refuted",
  "False for the map of pieces in flight, from which two downloads that end at once delete without the lock, and for the bitfields of peers. Proved for all other maps of the server and of the peers.")
c("C119", "proved", S, "C119_result C119_put")
c("C120", "proved", P2P, "C120_completed",
  "Executions and fairness are defined in Spec/Fair.lean (weak fairness for each goroutine; a request that is needed is written successfully in the end); what seeders do is as in C109.")
c("C121", "proved", W, "C121_message C121_handshake")
c("C122", "proved", W, "C122_message C122_success C122_handshake C122_binary C122_handshake_binary")
c("C123", "partial", W, "C123_refuted C123_partial",
  "False: the announced length, up to 4 GiB, is allocated before anything else of the message has arrived. Proved: that is the bound, and complete messages take no more than their own size.")
c("C124", "proved", P2P, "C124_files C124_alive C124_says C124_answers",
  "`Decent` (the hypothesis of C124_alive) says that what is read decodes to messages about existing pieces and blocks, or not at all, and that the process is not killed.")
c("C125", "proved", P2P, "C125_seeders C125_completed",
  "All sides are the same model (Spec/Exchange.lean): what a seeder sends is not assumed but what the model of the client does. Hypotheses: no other content has the hashes of the torrent; the connections carry what was written; what the seeder does elsewhere does not kill it; making the connection, up to the UNCHOKE, is one step of the client that downloads, as in C109.")
c("C126", "proved", P2P, "C126_passes",
  "Under the hypotheses of C125. The conclusion (`Seeder.Has`) is what C125 assumes about the clients that have the torrent.")
c("C127", "proved", S, "C127_loads C127_resumes",
  "For torrents that can be stored (`Original`: the name is a file name, the paths of files are not empty, the files fit into the content, no piece is empty).")
c("C128", "partial", S, "C128_index_refuted C128_length_refuted C128_exactly_partial C128_negative_partial C128_negative_exactly_partial",
  "False: before the torrent is complete an index that is not a piece panics, and a negative length panics for data that is there. Proved: exactly when it panics, for lengths that are not negative and for those that are, and the error for every length if the piece is missing.")
c("C129", "partial", D, "C129_refuted C129_same_partial C129_accepted_partial",
  "False for more than 1000 levels, which Unmarshal reads and Marshal refuses. Proved for all texts with up to 1000 levels.")
c("C130", "partial", D, "C130_refuted C130_tracker_refuted C130_exactly_partial C130_bound_partial C130_skipped_partial",
  "False: every level of the text is some more nested calls, so that two bytes for each level, also at a key that is skipped, use up any stack. Proved: the nesting of the calls is exactly that of the text, and so at most its length.")
c("C131", "partial", D, "C131_refuted C131_list_refuted C131_struct_refuted C131_any_partial C131_simple_partial C131_struct_partial",
  "False: a number or a text cannot be decoded into an `any` that holds one (it panics), a shorter list keeps the end of the old one, and a struct keeps the fields that the text does not mention. Proved: exactly what becomes of an `any` that holds what was decoded before, of lists and maps of texts and numbers, and of every field of a used struct.")
c("C132", "partial", "Drip.ReadCost", "C132_refuted C132_exactly_partial C132_many_partial C132_same_results",
  "False: when reading one of several files fails, it is not closed (storage.go:200-202). Proved: exactly one file is left open for each such read, and none for torrents of one file or before completion; over any number of calls.")
c("C133", "partial", "Drip.ReadCost", "C133_refuted C133_any_refuted C133_partial",
  "False: the buffer has the length that was asked for, up to 4 GiB, before it is known whether there is so much. Proved: at most one buffer, of that length; it is the block that is returned, if one is; none for pieces that are not complete.")
c("C134", "partial", P2P, "C134_refuted C134_grows_refuted C134_partial",
  "False: every CANCEL for a block that is not asked for later is kept, for blocks that do not exist too. Proved: exactly what is remembered, each block once, not more than there were CANCELs.")
c("C135", "proved", P2P, "C135_frees C135_again",
  "For a failure for any reason, at any time before the client is told to stop, also when the lock of the server is lost. The ten seconds after which a request fails are not modelled: a request can fail at any time. The next peer in line is asked if the lock is free.")
c("C136", "partial", X, "C136_refuted C136_reason_partial C136_every_partial C136_client",
  "False: if neither the request nor the connection has an address (a unix socket), the answer is empty. Proved: in all other cases exactly the reason, and the client gets an error in every case. The texts of decoding errors are not modelled; they are not empty and at most 2^48 bytes.")
c("C137", "proved", "Drip.Swarm", "C137_everyone C137_completes",
  "Composition of C83, C69, C88 and C109: that it is possible, for every history of the tracker; that it happens if nothing is neglected for ever is C120. More than 50 addresses of one answer do not fit into the queue, and the rest waits for the next announce.")
c("C138", "partial", "Drip.TempFiles", "C138_refuted C138_same C138_call_partial C138_history_partial C138_stays",
  "False: nothing removes the temporary file of a process that died, and a failed copy to one of several files leaves it open. Proved: exactly as many are left as removals failed and processes died while theirs existed, in every history; a call that returns leaves none if removals work, and at most one file open, only if it failed and the torrent has several files.")
c("C139", "proved", "Drip.Bencode.Writer", "C139_failing_writer C139_prefix C139_fine",
  "A writer takes all bytes, or some and returns an error, as io.Writer demands. For the encoder's own calls; methods of values return their text in one piece.")
c("C140", "proved", "Drip.Bencode.Reader", "C140_ok C140_reported C140_own",
  "The reader delivers any bytes and then returns an error that is not io.EOF at every further call; the error is found again with errors.Is (it is wrapped). How reads are cut is hidden by bufio, which is not modelled. The value of the variable after an error is not tracked.")
