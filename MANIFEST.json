{
 "claims": [
  {
   "property": "C01",
   "status": "proved",
   "theorems": [
    "Drip.Bitfield.C01_bitfield_is_set"
   ],
   "note": ""
  },
  {
   "property": "C02",
   "status": "proved",
   "theorems": [
    "Drip.Bitfield.C02_items"
   ],
   "note": ""
  },
  {
   "property": "C03",
   "status": "proved",
   "theorems": [
    "Drip.Bitfield.C03_difference",
    "Drip.Bitfield.C03_difference_items"
   ],
   "note": ""
  },
  {
   "property": "C04",
   "status": "proved",
   "theorems": [
    "Drip.Bitfield.C04_panic_iff",
    "Drip.Bitfield.C04_small_negative",
    "Drip.Bitfield.C04_new_in_bounds",
    "Drip.Bitfield.C04_add_length"
   ],
   "note": "The test bitfield_test.go:21-26 of the repository expects Has(16) = false on two bytes; the code panics there, as C04_panic_iff says."
  },
  {
   "property": "C05",
   "status": "proved",
   "theorems": [
    "Drip.PeerWire.C05_layout",
    "Drip.PeerWire.C05_roundtrip"
   ],
   "note": ""
  },
  {
   "property": "C06",
   "status": "proved",
   "theorems": [
    "Drip.PeerWire.C06_stream",
    "Drip.PeerWire.C06_injective"
   ],
   "note": ""
  },
  {
   "property": "C07",
   "status": "proved",
   "theorems": [
    "Drip.PeerWire.C07_outcome",
    "Drip.PeerWire.C07_wellformed"
   ],
   "note": ""
  },
  {
   "property": "C08",
   "status": "proved",
   "theorems": [
    "Drip.PeerWire.C08_layout",
    "Drip.PeerWire.C08_accept",
    "Drip.PeerWire.C08_roundtrip"
   ],
   "note": ""
  },
  {
   "property": "C09",
   "status": "proved",
   "theorems": [
    "Drip.PeerWire.C09_message",
    "Drip.PeerWire.C09_handshake"
   ],
   "note": ""
  },
  {
   "property": "C10",
   "status": "proved",
   "theorems": [
    "Drip.Bencode.C10_canonical",
    "Drip.Bencode.C10_unique"
   ],
   "note": ""
  },
  {
   "property": "C11",
   "status": "proved",
   "theorems": [
    "Drip.Bencode.C11_map_order",
    "Drip.Bencode.C11_permuted"
   ],
   "note": ""
  },
  {
   "property": "C12",
   "status": "proved",
   "theorems": [
    "Drip.Bencode.C12_roundtrip",
    "Drip.Bencode.C12_accepts_iff"
   ],
   "note": ""
  },
  {
   "property": "C14",
   "status": "proved",
   "theorems": [
    "Drip.Bencode.C14_exact",
    "Drip.Bencode.C14_only_source_bytes"
   ],
   "note": ""
  },
  {
   "property": "C15",
   "status": "proved",
   "theorems": [
    "Drip.Bencode.C15_sorted",
    "Drip.Bencode.C15_rejected"
   ],
   "note": ""
  },
  {
   "property": "C16",
   "status": "proved",
   "theorems": [
    "Drip.Bencode.C16_prefix",
    "Drip.Bencode.C16_sequence"
   ],
   "note": ""
  },
  {
   "property": "C18",
   "status": "proved",
   "theorems": [
    "Drip.Bencode.C18_int",
    "Drip.Bencode.C18_uint"
   ],
   "note": ""
  },
  {
   "property": "C19",
   "status": "partial",
   "theorems": [
    "Drip.Bencode.C19_no_panic_refuted",
    "Drip.Bencode.C19_huge_length_refuted",
    "Drip.Bencode.C19_no_panic_partial",
    "Drip.Bencode.C19_raw_no_panic_partial",
    "Drip.Bencode.C19_exactly_partial"
   ],
   "note": "False of the code: a dictionary key with a negative length, or any length above 2^48, makes Unmarshal panic in make. Proved for inputs whose length texts are all between 0 and 2^48; and, decoding into an any, exactly which texts panic (Fatal in Spec/Fatal.lean)."
  },
  {
   "property": "C20",
   "status": "proved",
   "theorems": [
    "Drip.Bencode.C20_limit",
    "Drip.Bencode.C20_nesting",
    "Drip.Bencode.C20_output_depth"
   ],
   "note": ""
  },
  {
   "property": "C13",
   "status": "proved",
   "theorems": [
    "Drip.Bencode.C13_roundtrip",
    "Drip.Bencode.C13_roundtrip_ok"
   ],
   "note": "Round-trippable values are the inductive predicate RT in Spec/RoundTrip.lean: also any with the types Unmarshal chooses, and nil or pointer struct fields. Map order is not significant. Values nested more than 1000 deep are refused by Marshal."
  },
  {
   "property": "C17",
   "status": "proved",
   "theorems": [
    "Drip.Bencode.C17_unknown_keys"
   ],
   "note": ""
  },
  {
   "property": "C21",
   "status": "proved",
   "theorems": [
    "Drip.Bencode.C21_truncated"
   ],
   "note": ""
  },
  {
   "property": "C22",
   "status": "proved",
   "theorems": [
    "Drip.Bencode.C22_terminates",
    "Drip.Bencode.C22_bound_irrelevant"
   ],
   "note": ""
  },
  {
   "property": "C23",
   "status": "proved",
   "theorems": [
    "Drip.Bencode.C23_offset"
   ],
   "note": ""
  },
  {
   "property": "C24",
   "status": "proved",
   "theorems": [
    "Drip.Bencode.C24_unique_key",
    "Drip.Bencode.C24_increasing",
    "Drip.Bencode.C24_resolved",
    "Drip.Bencode.C24_dominant"
   ],
   "note": ""
  },
  {
   "property": "C25",
   "status": "partial",
   "theorems": [
    "Drip.Bencode.C25_wellformed_refuted",
    "Drip.Bencode.C25_confused_refuted",
    "Drip.Bencode.C25_nil_top_refuted",
    "Drip.Bencode.C25_nil_element_dropped",
    "Drip.Bencode.C25_wellformed_partial"
   ],
   "note": "False of the code: a map with a nil value is written as a key without a value (with two, as a well-formed but different map), and a nil at the top as nothing. Proved for values without nil in lists, maps, pointers, interfaces (nil struct fields allowed)."
  },
  {
   "property": "C26",
   "status": "partial",
   "theorems": [
    "Drip.Bencode.C26_reuse_partial",
    "Drip.Bencode.C26_stream",
    "Drip.Bencode.C26_budget_partial",
    "Drip.Bencode.C26_reuse_refuted"
   ],
   "note": "False after failures: ptrDepth is not restored when Encode fails, so repeated failures exhaust the nesting budget. Proved after any sequence of successful calls; after any calls: every value needs a number of levels of its own and is encoded as on a fresh encoder if and only if these are left."
  },
  {
   "property": "C27",
   "status": "proved",
   "theorems": [
    "Drip.Bencode.C27_injective",
    "Drip.Bencode.C27_prefix_free",
    "Drip.Bencode.C27_streams"
   ],
   "note": ""
  },
  {
   "property": "C38",
   "status": "proved",
   "theorems": [
    "Drip.Storage.C38_verified",
    "Drip.Storage.C38_readable"
   ],
   "note": ""
  },
  {
   "property": "C39",
   "status": "proved",
   "theorems": [
    "Drip.Storage.C39_right_bytes"
   ],
   "note": ""
  },
  {
   "property": "C40",
   "status": "proved",
   "theorems": [
    "Drip.Storage.C40_load_sound",
    "Drip.Storage.C40_nothing_lost",
    "Drip.Storage.C40_disk"
   ],
   "note": ""
  },
  {
   "property": "C41",
   "status": "proved",
   "theorems": [
    "Drip.Storage.C41_completes",
    "Drip.Storage.C41_results"
   ],
   "note": ""
  },
  {
   "property": "C42",
   "status": "proved",
   "theorems": [
    "Drip.Storage.C42_accepted",
    "Drip.Storage.C42_reported"
   ],
   "note": ""
  },
  {
   "property": "C43",
   "status": "partial",
   "theorems": [
    "Drip.Storage.C43_no_panic_refuted",
    "Drip.Storage.C43_after_end_refuted",
    "Drip.Storage.C43_index_refuted",
    "Drip.Storage.C43_no_panic_partial",
    "Drip.Storage.C43_exactly_partial"
   ],
   "note": "False of the code: an empty block at the end of a piece of a multiple of 16 KiB, a full block behind the end, a negative offset or an index that is not a piece panic. Proved for indexes and offsets inside the torrent and the piece, and exactly when it panics."
  },
  {
   "property": "C44",
   "status": "proved",
   "theorems": [
    "Drip.Storage.C44_layout",
    "Drip.Storage.C44_read"
   ],
   "note": ""
  },
  {
   "property": "C45",
   "status": "proved",
   "theorems": [
    "Drip.Storage.C45_consistent",
    "Drip.Storage.C45_monotone"
   ],
   "note": ""
  },
  {
   "property": "C46",
   "status": "partial",
   "theorems": [
    "Drip.Storage.C46_redownload_refuted",
    "Drip.Storage.C46_stuck",
    "Drip.Storage.C46_reset_partial",
    "Drip.Storage.C46_restart_partial"
   ],
   "note": "False of the code: after any checksum failure ResetPiece panics and every block is refused (C46_stuck). Proved: a piece without a delivered error can be reset and completed; after a restart and Load every piece can be completed."
  },
  {
   "property": "C47",
   "status": "partial",
   "theorems": [
    "Drip.Storage.C47_downloaded_refuted",
    "Drip.Storage.C47_loaded_refuted",
    "Drip.Storage.C47_loaded_partial",
    "Drip.Storage.C47_calls_partial",
    "Drip.Storage.C47_history_partial"
   ],
   "note": "False of the code: Downloaded does not change when a piece completes and grows when one fails its checksum. Proved right after Load, except for complete multi-file torrents. What it is instead is proved for every later history: what Load found plus the lengths of the pieces that failed their checksum."
  },
  {
   "property": "C53",
   "status": "partial",
   "theorems": [
    "Drip.Storage.C53_contents_refuted",
    "Drip.Storage.C53_names_refuted",
    "Drip.Storage.C53_panic_refuted",
    "Drip.Storage.C53_names_partial",
    "Drip.Storage.C53_exactly_partial",
    "Drip.Storage.C53_target_partial"
   ],
   "note": "False of the code: contents are not verified, names are only matched as a prefix, and foreign names can panic. Proved: a piece is marked only because of the target or a file whose name begins with a number and .piece; and, for every content of the directories when no call to the os fails, exactly when Load panics and exactly which pieces it reports."
  },
  {
   "property": "C75",
   "status": "partial",
   "theorems": [
    "Drip.Storage.C75_name_refuted",
    "Drip.Storage.C75_always_refuted",
    "Drip.Storage.C75_name_partial",
    "Drip.Storage.C75_exactly_partial"
   ],
   "note": "False of the code for the names '', '.' and '..', for which Load reports every piece. Proved for all other names."
  },
  {
   "property": "C76",
   "status": "partial",
   "theorems": [
    "Drip.Storage.C76_available_refuted",
    "Drip.Storage.C76_available_partial",
    "Drip.Storage.C76_exactly_partial"
   ],
   "note": "False of the code between a failed removal of the work directory and the next restart. Proved otherwise; and (C76_exactly_partial) exactly when: a block of a reported piece can be read if and only if the torrent has completed in this process or the file of the piece is still in the work directory."
  },
  {
   "property": "C28",
   "status": "proved",
   "theorems": [
    "Drip.Metainfo.C28_info_hash"
   ],
   "note": ""
  },
  {
   "property": "C29",
   "status": "proved",
   "theorems": [
    "Drip.Metainfo.C29_marshal",
    "Drip.Metainfo.C29_unmarshal",
    "Drip.Metainfo.C29_reject",
    "Drip.Metainfo.C29_roundtrip"
   ],
   "note": "Pieces is marshalled through a pointer (the method has a pointer receiver); a Pieces value that is not addressable is encoded as a list instead, see C10."
  },
  {
   "property": "C30",
   "status": "proved",
   "theorems": [
    "Drip.Metainfo.C30_total",
    "Drip.Metainfo.C30_tiling"
   ],
   "note": "Lengths are unbounded integers (no int64 overflow)."
  },
  {
   "property": "C31",
   "status": "partial",
   "theorems": [
    "Drip.Metainfo.C31_multi_file_refuted",
    "Drip.Metainfo.C31_never_files",
    "Drip.Metainfo.C31_single_file_partial"
   ],
   "note": "False of the code: the decoder panics on the first element of files (nil *File). Proved: an Info that decodes has no files; a single-file Info decodes."
  },
  {
   "property": "C32",
   "status": "proved",
   "theorems": [
    "Drip.Metainfo.C32_single_file"
   ],
   "note": ""
  },
  {
   "property": "C77",
   "status": "proved",
   "theorems": [
    "Drip.Metainfo.C77_field_by_field"
   ],
   "note": ""
  },
  {
   "property": "C33",
   "status": "proved",
   "theorems": [
    "Drip.Tracker.C33_reads",
    "Drip.Tracker.C33_roundtrip",
    "Drip.Tracker.C33_encode",
    "Drip.Tracker.C33_exact",
    "Drip.Tracker.C33_decode",
    "Drip.Tracker.C33_refuses"
   ],
   "note": "The two hashes have 20 bytes and the numbers fit int64, as in Go."
  },
  {
   "property": "C34",
   "status": "proved",
   "theorems": [
    "Drip.Tracker.C34_writes",
    "Drip.Tracker.C34_roundtrip",
    "Drip.Tracker.C34_marshal",
    "Drip.Tracker.C34_unmarshal",
    "Drip.Tracker.C34_accepts",
    "Drip.Tracker.C34_refuses"
   ],
   "note": "net.ParseIP is modelled in full, IPv6 texts included. Strings up to 2^48 bytes."
  },
  {
   "property": "C35",
   "status": "partial",
   "theorems": [
    "Drip.Tracker.C35_no_panic_refuted",
    "Drip.Tracker.C35_lists_partial",
    "Drip.Tracker.C35_other_partial",
    "Drip.Tracker.C34_accepts"
   ],
   "note": "False of the code: a list entry that is not a dictionary with a string id, a string address and an integer port panics. Proved: which values are accepted, refused, and which panic."
  },
  {
   "property": "C36",
   "status": "partial",
   "theorems": [
    "Drip.Tracker.C36_roundtrip_refuted",
    "Drip.Tracker.C36_roundtrip_partial",
    "Drip.Tracker.C36_marshal_partial"
   ],
   "note": "False of the code for the nil list, which is marshalled to no bytes at all. Proved for every other list."
  },
  {
   "property": "C37",
   "status": "proved",
   "theorems": [
    "Drip.Magnet.C37_parameters"
   ],
   "note": "Links that begin with magnet:?; parameters without control characters; the fragment has no escapes."
  },
  {
   "property": "C78",
   "status": "partial",
   "theorems": [
    "Drip.Tracker.C78_nil_list_refuted",
    "Drip.Tracker.C78_response_partial"
   ],
   "note": "False of the code for a nil peer list in the list form, which makes the whole response unreadable. Proved for every response whose peers are missing, compact IPv4, or a list that is not nil."
  },
  {
   "property": "C48",
   "status": "proved",
   "theorems": [
    "Drip.Future.C48_blocks",
    "Drip.Future.C48_wakes",
    "Drip.Future.C48_value",
    "Drip.Future.C48_second"
   ],
   "note": "Interleavings of atomic steps (sequential consistency; the value is written before the channel is closed and read after)."
  },
  {
   "property": "C54",
   "status": "proved",
   "theorems": [
    "Drip.Multi.C54_get",
    "Drip.Multi.C54_history"
   ],
   "note": "The network is arbitrary. Announces one after the other: the code has no lock, see C81. An answer that makes the decoder panic (C35) stops the program, and the theorem says so."
  },
  {
   "property": "C55",
   "status": "proved",
   "theorems": [
    "Drip.Multi.C55_tiers",
    "Drip.Multi.C55_every_order"
   ],
   "note": "rand.Shuffle is modelled with arbitrary random numbers; slices are arrays in a heap."
  },
  {
   "property": "C56",
   "status": "partial",
   "theorems": [
    "Drip.Multi.C56_usable_refuted",
    "Drip.Multi.C56_usable_partial"
   ],
   "note": "False of the code: without trackers there is neither a response nor an error, and a response without peers is accepted; both crash the server. Proved if there is a tracker and the answer has a peers entry."
  },
  {
   "property": "C79",
   "status": "partial",
   "theorems": [
    "Drip.Multi.C79_left_refuted",
    "Drip.Multi.C79_left_stays_refuted",
    "Drip.Multi.C79_left_partial",
    "Drip.Multi.C79_history_partial"
   ],
   "note": "False of the code: negative for multi-file torrents (Info.Length is 0 for them), and not updated when a piece completes. Proved for single-file torrents right after Load; later it is that number less the bytes of pieces that failed their checksum."
  },
  {
   "property": "C80",
   "status": "proved",
   "theorems": [
    "Drip.Multi.C80_identity"
   ],
   "note": ""
  },
  {
   "property": "C81",
   "status": "partial",
   "theorems": [
    "Drip.Multi.C81_concurrent_refuted",
    "Drip.Multi.C81_concurrent_partial",
    "Drip.Multi.C54_history"
   ],
   "note": "False of the code, which has no lock: two announces at the same time can lose a tracker and duplicate another. Proved for announces that do not overlap (C54_history). For any number of announces at the same time, with `copy` interrupted anywhere, C81_concurrent_partial: each tier keeps its length, has only its own trackers, no index is out of range, and the first tracker is the old one or one that has answered."
  },
  {
   "property": "C57",
   "status": "partial",
   "theorems": [
    "Drip.Pex.C57_self_refuted",
    "Drip.Pex.C57_listing_partial",
    "Drip.Pex.C82_exactly_partial"
   ],
   "note": "False of the code in one case: a requester whose address was given in a non-canonical text (0::1) is told about itself. Everything else is proved, for every history and every iteration order of the maps; and exactly when the requester is listed (C82_exactly_partial)."
  },
  {
   "property": "C58",
   "status": "proved",
   "theorems": [
    "Drip.Pex.C58_refused",
    "Drip.Pex.C58_other"
   ],
   "note": "The texts of decoding errors are not modelled; they are at most 2^48 bytes."
  },
  {
   "property": "C59",
   "status": "partial",
   "theorems": [
    "Drip.Pex.C59_answered_refuted",
    "Drip.Pex.C59_answered_partial",
    "Drip.Pex.C59_exactly_partial",
    "Drip.Pex.C59_always_partial",
    "Drip.Pex.C59_compact_partial"
   ],
   "note": "False of the code: an IPv6 peer breaks compact answers, an empty swarm breaks the other form, ports above 65535 are accepted and truncated. Proved for compact announces to IPv4 swarms with real ports, and for other announces if somebody else is alive; and (C59_exactly_partial) exactly when an announce fails: in the compact form, when some other live peer has an address that is not IPv4. C59_always_partial is the same for every history, also where the requester is listed itself (Told in Props/PexAlways.lean): compact announces fail exactly when somebody to be told is not IPv4, and other answers can be read exactly when somebody is to be told, and then say exactly these; and (C59_compact_partial) what a compact answer says is exactly who is to be told, with the port modulo 65536."
  },
  {
   "property": "C60",
   "status": "proved",
   "theorems": [
    "Drip.Pex.C60_removes",
    "Drip.Pex.C60_unnoticed"
   ],
   "note": ""
  },
  {
   "property": "C82",
   "status": "partial",
   "theorems": [
    "Drip.Pex.C82_id_refuted",
    "Drip.Pex.C82_id_partial",
    "Drip.Pex.C82_exactly_partial"
   ],
   "note": "False of the code: the first id since the last cleanup stays. Proved: what is listed has been announced exactly so; and (C82_exactly_partial) exactly what is listed: every live place with the id and text of its first announce since a cleanup at which it was not alive (FirstSince in Spec/FirstSince.lean)."
  },
  {
   "property": "C83",
   "status": "proved",
   "theorems": [
    "Drip.Pex.C83_client_tracker"
   ],
   "note": "For swarms whose live peers have announced IPv4 addresses and ports below 65536 (see C59 for the others)."
  },
  {
   "property": "C51",
   "status": "partial",
   "theorems": [
    "Drip.Paths.C51_anywhere_refuted",
    "Drip.Paths.C51_inside_refuted",
    "Drip.Paths.C51_inside_partial",
    "Drip.Paths.C51_stays_partial",
    "Drip.Paths.C51_target_partial"
   ],
   "note": "False of the code: with .. in a path a file can be created anywhere. Proved for paths of plain names, and for paths that never climb above their start. filepath.Join and Clean are modelled from Go's library; no symbolic links."
  },
  {
   "property": "C52",
   "status": "proved",
   "theorems": [
    "Drip.P2P.C52_tiles",
    "Drip.P2P.C52_acceptable"
   ],
   "note": ""
  },
  {
   "property": "C62",
   "status": "proved",
   "theorems": [
    "Drip.P2P.C62_step",
    "Drip.P2P.C62_history"
   ],
   "note": "Every step of every history of the server model: a PIECE is sent only while a REQUEST for that block is handled and the peer is not choked, with the bytes GetBlock returned; counters match."
  },
  {
   "property": "C63",
   "status": "partial",
   "theorems": [
    "Drip.P2P.C63_refuted",
    "Drip.P2P.C63_partial",
    "Drip.P2P.C63_only_partial"
   ],
   "note": "False: messages are handled in order, so a REQUEST is answered before its CANCEL is seen, and the CANCEL then swallows the next REQUEST for the same block. Proved: exactly which requests are answered, as a function of the messages handled before."
  },
  {
   "property": "C65",
   "status": "proved",
   "theorems": [
    "Drip.P2P.C65_send",
    "Drip.P2P.C65_history"
   ],
   "note": "Send itself, and every history: REQUESTs are only sent when the last CHOKE/UNCHOKE handled was an UNCHOKE."
  },
  {
   "property": "C66",
   "status": "proved",
   "theorems": [
    "Drip.P2P.C66_active",
    "Drip.P2P.C66_messages"
   ],
   "note": "Every history of the server model; the handshake is the bytes received on that connection, decoded. Ids from a tracker are copied into 20 bytes (shorter ones padded)."
  },
  {
   "property": "C67",
   "status": "proved",
   "theorems": [
    "Drip.P2P.C67_active",
    "Drip.P2P.C67_goroutines",
    "Drip.P2P.C67_served"
   ],
   "note": "The table in every history; also the connections being served, in histories without Block and Stop (with Block see C84)."
  },
  {
   "property": "C68",
   "status": "partial",
   "theorems": [
    "Drip.P2P.C68_refuted",
    "Drip.P2P.C68_registered_refuted",
    "Drip.P2P.C68_lock_partial",
    "Drip.P2P.C68_exactly_partial",
    "Drip.P2P.C68_always_partial",
    "Drip.P2P.C68_refused_partial"
   ],
   "note": "False: Connect returns with the lock held when it refuses before the handshake, after which nothing ever proceeds; and the peer stays registered when the BITFIELD cannot be written. Proved: in histories without the first kind of refusal the lock is free after every step and no goroutine hangs; all other refusals leave the table as it was. While RequestPieces runs, the lock is lost exactly when such a refusal happens (C68_exactly_partial); after it has returned, also exactly when a message is handled that is a reason to download from its sender (C68_always_partial)."
  },
  {
   "property": "C72",
   "status": "partial",
   "theorems": [
    "Drip.P2P.C72_refuted",
    "Drip.P2P.C72_partial",
    "Drip.P2P.C72_stops_partial",
    "Drip.P2P.C72_exactly_partial"
   ],
   "note": "False: a message handled after RequestPieces has returned waits for it for ever, holding the lock. Proved: Stop returns and closes everything whenever the lock is free, and the lock is free if the context is cancelled while RequestPieces runs and no connection was refused with the lock held; exactly (C72_exactly_partial): Stop never returns if a connection was refused with the lock held or a message of an open, not yet queued connection was handled after the return of RequestPieces that lets us download or, when we may, announces a piece that we lack; otherwise it returns at once. The request to the tracker in Stop is not modelled."
  },
  {
   "property": "C73",
   "status": "partial",
   "theorems": [
    "Drip.P2P.C73_refuted",
    "Drip.P2P.C73_partial",
    "Drip.P2P.C73_unblocked_partial"
   ],
   "note": "False: the table is indexed by id and ip, so the Disconnect of a blocked connection removes its successor. Proved for connections that are in the table; in particular (C73_unblocked_partial) for those being served, unless somebody with their id and ip was blocked or the server stopped."
  },
  {
   "property": "C84",
   "status": "partial",
   "theorems": [
    "Drip.P2P.C84_refuted",
    "Drip.P2P.C84_partial",
    "Drip.P2P.C84_unblocked_partial"
   ],
   "note": "False when peers are blocked. Proved for histories without Block and Stop; and (C84_unblocked_partial), whoever else is blocked, for every id and ip under which nobody was."
  },
  {
   "property": "C69",
   "status": "partial",
   "theorems": [
    "Drip.P2P.C69_race_refuted",
    "Drip.P2P.C69_ipv6_refuted",
    "Drip.P2P.C69_once",
    "Drip.P2P.C69_queued",
    "Drip.P2P.C69_not_queued",
    "Drip.P2P.C69_not_dialled_partial",
    "Drip.P2P.C69_bad_data"
   ],
   "note": "False: dialPeer checks the address before dialling, so an address blocked in between is dialled; and the address of an IPv6 peer is written differently when it is blocked and when it is looked up. Proved: no address is queued twice, none is queued after it was blocked, and a blocked address is only dialled by goroutines already past their check; an IPv4 peer that sends a wrong piece is blocked."
  },
  {
   "property": "C70",
   "status": "proved",
   "theorems": [
    "Drip.P2P.C70_sound",
    "Drip.P2P.C70_exclusive",
    "Drip.P2P.C70_complete",
    "Drip.P2P.C70_not_interested"
   ],
   "note": "Every history of the server model, for every order that sort.Slice produces."
  },
  {
   "property": "C71",
   "status": "partial",
   "theorems": [
    "Drip.P2P.C71_refuted",
    "Drip.P2P.C71_two_partial",
    "Drip.P2P.C71_choice_partial"
   ],
   "note": "False: the function given to sort.Slice reads the counts of the positions being compared instead of the counts of the pieces at those positions. Proved when the peer has announced no piece beyond the first two; and which piece is chosen from up to twelve wanted ones of which none is in flight: it depends on how many peers have the pieces 0, 1, 2, …, whichever the wanted ones are."
  },
  {
   "property": "C90",
   "status": "proved",
   "theorems": [
    "Drip.P2P.C90_availability"
   ],
   "note": "Histories without Block and Stop, at times when the lock is free."
  },
  {
   "property": "C64",
   "status": "partial",
   "theorems": [
    "Drip.P2P.C64_write_refuted",
    "Drip.FlagConc.C64_interleaved_refuted",
    "Drip.P2P.C64_sequence_partial",
    "Drip.P2P.C64_history_partial",
    "Drip.FlagConc.C64_balanced_partial",
    "Drip.P2P.C64_once_partial"
   ],
   "note": "False if a write fails (the flag is set first) and if two callers interleave (the flag and the write are separate steps). Proved: sequences of calls that return no error; every history of the server model in which no write to that peer fails; for any interleaving the numbers of messages agree with the flag when all calls have returned; and (C64_once_partial), whatever fails: in every history no CHOKE and at most one UNCHOKE is sent on a connection."
  },
  {
   "property": "C85",
   "status": "partial",
   "theorems": [
    "Drip.P2P.C85_refuted",
    "Drip.P2P.C85_first_partial",
    "Drip.P2P.C85_only_partial",
    "Drip.P2P.C85_silent_partial"
   ],
   "note": "False of a connection to which the BITFIELD could not be written: it stays in the table and is sent HAVEs. Proved for connections that are served; and (C85_only_partial) of every connection, that a BITFIELD is only ever the first message; and (C85_silent_partial) that a connection without BITFIELD is sent nothing but HAVE and UNCHOKE, and is not downloaded from."
  },
  {
   "property": "C86",
   "status": "proved",
   "theorems": [
    "Drip.P2P.C86_announced"
   ],
   "note": "Every history of the server model on a storage in any state reachable from empty directories; while the process is alive."
  },
  {
   "property": "C87",
   "status": "proved",
   "theorems": [
    "Drip.P2P.C87_genuine"
   ],
   "note": "As C86; for several files: different paths, no negative lengths."
  },
  {
   "property": "C88",
   "status": "partial",
   "theorems": [
    "Drip.P2P.C88_ipv6_refuted",
    "Drip.P2P.C88_ipv4_partial",
    "Drip.P2P.C88_port_partial"
   ],
   "note": "False of IPv6 addresses: the address is not put in brackets. Proved for IPv4."
  },
  {
   "property": "C89",
   "status": "partial",
   "theorems": [
    "Drip.P2P.C89_refuted",
    "Drip.P2P.C89_served_partial",
    "Drip.P2P.C89_refused_partial"
   ],
   "note": "False: serve returns without closing when Connect refuses the connection (Go's finalizer closes it some time later). Proved for connections that were served; and that a connection that was refused is never closed by the program, whatever happens later."
  },
  {
   "property": "C91",
   "status": "partial",
   "theorems": [
    "Drip.P2P.C91_unsolicited_refuted",
    "Drip.P2P.C91_write_refuted",
    "Drip.P2P.C91_have_partial",
    "Drip.P2P.C91_exactly_partial"
   ],
   "note": "False of pieces that arrive without having been requested, and when writing to one peer fails. Proved for downloads when the writes succeed; and (C91_exactly_partial) exactly who is told when writes may fail: the open connections gone through before the first failing write."
  },
  {
   "property": "C74",
   "status": "partial",
   "theorems": [
    "Drip.P2P.C74_have_refuted",
    "Drip.P2P.C74_bitfield_refuted",
    "Drip.P2P.C74_request_refuted",
    "Drip.P2P.C74_piece_refuted",
    "Drip.P2P.C74_inrange_partial",
    "Drip.P2P.C74_exactly_partial"
   ],
   "note": "False: HAVE, BITFIELD, REQUEST and PIECE with an index outside the torrent panic. Proved: no message within range panics, in every history; and (C74_exactly_partial) exactly which messages do, in every state."
  },
  {
   "property": "C92",
   "status": "partial",
   "theorems": [
    "Drip.P2P.C92_race_refuted",
    "Drip.P2P.C92_corrupt_refuted",
    "Drip.P2P.C92_alive_partial",
    "Drip.P2P.C92_exactly_partial"
   ],
   "note": "False: the future of a piece is delivered a second time if the piece is completed between being chosen and the start of its download, and by the next attempt after a checksum failure. Proved: the process stays up in every history in which no download starts of a piece whose future was delivered, and (C92_exactly_partial) that is the only way: it dies exactly when such a download starts."
  },
  {
   "property": "C61",
   "status": "proved",
   "theorems": [
    "Drip.BlockFuture.C61_once",
    "Drip.BlockFuture.C61_nil",
    "Drip.BlockFuture.C61_arrived",
    "Drip.BlockFuture.C61_gone"
   ],
   "note": "Any number of requests and receiving goroutines in any interleaving; the sections under the mutex are atomic."
  },
  {
   "property": "C93",
   "status": "partial",
   "theorems": [
    "Drip.BlockFuture.C93_shared_refuted",
    "Drip.BlockFuture.C93_value_partial",
    "Drip.BlockFuture.C93_reaches_partial"
   ],
   "note": "False of two overlapping requests for one block: the deferred delete of the first one loses the future of the second. Proved if requests for one block do not overlap."
  },
  {
   "property": "C49",
   "status": "proved",
   "theorems": [
    "Drip.StorageConc.C49_linearizable",
    "Drip.StorageConc.C49_order",
    "Drip.StorageConc.C49_verified",
    "Drip.StorageConc.C49_consistent",
    "Drip.StorageConc.C49_monotone",
    "Drip.StorageConc.C49_right_bytes"
   ],
   "note": "Any number of goroutines, each making one call; the steps between taking and releasing mutexes are atomic. Every execution is equivalent to the calls in some order that respects real time, in every state the integrity (C38) and bookkeeping (C45) invariants hold, and what GetBlock returns is part of data with the right hash. Memory is sequentially consistent; Bitfield is read without the mutex elsewhere (p2p), which is outside this model."
  },
  {
   "property": "C50",
   "status": "partial",
   "theorems": [
    "Drip.StorageConc.C50_progress_refuted",
    "Drip.StorageConc.C50_progress_partial",
    "Drip.StorageConc.C50_disjoint_partial",
    "Drip.StorageConc.C50_reported_partial",
    "Drip.StorageConc.C50_terminates_partial"
   ],
   "note": "False: PutBlock takes the mutex of the piece and then that of the torrent, GetBlock the other way round, so PutBlock and GetBlock of the same piece can block each other for ever. Proved: whenever no GetBlock and PutBlock of the same piece are in that position some call can continue, even if readers wait for waiting writers; in particular if the pieces read are not those written, and if blocks are only asked of pieces reported complete. No execution is infinite."
  },
  {
   "property": "C94",
   "status": "proved",
   "theorems": [
    "Drip.P2P.C94_one",
    "Drip.P2P.C94_download"
   ],
   "note": "A goroutine that has passed the peer on and only has to clear the table of downloads does not count."
  },
  {
   "property": "C95",
   "status": "proved",
   "theorems": [
    "Drip.P2P.C95_interested",
    "Drip.P2P.C95_told",
    "Drip.P2P.C95_only"
   ],
   "note": "The connection is served and open, and the announcement has been handled. C95_told: no write to this peer has failed."
  },
  {
   "property": "C96",
   "status": "proved",
   "theorems": [
    "Drip.P2P.C96_peer",
    "Drip.P2P.C96_total"
   ],
   "note": "The counters are unbounded integers."
  },
  {
   "property": "C97",
   "status": "proved",
   "theorems": [
    "Drip.P2P.C97_duplicate",
    "Drip.P2P.C97_refused"
   ],
   "note": ""
  },
  {
   "property": "C98",
   "status": "partial",
   "theorems": [
    "Drip.P2P.C98_refuted",
    "Drip.P2P.C98_cause_partial",
    "Drip.P2P.C98_liar_partial"
   ],
   "note": "False: if another peer sends a wrong block of the piece first, the peer that was asked for the piece is blocked although it has sent nothing. Proved: blocking happens only when a piece that is being downloaded from the peer fails its checksum, it hits the addresses of that peer, and its connection is closed; and only if some peer has sent a block of that piece that differs from the data of the torrent, so that nobody is blocked as long as nobody lies. Missing: that it is the blocked peer who has sent the block."
  },
  {
   "property": "C99",
   "status": "proved",
   "theorems": [
    "Drip.P2P.C99_attended"
   ],
   "note": "While the process is alive and the context is not cancelled. The messages that unchoke and announce have been handled."
  },
  {
   "property": "C100",
   "status": "proved",
   "theorems": [
    "Drip.P2P.C100_requests"
   ],
   "note": ""
  },
  {
   "property": "C101",
   "status": "partial",
   "theorems": [
    "Drip.Lifecycle.C101_announce_refuted",
    "Drip.Lifecycle.C101_accept_refuted",
    "Drip.Lifecycle.C101_partial",
    "Drip.Lifecycle.C101_exactly_partial"
   ],
   "note": "False: one failed announce or one error of Accept ends all goroutines. Proved if neither happens; and exactly which events end a client: these failures and calls of Stop, nothing else."
  },
  {
   "property": "C102",
   "status": "partial",
   "theorems": [
    "Drip.Lifecycle.C102_refuted",
    "Drip.Lifecycle.C102_partial",
    "Drip.Lifecycle.C102_exactly_partial"
   ],
   "note": "False: interval missing, not positive or too large panics in NewTicker; missing peers are a nil pointer. Proved for errors and for answers with peers and an interval from 1 to 9223372036 seconds; and exactly which events kill the process."
  },
  {
   "property": "C103",
   "status": "partial",
   "theorems": [
    "Drip.Lifecycle.C103_twice_refuted",
    "Drip.Lifecycle.C103_after_refuted",
    "Drip.Lifecycle.C103_before_refuted",
    "Drip.Lifecycle.C103_partial",
    "Drip.Lifecycle.C103_first_partial"
   ],
   "note": "False: Stop by the user tells `stopped` twice, an announce can follow it, and `started` can follow it. Proved: at most one `started`, first unless Stop is called during Start; nothing else than announces and `stopped`; `stopped` at most one more time than Stop is called, and at least once when everything is over."
  },
  {
   "property": "C104",
   "status": "partial",
   "theorems": [
    "Drip.Lifecycle.C104_refuted"
   ],
   "note": "False: in no history is `completed` told; nothing calls Complete."
  },
  {
   "property": "C105",
   "status": "partial",
   "theorems": [
    "Drip.Lifecycle.C105_refuted",
    "Drip.Lifecycle.C105_start_refuted",
    "Drip.Lifecycle.C105_terminates_partial",
    "Drip.Lifecycle.C105_partial",
    "Drip.Lifecycle.C105_released_partial"
   ],
   "note": "False when a connection holds the lock for ever (C68, C72): Stop never returns, nor does Start once the timer of UnchokePeers has fired, even when the context has ended. Proved: after the end of the context the client cannot run for ever by itself, and when it has come to rest Start and every Stop have returned and the socket is closed."
  },
  {
   "property": "C106",
   "status": "partial",
   "theorems": [
    "Drip.Storage.C106_downloaded_refuted",
    "Drip.Storage.C106_twice_refuted",
    "Drip.Storage.C106_partial",
    "Drip.Storage.C106_exactly_partial"
   ],
   "note": "False: Load delivers the result of a piece again, which panics. Proved as long as nothing is complete and nothing failed; and exactly: it panics if and only if the torrent, or a piece that is on the disk, has a result."
  },
  {
   "property": "C107",
   "status": "proved",
   "theorems": [
    "Drip.LazyReader.C107_multi",
    "Drip.LazyReader.C107_multi_succeeds",
    "Drip.LazyReader.C107_single",
    "Drip.LazyReader.C107_single_succeeds"
   ],
   "note": ""
  },
  {
   "property": "C108",
   "status": "partial",
   "theorems": [
    "Drip.LazyReader.C108_refuted",
    "Drip.LazyReader.C108_multi_leaks",
    "Drip.LazyReader.C108_single_refuted",
    "Drip.LazyReader.C108_partial"
   ],
   "note": "False: with several files the last file that was read is never closed, even when all goes well; with one file a failed read leaves it open. Proved: never two at once, and none after success with one file."
  },
  {
   "property": "C109",
   "status": "proved",
   "theorems": [
    "Drip.P2P.C109_unharmed",
    "Drip.P2P.C109_completes"
   ],
   "note": "The conditions are in Spec/Seeding.lean: seeders have distinct ids and addresses, join with handshake, bitfield and unchoke, never choke or close; calls of the os do not fail; no piece times out (what happens when one does is C92)."
  },
  {
   "property": "C110",
   "status": "partial",
   "theorems": [
    "Drip.P2P.C110_refuted",
    "Drip.P2P.C110_refused_partial",
    "Drip.P2P.C110_leaves_partial",
    "Drip.P2P.C110_stays_partial"
   ],
   "note": "False: when writing the bitfield fails, the peer's connection has ended but it stays in the table and its address is refused for ever. Proved: why a connection is refused, and that leaving frees the address if no other identity was used from it; and (C110_stays_partial) that the entry of such a connection indeed stays until the server is stopped or somebody is blocked."
  },
  {
   "property": "C111",
   "status": "partial",
   "theorems": [
    "Drip.Bencode.C111_tagged_refuted",
    "Drip.Bencode.C111_twice_refuted",
    "Drip.Bencode.C111_used_partial",
    "Drip.Bencode.C111_tagged_partial"
   ],
   "note": "False: a tag equal to the field's own name loses when it comes second; the same struct embedded twice at one depth is not taken as ambiguous. Proved: a used field wins by the rule if no struct is reachable on two paths; one tagged against one untagged field is decided by the tag in either order if the tag differs from the name."
  },
  {
   "property": "C112",
   "status": "proved",
   "theorems": [
    "Drip.Metainfo.C112_reads"
   ],
   "note": "That files in a list cannot be read is C31."
  },
  {
   "property": "C113",
   "status": "partial",
   "theorems": [
    "Drip.Metainfo.C113_by_value_refuted",
    "Drip.Metainfo.C113_writes",
    "Drip.Metainfo.C113_info_partial"
   ],
   "note": "False for an info passed by value: the hashes are written as lists of numbers. Proved for torrents passed either way and for infos passed by pointer."
  },
  {
   "property": "C114",
   "status": "proved",
   "theorems": [
    "Drip.Tracker.C114_reads"
   ],
   "note": ""
  },
  {
   "property": "C115",
   "status": "partial",
   "theorems": [
    "Drip.Tracker.C115_writes_partial",
    "Drip.Tracker.C115_refuses",
    "Drip.Tracker.C115_refuted"
   ],
   "note": "False: a response whose peers are the nil list in the list form is written with a key that has no value. Proved for all other peers."
  },
  {
   "property": "C116",
   "status": "partial",
   "theorems": [
    "Drip.Bencode.C116_writes_partial",
    "Drip.Bencode.C116_reads_partial",
    "Drip.Bencode.C116_capitals_refuted"
   ],
   "note": "False for names in tags with capital letters, which are put in lower case. Proved for structs without embedded structs whose keys differ (conflicts between embedded fields are C111)."
  },
  {
   "property": "C117",
   "status": "partial",
   "theorems": [
    "Drip.Stall.C117_progress_partial",
    "Drip.Stall.C117_ends",
    "Drip.Stall.C117_others_partial",
    "Drip.Stall.C117_lock_held",
    "Drip.Stall.C117_registered_refuted",
    "Drip.Stall.C117_have_refuted"
   ],
   "note": "False: the BITFIELD is written without a deadline while the server's lock is held, and HAVE is written to one peer after the other. Proved: no deadlock as long as every peer reads; goroutines that have nothing to do with the peers that do not read can finish, unless the lock is held during such a write."
  },
  {
   "property": "C118",
   "status": "partial",
   "theorems": [
    "Drip.Stall.C118_maps_partial",
    "Drip.Stall.C118_inflight_refuted",
    "Drip.Stall.C118_bits_refuted"
   ],
   "note": "False for the map of pieces in flight, from which two downloads that end at once delete without the lock, and for the bitfields of peers. Proved for all other maps of the server and of the peers."
  },
  {
   "property": "C119",
   "status": "proved",
   "theorems": [
    "Drip.Storage.C119_result",
    "Drip.Storage.C119_put"
   ],
   "note": ""
  },
  {
   "property": "C120",
   "status": "proved",
   "theorems": [
    "Drip.P2P.C120_completed"
   ],
   "note": "Executions and fairness are defined in Spec/Fair.lean (weak fairness for each goroutine; a request that is needed is written successfully in the end); what seeders do is as in C109."
  },
  {
   "property": "C121",
   "status": "proved",
   "theorems": [
    "Drip.PeerWire.C121_message",
    "Drip.PeerWire.C121_handshake"
   ],
   "note": ""
  },
  {
   "property": "C122",
   "status": "proved",
   "theorems": [
    "Drip.PeerWire.C122_message",
    "Drip.PeerWire.C122_success",
    "Drip.PeerWire.C122_handshake",
    "Drip.PeerWire.C122_binary",
    "Drip.PeerWire.C122_handshake_binary"
   ],
   "note": ""
  },
  {
   "property": "C123",
   "status": "partial",
   "theorems": [
    "Drip.PeerWire.C123_refuted",
    "Drip.PeerWire.C123_partial"
   ],
   "note": "False: the announced length, up to 4 GiB, is allocated before anything else of the message has arrived. Proved: that is the bound, and complete messages take no more than their own size."
  },
  {
   "property": "C124",
   "status": "proved",
   "theorems": [
    "Drip.P2P.C124_files",
    "Drip.P2P.C124_alive",
    "Drip.P2P.C124_says",
    "Drip.P2P.C124_answers"
   ],
   "note": "`Decent` (the hypothesis of C124_alive) says that what is read decodes to messages about existing pieces and blocks, or not at all, and that the process is not killed."
  },
  {
   "property": "C125",
   "status": "proved",
   "theorems": [
    "Drip.P2P.C125_seeders",
    "Drip.P2P.C125_completed"
   ],
   "note": "All sides are the same model (Spec/Exchange.lean): what a seeder sends is not assumed but what the model of the client does. Hypotheses: no other content has the hashes of the torrent; the connections carry what was written; what the seeder does elsewhere does not kill it; making the connection, up to the UNCHOKE, is one step of the client that downloads, as in C109."
  },
  {
   "property": "C126",
   "status": "proved",
   "theorems": [
    "Drip.P2P.C126_passes"
   ],
   "note": "Under the hypotheses of C125. The conclusion (`Seeder.Has`) is what C125 assumes about the clients that have the torrent."
  },
  {
   "property": "C127",
   "status": "proved",
   "theorems": [
    "Drip.Storage.C127_loads",
    "Drip.Storage.C127_resumes"
   ],
   "note": "For torrents that can be stored (`Original`: the name is a file name, the paths of files are not empty, the files fit into the content, no piece is empty)."
  },
  {
   "property": "C128",
   "status": "partial",
   "theorems": [
    "Drip.Storage.C128_index_refuted",
    "Drip.Storage.C128_length_refuted",
    "Drip.Storage.C128_exactly_partial",
    "Drip.Storage.C128_negative_partial",
    "Drip.Storage.C128_negative_exactly_partial"
   ],
   "note": "False: before the torrent is complete an index that is not a piece panics, and a negative length panics for data that is there. Proved: exactly when it panics, for lengths that are not negative and for those that are, and the error for every length if the piece is missing."
  },
  {
   "property": "C129",
   "status": "partial",
   "theorems": [
    "Drip.Bencode.C129_refuted",
    "Drip.Bencode.C129_same_partial",
    "Drip.Bencode.C129_accepted_partial"
   ],
   "note": "False for more than 1000 levels, which Unmarshal reads and Marshal refuses. Proved for all texts with up to 1000 levels."
  },
  {
   "property": "C130",
   "status": "partial",
   "theorems": [
    "Drip.Bencode.C130_refuted",
    "Drip.Bencode.C130_tracker_refuted",
    "Drip.Bencode.C130_exactly_partial",
    "Drip.Bencode.C130_bound_partial",
    "Drip.Bencode.C130_skipped_partial"
   ],
   "note": "False: every level of the text is some more nested calls, so that two bytes for each level, also at a key that is skipped, use up any stack. Proved: the nesting of the calls is exactly that of the text, and so at most its length."
  },
  {
   "property": "C131",
   "status": "partial",
   "theorems": [
    "Drip.Bencode.C131_refuted",
    "Drip.Bencode.C131_list_refuted",
    "Drip.Bencode.C131_struct_refuted",
    "Drip.Bencode.C131_any_partial",
    "Drip.Bencode.C131_simple_partial",
    "Drip.Bencode.C131_struct_partial"
   ],
   "note": "False: a number or a text cannot be decoded into an `any` that holds one (it panics), a shorter list keeps the end of the old one, and a struct keeps the fields that the text does not mention. Proved: exactly what becomes of an `any` that holds what was decoded before, of lists and maps of texts and numbers, and of every field of a used struct."
  },
  {
   "property": "C132",
   "status": "partial",
   "theorems": [
    "Drip.ReadCost.C132_refuted",
    "Drip.ReadCost.C132_exactly_partial",
    "Drip.ReadCost.C132_many_partial",
    "Drip.ReadCost.C132_same_results"
   ],
   "note": "False: when reading one of several files fails, it is not closed (storage.go:200-202). Proved: exactly one file is left open for each such read, and none for torrents of one file or before completion; over any number of calls."
  },
  {
   "property": "C133",
   "status": "partial",
   "theorems": [
    "Drip.ReadCost.C133_refuted",
    "Drip.ReadCost.C133_any_refuted",
    "Drip.ReadCost.C133_partial"
   ],
   "note": "False: the buffer has the length that was asked for, up to 4 GiB, before it is known whether there is so much. Proved: at most one buffer, of that length; it is the block that is returned, if one is; none for pieces that are not complete."
  },
  {
   "property": "C134",
   "status": "partial",
   "theorems": [
    "Drip.P2P.C134_refuted",
    "Drip.P2P.C134_grows_refuted",
    "Drip.P2P.C134_partial"
   ],
   "note": "False: every CANCEL for a block that is not asked for later is kept, for blocks that do not exist too. Proved: exactly what is remembered, each block once, not more than there were CANCELs."
  },
  {
   "property": "C135",
   "status": "proved",
   "theorems": [
    "Drip.P2P.C135_frees",
    "Drip.P2P.C135_again"
   ],
   "note": "For a failure for any reason, at any time before the client is told to stop, also when the lock of the server is lost. The ten seconds after which a request fails are not modelled: a request can fail at any time. The next peer in line is asked if the lock is free."
  },
  {
   "property": "C136",
   "status": "partial",
   "theorems": [
    "Drip.Pex.C136_refuted",
    "Drip.Pex.C136_reason_partial",
    "Drip.Pex.C136_every_partial",
    "Drip.Pex.C136_client"
   ],
   "note": "False: if neither the request nor the connection has an address (a unix socket), the answer is empty. Proved: in all other cases exactly the reason, and the client gets an error in every case. The texts of decoding errors are not modelled; they are not empty and at most 2^48 bytes."
  },
  {
   "property": "C137",
   "status": "proved",
   "theorems": [
    "Drip.Swarm.C137_everyone",
    "Drip.Swarm.C137_completes"
   ],
   "note": "Composition of C83, C69, C88 and C109: that it is possible, for every history of the tracker; that it happens if nothing is neglected for ever is C120. More than 50 addresses of one answer do not fit into the queue, and the rest waits for the next announce."
  },
  {
   "property": "C138",
   "status": "partial",
   "theorems": [
    "Drip.TempFiles.C138_refuted",
    "Drip.TempFiles.C138_same",
    "Drip.TempFiles.C138_call_partial",
    "Drip.TempFiles.C138_history_partial",
    "Drip.TempFiles.C138_stays"
   ],
   "note": "False: nothing removes the temporary file of a process that died, and a failed copy to one of several files leaves it open. Proved: exactly as many are left as removals failed and processes died while theirs existed, in every history; a call that returns leaves none if removals work, and at most one file open, only if it failed and the torrent has several files."
  },
  {
   "property": "C139",
   "status": "proved",
   "theorems": [
    "Drip.Bencode.Writer.C139_failing_writer",
    "Drip.Bencode.Writer.C139_prefix",
    "Drip.Bencode.Writer.C139_fine"
   ],
   "note": "A writer takes all bytes, or some and returns an error, as io.Writer demands. For the encoder's own calls; methods of values return their text in one piece."
  },
  {
   "property": "C140",
   "status": "proved",
   "theorems": [
    "Drip.Bencode.Reader.C140_ok",
    "Drip.Bencode.Reader.C140_reported",
    "Drip.Bencode.Reader.C140_own"
   ],
   "note": "The reader delivers any bytes and then returns an error that is not io.EOF at every further call; the error is found again with errors.Is (it is wrapped). How reads are cut is hidden by bufio, which is not modelled. The value of the variable after an error is not tracked."
  }
 ]
}