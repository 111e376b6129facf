import Verif.AxiomsOf
import Verif.Props.Bitfield
import Verif.Props.PeerWire
import Verif.Props.BencodeDecode
import Verif.Props.BencodeEncode
import Verif.Props.BencodeTyped
import Verif.Props.BencodeFatal
import Verif.Props.Metainfo
import Verif.Props.Storage
import Verif.Props.StorageAvailable
import Verif.Props.Tracker
import Verif.Props.Magnet
import Verif.Props.Future
import Verif.Props.Response
import Verif.Props.Multitracker
import Verif.Props.Announce
import Verif.Props.Counter
import Verif.Props.Resume
import Verif.Props.Names
import Verif.Props.ReadPanic
import Verif.Props.P2PDeadly
import Verif.Props.MultitrackerConc
import Verif.Props.Pex
import Verif.Props.PexFirst
import Verif.Props.PexAlways
import Verif.Props.RequestPiece
import Verif.Props.Paths
import Verif.Props.P2PMessages
import Verif.Props.P2PConnect
import Verif.Props.P2PDownload
import Verif.Props.P2PFlags
import Verif.Props.P2POnce
import Verif.Props.BlockFuture
import Verif.Props.StorageConc
import Verif.Props.P2PStorage
import Verif.Props.P2PSilent
import Verif.Props.P2PSafe
import Verif.Props.P2PQueue
import Verif.Props.Lifecycle
import Verif.Props.StorageAgain
import Verif.Props.StorageChecksum
import Verif.Props.LazyReader
import Verif.Props.P2PSeeding
import Verif.Props.P2PKnown
import Verif.Props.BencodeConflict
import Verif.Props.TorrentFile
import Verif.Props.TorrentWrite
import Verif.Props.ResponseRead
import Verif.Props.ResponseWrite
import Verif.Props.BencodeNames
import Verif.Props.BencodePass
import Verif.Props.BencodeDepth
import Verif.Props.BencodeAgain
import Verif.Props.BencodeAgainStruct
import Verif.Props.Stall
import Verif.Props.P2PFair
import Verif.Props.P2PWhole
import Verif.Props.P2PExchange
import Verif.Props.PeerCodec
import Verif.Props.ReadCost
import Verif.Props.P2PMemory
import Verif.Props.P2PGiveBack
import Verif.Props.Refusal
import Verif.Props.Swarm
import Verif.Props.TempFiles
import Verif.Props.BencodeWriter
import Verif.Props.BencodeReader
import Verif.Props.P2PLost
import Verif.Props.P2PUnblocked
/-
The axioms that the theorems of MANIFEST.json depend on; building this file checks it. Written by tools/axioms.py.
-/

only_uses [Classical.choice, Quot.sound, propext]
  Drip.Bitfield.C01_bitfield_is_set
  Drip.Bitfield.C02_items
  Drip.Bitfield.C03_difference
  Drip.Bitfield.C03_difference_items
  Drip.Bitfield.C04_panic_iff
  Drip.Bitfield.C04_new_in_bounds
  Drip.PeerWire.C05_roundtrip
  Drip.PeerWire.C06_stream
  Drip.PeerWire.C06_injective
  Drip.PeerWire.C07_outcome
  Drip.PeerWire.C07_wellformed
  Drip.PeerWire.C08_accept
  Drip.PeerWire.C08_roundtrip
  Drip.PeerWire.C09_message
  Drip.PeerWire.C09_handshake
  Drip.Bencode.C10_canonical
  Drip.Bencode.C10_unique
  Drip.Bencode.C11_map_order
  Drip.Bencode.C11_permuted
  Drip.Bencode.C12_roundtrip
  Drip.Bencode.C12_accepts_iff
  Drip.Bencode.C14_exact
  Drip.Bencode.C14_only_source_bytes
  Drip.Bencode.C15_sorted
  Drip.Bencode.C15_rejected
  Drip.Bencode.C16_prefix
  Drip.Bencode.C16_sequence
  Drip.Bencode.C19_no_panic_partial
  Drip.Bencode.C19_raw_no_panic_partial
  Drip.Bencode.C19_exactly_partial
  Drip.Bencode.C20_limit
  Drip.Bencode.C20_nesting
  Drip.Bencode.C20_output_depth
  Drip.Bencode.C13_roundtrip
  Drip.Bencode.C13_roundtrip_ok
  Drip.Bencode.C17_unknown_keys
  Drip.Bencode.C21_truncated
  Drip.Bencode.C22_terminates
  Drip.Bencode.C22_bound_irrelevant
  Drip.Bencode.C23_offset
  Drip.Bencode.C24_resolved
  Drip.Bencode.C24_dominant
  Drip.Bencode.C25_wellformed_refuted
  Drip.Bencode.C25_nil_top_refuted
  Drip.Bencode.C25_wellformed_partial
  Drip.Bencode.C26_budget_partial
  Drip.Bencode.C27_injective
  Drip.Bencode.C27_prefix_free
  Drip.Bencode.C27_streams
  Drip.Storage.C38_verified
  Drip.Storage.C38_readable
  Drip.Storage.C39_right_bytes
  Drip.Storage.C40_load_sound
  Drip.Storage.C40_nothing_lost
  Drip.Storage.C40_disk
  Drip.Storage.C41_completes
  Drip.Storage.C41_results
  Drip.Storage.C42_accepted
  Drip.Storage.C42_reported
  Drip.Storage.C43_no_panic_partial
  Drip.Storage.C43_exactly_partial
  Drip.Storage.C44_layout
  Drip.Storage.C44_read
  Drip.Storage.C45_consistent
  Drip.Storage.C45_monotone
  Drip.Storage.C46_stuck
  Drip.Storage.C46_reset_partial
  Drip.Storage.C46_restart_partial
  Drip.Storage.C47_loaded_partial
  Drip.Storage.C53_names_partial
  Drip.Storage.C53_exactly_partial
  Drip.Storage.C53_target_partial
  Drip.Storage.C75_always_refuted
  Drip.Storage.C75_name_partial
  Drip.Storage.C75_exactly_partial
  Drip.Storage.C76_available_partial
  Drip.Storage.C76_exactly_partial
  Drip.Metainfo.C28_info_hash
  Drip.Metainfo.C29_marshal
  Drip.Metainfo.C29_unmarshal
  Drip.Metainfo.C29_reject
  Drip.Metainfo.C29_roundtrip
  Drip.Metainfo.C30_tiling
  Drip.Metainfo.C31_never_files
  Drip.Metainfo.C31_single_file_partial
  Drip.Metainfo.C32_single_file
  Drip.Metainfo.C77_field_by_field
  Drip.Tracker.C33_reads
  Drip.Tracker.C33_roundtrip
  Drip.Tracker.C33_encode
  Drip.Tracker.C33_exact
  Drip.Tracker.C33_decode
  Drip.Tracker.C34_writes
  Drip.Tracker.C34_roundtrip
  Drip.Tracker.C34_marshal
  Drip.Tracker.C34_unmarshal
  Drip.Tracker.C34_accepts
  Drip.Tracker.C34_refuses
  Drip.Tracker.C35_lists_partial
  Drip.Tracker.C35_other_partial
  Drip.Tracker.C36_roundtrip_partial
  Drip.Tracker.C36_marshal_partial
  Drip.Tracker.C78_response_partial
  Drip.Multi.C55_every_order
  Drip.Multi.C56_usable_partial
  Drip.Multi.C79_left_partial
  Drip.Multi.C80_identity
  Drip.Multi.C81_concurrent_partial
  Drip.Pex.C57_self_refuted
  Drip.Pex.C57_listing_partial
  Drip.Pex.C82_exactly_partial
  Drip.Pex.C58_refused
  Drip.Pex.C58_other
  Drip.Pex.C59_answered_refuted
  Drip.Pex.C59_answered_partial
  Drip.Pex.C59_exactly_partial
  Drip.Pex.C59_always_partial
  Drip.Pex.C59_compact_partial
  Drip.Pex.C60_unnoticed
  Drip.Pex.C82_id_partial
  Drip.Pex.C83_client_tracker
  Drip.Paths.C51_inside_refuted
  Drip.P2P.C52_acceptable
  Drip.P2P.C62_step
  Drip.P2P.C62_history
  Drip.P2P.C63_partial
  Drip.P2P.C63_only_partial
  Drip.P2P.C65_send
  Drip.P2P.C65_history
  Drip.P2P.C66_active
  Drip.P2P.C66_messages
  Drip.P2P.C67_active
  Drip.P2P.C67_goroutines
  Drip.P2P.C67_served
  Drip.P2P.C68_lock_partial
  Drip.P2P.C68_exactly_partial
  Drip.P2P.C68_always_partial
  Drip.P2P.C68_refused_partial
  Drip.P2P.C72_partial
  Drip.P2P.C72_stops_partial
  Drip.P2P.C72_exactly_partial
  Drip.P2P.C73_partial
  Drip.P2P.C73_unblocked_partial
  Drip.P2P.C84_partial
  Drip.P2P.C84_unblocked_partial
  Drip.P2P.C69_ipv6_refuted
  Drip.P2P.C69_once
  Drip.P2P.C69_queued
  Drip.P2P.C69_not_queued
  Drip.P2P.C69_not_dialled_partial
  Drip.P2P.C69_bad_data
  Drip.P2P.C70_sound
  Drip.P2P.C70_exclusive
  Drip.P2P.C70_complete
  Drip.P2P.C70_not_interested
  Drip.P2P.C71_two_partial
  Drip.P2P.C71_choice_partial
  Drip.P2P.C90_availability
  Drip.P2P.C64_sequence_partial
  Drip.P2P.C64_history_partial
  Drip.P2P.C64_once_partial
  Drip.P2P.C85_first_partial
  Drip.P2P.C85_only_partial
  Drip.P2P.C85_silent_partial
  Drip.P2P.C86_announced
  Drip.P2P.C87_genuine
  Drip.P2P.C88_ipv4_partial
  Drip.P2P.C89_served_partial
  Drip.P2P.C89_refused_partial
  Drip.P2P.C91_have_partial
  Drip.P2P.C91_exactly_partial
  Drip.P2P.C74_inrange_partial
  Drip.P2P.C74_exactly_partial
  Drip.P2P.C92_alive_partial
  Drip.P2P.C92_exactly_partial
  Drip.StorageConc.C49_linearizable
  Drip.StorageConc.C49_order
  Drip.StorageConc.C49_verified
  Drip.StorageConc.C49_consistent
  Drip.StorageConc.C49_monotone
  Drip.StorageConc.C49_right_bytes
  Drip.StorageConc.C50_progress_partial
  Drip.StorageConc.C50_disjoint_partial
  Drip.StorageConc.C50_reported_partial
  Drip.P2P.C94_one
  Drip.P2P.C94_download
  Drip.P2P.C95_interested
  Drip.P2P.C95_told
  Drip.P2P.C95_only
  Drip.P2P.C96_peer
  Drip.P2P.C96_total
  Drip.P2P.C97_duplicate
  Drip.P2P.C97_refused
  Drip.P2P.C98_cause_partial
  Drip.P2P.C98_liar_partial
  Drip.P2P.C99_attended
  Drip.P2P.C100_requests
  Drip.Lifecycle.C102_exactly_partial
  Drip.Lifecycle.C105_terminates_partial
  Drip.Storage.C106_partial
  Drip.Storage.C106_exactly_partial
  Drip.LazyReader.C107_multi
  Drip.LazyReader.C107_multi_succeeds
  Drip.LazyReader.C107_single
  Drip.LazyReader.C107_single_succeeds
  Drip.LazyReader.C108_multi_leaks
  Drip.LazyReader.C108_partial
  Drip.P2P.C109_unharmed
  Drip.P2P.C109_completes
  Drip.P2P.C110_refused_partial
  Drip.P2P.C110_leaves_partial
  Drip.P2P.C110_stays_partial
  Drip.Bencode.C111_used_partial
  Drip.Bencode.C111_tagged_partial
  Drip.Metainfo.C112_reads
  Drip.Metainfo.C113_writes
  Drip.Metainfo.C113_info_partial
  Drip.Tracker.C114_reads
  Drip.Tracker.C115_writes_partial
  Drip.Tracker.C115_refuses
  Drip.Bencode.C116_writes_partial
  Drip.Bencode.C116_reads_partial
  Drip.Stall.C117_progress_partial
  Drip.Stall.C117_others_partial
  Drip.Stall.C117_lock_held
  Drip.Stall.C117_registered_refuted
  Drip.Stall.C117_have_refuted
  Drip.Stall.C118_maps_partial
  Drip.Storage.C119_result
  Drip.Storage.C119_put
  Drip.P2P.C120_completed
  Drip.PeerWire.C122_binary
  Drip.PeerWire.C122_handshake_binary
  Drip.PeerWire.C123_partial
  Drip.P2P.C124_files
  Drip.P2P.C124_alive
  Drip.P2P.C124_says
  Drip.P2P.C124_answers
  Drip.P2P.C125_seeders
  Drip.P2P.C125_completed
  Drip.P2P.C126_passes
  Drip.Storage.C127_loads
  Drip.Storage.C127_resumes
  Drip.Storage.C128_exactly_partial
  Drip.Storage.C128_negative_partial
  Drip.Storage.C128_negative_exactly_partial
  Drip.Bencode.C129_refuted
  Drip.Bencode.C129_same_partial
  Drip.Bencode.C129_accepted_partial
  Drip.Bencode.C130_refuted
  Drip.Bencode.C130_tracker_refuted
  Drip.Bencode.C130_exactly_partial
  Drip.Bencode.C130_bound_partial
  Drip.Bencode.C130_skipped_partial
  Drip.Bencode.C131_any_partial
  Drip.Bencode.C131_struct_partial
  Drip.ReadCost.C132_exactly_partial
  Drip.ReadCost.C132_many_partial
  Drip.P2P.C134_refuted
  Drip.P2P.C134_grows_refuted
  Drip.P2P.C134_partial
  Drip.P2P.C135_frees
  Drip.P2P.C135_again
  Drip.Pex.C136_refuted
  Drip.Pex.C136_reason_partial
  Drip.Pex.C136_every_partial
  Drip.Pex.C136_client
  Drip.Swarm.C137_everyone
  Drip.Swarm.C137_completes
  Drip.TempFiles.C138_call_partial
  Drip.TempFiles.C138_history_partial
  Drip.TempFiles.C138_stays
  Drip.Bencode.Reader.C140_ok
  Drip.Bencode.Reader.C140_reported
  Drip.Bencode.Reader.C140_own

only_uses [Quot.sound, propext]
  Drip.Bitfield.C04_small_negative
  Drip.Bitfield.C04_add_length
  Drip.PeerWire.C05_layout
  Drip.Bencode.C18_int
  Drip.Bencode.C18_uint
  Drip.Bencode.C19_no_panic_refuted
  Drip.Bencode.C19_huge_length_refuted
  Drip.Bencode.C24_unique_key
  Drip.Bencode.C24_increasing
  Drip.Bencode.C25_confused_refuted
  Drip.Bencode.C25_nil_element_dropped
  Drip.Bencode.C26_reuse_partial
  Drip.Bencode.C26_stream
  Drip.Bencode.C26_reuse_refuted
  Drip.Storage.C43_no_panic_refuted
  Drip.Storage.C43_after_end_refuted
  Drip.Storage.C43_index_refuted
  Drip.Storage.C46_redownload_refuted
  Drip.Storage.C47_downloaded_refuted
  Drip.Storage.C47_loaded_refuted
  Drip.Storage.C47_calls_partial
  Drip.Storage.C47_history_partial
  Drip.Storage.C53_contents_refuted
  Drip.Storage.C53_names_refuted
  Drip.Storage.C53_panic_refuted
  Drip.Storage.C75_name_refuted
  Drip.Storage.C76_available_refuted
  Drip.Metainfo.C31_multi_file_refuted
  Drip.Tracker.C33_refuses
  Drip.Tracker.C35_no_panic_refuted
  Drip.Tracker.C36_roundtrip_refuted
  Drip.Magnet.C37_parameters
  Drip.Tracker.C78_nil_list_refuted
  Drip.Future.C48_blocks
  Drip.Future.C48_wakes
  Drip.Future.C48_value
  Drip.Future.C48_second
  Drip.Multi.C54_get
  Drip.Multi.C54_history
  Drip.Multi.C55_tiers
  Drip.Multi.C56_usable_refuted
  Drip.Multi.C79_left_refuted
  Drip.Multi.C79_left_stays_refuted
  Drip.Multi.C79_history_partial
  Drip.Pex.C60_removes
  Drip.Pex.C82_id_refuted
  Drip.Paths.C51_anywhere_refuted
  Drip.Paths.C51_inside_partial
  Drip.Paths.C51_stays_partial
  Drip.Paths.C51_target_partial
  Drip.P2P.C52_tiles
  Drip.P2P.C63_refuted
  Drip.P2P.C68_refuted
  Drip.P2P.C68_registered_refuted
  Drip.P2P.C72_refuted
  Drip.P2P.C73_refuted
  Drip.P2P.C84_refuted
  Drip.P2P.C69_race_refuted
  Drip.P2P.C71_refuted
  Drip.P2P.C64_write_refuted
  Drip.FlagConc.C64_interleaved_refuted
  Drip.FlagConc.C64_balanced_partial
  Drip.P2P.C85_refuted
  Drip.P2P.C88_ipv6_refuted
  Drip.P2P.C88_port_partial
  Drip.P2P.C89_refuted
  Drip.P2P.C91_unsolicited_refuted
  Drip.P2P.C91_write_refuted
  Drip.P2P.C74_have_refuted
  Drip.P2P.C74_bitfield_refuted
  Drip.P2P.C74_request_refuted
  Drip.P2P.C74_piece_refuted
  Drip.P2P.C92_race_refuted
  Drip.P2P.C92_corrupt_refuted
  Drip.BlockFuture.C61_once
  Drip.BlockFuture.C61_nil
  Drip.BlockFuture.C61_arrived
  Drip.BlockFuture.C61_gone
  Drip.BlockFuture.C93_shared_refuted
  Drip.BlockFuture.C93_value_partial
  Drip.BlockFuture.C93_reaches_partial
  Drip.StorageConc.C50_progress_refuted
  Drip.StorageConc.C50_terminates_partial
  Drip.P2P.C98_refuted
  Drip.Lifecycle.C101_partial
  Drip.Lifecycle.C101_exactly_partial
  Drip.Lifecycle.C102_refuted
  Drip.Lifecycle.C102_partial
  Drip.Lifecycle.C103_partial
  Drip.Lifecycle.C103_first_partial
  Drip.Lifecycle.C104_refuted
  Drip.Lifecycle.C105_refuted
  Drip.Lifecycle.C105_start_refuted
  Drip.Lifecycle.C105_partial
  Drip.Lifecycle.C105_released_partial
  Drip.Storage.C106_downloaded_refuted
  Drip.Storage.C106_twice_refuted
  Drip.LazyReader.C108_refuted
  Drip.P2P.C110_refuted
  Drip.Bencode.C111_tagged_refuted
  Drip.Bencode.C111_twice_refuted
  Drip.Metainfo.C113_by_value_refuted
  Drip.Tracker.C115_refuted
  Drip.Bencode.C116_capitals_refuted
  Drip.Stall.C118_inflight_refuted
  Drip.Stall.C118_bits_refuted
  Drip.PeerWire.C121_message
  Drip.PeerWire.C121_handshake
  Drip.PeerWire.C122_message
  Drip.PeerWire.C122_success
  Drip.PeerWire.C122_handshake
  Drip.PeerWire.C123_refuted
  Drip.Storage.C128_index_refuted
  Drip.Storage.C128_length_refuted
  Drip.Bencode.C131_refuted
  Drip.Bencode.C131_list_refuted
  Drip.Bencode.C131_struct_refuted
  Drip.Bencode.C131_simple_partial
  Drip.ReadCost.C132_refuted
  Drip.ReadCost.C132_same_results
  Drip.ReadCost.C133_refuted
  Drip.ReadCost.C133_any_refuted
  Drip.ReadCost.C133_partial
  Drip.TempFiles.C138_refuted
  Drip.TempFiles.C138_same
  Drip.Bencode.Writer.C139_failing_writer
  Drip.Bencode.Writer.C139_prefix
  Drip.Bencode.Writer.C139_fine

only_uses [propext]
  Drip.PeerWire.C08_layout
  Drip.Metainfo.C30_total
  Drip.Multi.C81_concurrent_refuted
  Drip.Lifecycle.C101_announce_refuted
  Drip.Lifecycle.C101_accept_refuted
  Drip.Lifecycle.C103_twice_refuted
  Drip.Lifecycle.C103_after_refuted
  Drip.Lifecycle.C103_before_refuted
  Drip.LazyReader.C108_single_refuted
  Drip.Stall.C117_ends
