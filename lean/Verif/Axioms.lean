import Verif.Props.Address
import Verif.Props.Admin
import Verif.Props.AdminCalls
import Verif.Props.Cached
import Verif.Props.Cluster
import Verif.Props.Config
import Verif.Props.Conns
import Verif.Props.Cosigner
import Verif.Props.Crash
import Verif.Props.CrashNeeded
import Verif.Props.Deals
import Verif.Props.Deploy
import Verif.Props.Disk
import Verif.Props.Duration
import Verif.Props.Elect
import Verif.Props.Encodings
import Verif.Props.Ends
import Verif.Props.Env
import Verif.Props.Existing
import Verif.Props.Extract
import Verif.Props.FS
import Verif.Props.Failover
import Verif.Props.Faults
import Verif.Props.Fields
import Verif.Props.FilePV
import Verif.Props.Forgets
import Verif.Props.Gather
import Verif.Props.Gogo
import Verif.Props.Growth
import Verif.Props.Grpc
import Verif.Props.GrpcText
import Verif.Props.Guard
import Verif.Props.Halt
import Verif.Props.Homes
import Verif.Props.Init
import Verif.Props.KeyFile
import Verif.Props.KeyMem
import Verif.Props.KeyText
import Verif.Props.Known
import Verif.Props.Lives
import Verif.Props.Locks
import Verif.Props.Lured
import Verif.Props.Meanwhile
import Verif.Props.Membership
import Verif.Props.Migrate
import Verif.Props.Mislabel
import Verif.Props.Mixed
import Verif.Props.Modes
import Verif.Props.NoConflict
import Verif.Props.Node
import Verif.Props.Nonces
import Verif.Props.Overlap
import Verif.Props.PrivFile
import Verif.Props.Private
import Verif.Props.Program
import Verif.Props.Proxy
import Verif.Props.Races
import Verif.Props.Raft
import Verif.Props.Remote
import Verif.Props.Replica
import Verif.Props.Requorum
import Verif.Props.Resign
import Verif.Props.Restarts
import Verif.Props.Retime
import Verif.Props.Retry
import Verif.Props.Round
import Verif.Props.RoundMem
import Verif.Props.Sentries
import Verif.Props.Sequence
import Verif.Props.Server
import Verif.Props.Services
import Verif.Props.Shadow
import Verif.Props.Shamir
import Verif.Props.Shared
import Verif.Props.SignPhase
import Verif.Props.SignState
import Verif.Props.Single
import Verif.Props.Start
import Verif.Props.Startup
import Verif.Props.StateCmd
import Verif.Props.StateFile
import Verif.Props.StateSet
import Verif.Props.StateText
import Verif.Props.System
import Verif.Props.Timed
import Verif.Props.Torn
import Verif.Props.TornSign
import Verif.Props.Unit
import Verif.Props.Url
import Verif.Props.UrlText
import Verif.Props.Validator
import Verif.Props.Whole
import Verif.Props.WholeMem
import Verif.Props.WholeRest
import Verif.Props.Wire
/-
The axioms each property theorem depends on, printed at build time (generated list).
-/
#print axioms Horcrux.C01_save
#print axioms Horcrux.C01_history
#print axioms Horcrux.C02_errors
#print axioms Horcrux.C03_check
#print axioms Horcrux.C03_check_conv
#print axioms Horcrux.C04_cache_created
#print axioms Horcrux.C04_cache_loaded
#print axioms Horcrux.C04_wraps_fails
#print axioms Horcrux.C05_bytes
#print axioms Horcrux.C05_only_differ
#print axioms Horcrux.C05_other_steps
#print axioms Horcrux.C05_votes
#print axioms Horcrux.C05_vote_error
#print axioms Horcrux.C05_proposal_error
#print axioms Horcrux.C06_proposal
#print axioms Horcrux.C06_vote_partial
#print axioms Horcrux.C06_unixNano
#print axioms Horcrux.C06_vote_fails
#print axioms Horcrux.C06_vote_exact
#print axioms Horcrux.C07_vote
#print axioms Horcrux.C07_proposal
#print axioms Horcrux.C07_vote_ne_proposal
#print axioms Horcrux.C08_partial
#print axioms Horcrux.C08_block_vote_partial
#print axioms Horcrux.C08_proposal
#print axioms Horcrux.C08_fails
#print axioms Horcrux.C09_sign_partial
#print axioms Horcrux.C09_sign_fails
#print axioms Horcrux.C09_unpack_partial
#print axioms Horcrux.C09_unpack_fails
#print axioms Horcrux.C10_no_conflict
#print axioms Horcrux.C11_no_regress
#print axioms Horcrux.C12_immediate
#print axioms Horcrux.C12_recorded_partial
#print axioms Horcrux.C12_becomes_recorded_partial
#print axioms Horcrux.C12_resign_fails
#print axioms Horcrux.C12_resigned_partial
#print axioms Horcrux.C12_resigned_exact
#print axioms Horcrux.C12_parts_fails
#print axioms Horcrux.C13_same_block_partial
#print axioms Horcrux.C13_honest_partial
#print axioms Horcrux.C13_trailing_fails
#print axioms Horcrux.C14_own_share_partial
#print axioms Horcrux.C14_set_only_fails
#print axioms Horcrux.C14_needed
#print axioms Horcrux.C15_refused
#print axioms Horcrux.C15_stored
#print axioms Horcrux.C15_not_stored
#print axioms Horcrux.C16_replay_fails
#print axioms Horcrux.C16_destination_partial
#print axioms Horcrux.C16_exact
#print axioms Horcrux.C17_parts
#print axioms Horcrux.C17_interleaved_partial
#print axioms Horcrux.C17_new_deal
#print axioms Horcrux.C17_interleaved_fails
#print axioms Horcrux.C18_prune
#print axioms Horcrux.C18_otherwise
#print axioms Horcrux.C19_less_iff
#print axioms Horcrux.C19_strict_weak_order
#print axioms Horcrux.C19_agrees
#print axioms Horcrux.C20_complete_partial
#print axioms Horcrux.C20_gap_fails
#print axioms Horcrux.C20_gap_set_fails
#print axioms Horcrux.C20_exact
#print axioms Horcrux.C21_round
#print axioms Horcrux.C21_alone
#print axioms Horcrux.C22_recover
#print axioms Horcrux.C23_consistent
#print axioms Horcrux.C23_unique
#print axioms Horcrux.C23_no_information
#print axioms Horcrux.C24_quorum
#print axioms Horcrux.C24_full_signatures
#print axioms Horcrux.C24_no_conflict
#print axioms Horcrux.C25_upper_bound_partial
#print axioms Horcrux.C25_fails
#print axioms Horcrux.C25_shares_fails
#print axioms Horcrux.C25_exact
#print axioms Horcrux.C26_no_signature
#print axioms Horcrux.C26_any_proposal
#print axioms Horcrux.C26_swapped_fails
#print axioms Horcrux.C26_partial
#print axioms Horcrux.C26_vote_partial
#print axioms Horcrux.C26_no_signature_fails
#print axioms Horcrux.C26_other_proposal_fails
#print axioms Horcrux.C27_returns
#print axioms Horcrux.C27_own_block
#print axioms Horcrux.C27_vote
#print axioms Horcrux.C27_proposal
#print axioms Horcrux.C28_one_attempt
#print axioms Horcrux.C28_increasing
#print axioms Horcrux.C29_exact
#print axioms Horcrux.C29_partial
#print axioms Horcrux.C29_raft_record_fails
#print axioms Horcrux.C30_refused
#print axioms Horcrux.C30_waiting
#print axioms Horcrux.C31_participants
#print axioms Horcrux.C31_late_answers
#print axioms Horcrux.C31_counter
#print axioms Horcrux.C31_threshold_zero
#print axioms Horcrux.C32_addressed
#print axioms Horcrux.C32_exactly
#print axioms Horcrux.C32_order
#print axioms Horcrux.C33_round
#print axioms Horcrux.C33_refused
#print axioms Horcrux.C33_emitted_and_recorded
#print axioms Horcrux.C34_watermarks
#print axioms Horcrux.C34_record_stable
#print axioms Horcrux.C34_current_stable
#print axioms Horcrux.C35_block
#print axioms Horcrux.C35_signature
#print axioms Horcrux.C35_hrst
#print axioms Horcrux.C35_parts
#print axioms Horcrux.C35_setAndSign
#print axioms Horcrux.C35_setAndSign_answer
#print axioms Horcrux.C36_covered_partial
#print axioms Horcrux.C36_recorded_covered
#print axioms Horcrux.C36_needed
#print axioms Horcrux.C36_partial
#print axioms Horcrux.C36_idle_partial
#print axioms Horcrux.C36_fails
#print axioms Horcrux.C36_every_fails
#print axioms Horcrux.C36_exact
#print axioms Horcrux.C36_node_any
#print axioms Horcrux.C36_node_fails
#print axioms Horcrux.C36_mixed_fails
#print axioms Horcrux.C37_record_partial
#print axioms Horcrux.C37_serial_partial
#print axioms Horcrux.C37_partial
#print axioms Horcrux.C37_stale_fails
#print axioms Horcrux.C37_ephemeral_fails
#print axioms Horcrux.C37_exact
#print axioms Horcrux.C37_last
#print axioms Horcrux.C37_resign_fails
#print axioms Horcrux.C37_swapped_fails
#print axioms Horcrux.C38_partial
#print axioms Horcrux.C38_not_ahead_partial
#print axioms Horcrux.C38_load
#print axioms Horcrux.C38_torn_fails
#print axioms Horcrux.C38_fields_partial
#print axioms Horcrux.C38_alone
#print axioms Horcrux.C38_finishes
#print axioms Horcrux.C38_memory
#print axioms Horcrux.C38_mixed_fails
#print axioms Horcrux.C38_below_fails
#print axioms Horcrux.C38_height
#print axioms Horcrux.C38_covers_partial
#print axioms Horcrux.C38_settles_partial
#print axioms Horcrux.C39_loadOrCreate_keeps
#print axioms Horcrux.C39_loadOrCreate_creates
#print axioms Horcrux.C39_start_refused
#print axioms Horcrux.C39_start_running
#print axioms Horcrux.C40_partial
#print axioms Horcrux.C40_home_fails
#print axioms Horcrux.C40_home_exact
#print axioms Horcrux.C41_partial
#print axioms Horcrux.C41_error_unchanged
#print axioms Horcrux.C41_never_lowers
#print axioms Horcrux.C41_lower_fails
#print axioms Horcrux.C41_exit_fails
#print axioms Horcrux.C41_success
#print axioms Horcrux.C41_exact
#print axioms Horcrux.C42_get
#print axioms Horcrux.C42_ignored
#print axioms Horcrux.C42_agree
#print axioms Horcrux.C42_commands
#print axioms Horcrux.C42_api
#print axioms Horcrux.C43_snapshot
#print axioms Horcrux.C43_many
#print axioms Horcrux.C43_bytes
#print axioms Horcrux.C44_event
#print axioms Horcrux.C44_other
#print axioms Horcrux.C44_emit
#print axioms Horcrux.C44_not_stored
#print axioms Horcrux.C44_watermark
#print axioms Horcrux.C44_replay_below
#print axioms Horcrux.C44_replay
#print axioms Horcrux.C44_empty
#print axioms Horcrux.C44_range
#print axioms Horcrux.C45_join
#print axioms Horcrux.C45_rejoin
#print axioms Horcrux.C45_failed
#print axioms Horcrux.C46_not_leader
#print axioms Horcrux.C46_leader
#print axioms Horcrux.C47_iteration
#print axioms Horcrux.C47_stream
#print axioms Horcrux.C47_connect
#print axioms Horcrux.C47_kind
#print axioms Horcrux.C47_threshold
#print axioms Horcrux.C47_threshold_proposal
#print axioms Horcrux.C48_fails
#print axioms Horcrux.C48_partial
#print axioms Horcrux.C48_unreadable
#print axioms Horcrux.C48_single_partial
#print axioms Horcrux.C48_single_fails
#print axioms Horcrux.C49_exclusive
#print axioms Horcrux.C49_linear
#print axioms Horcrux.C49_function
#print axioms Horcrux.C49_single
#print axioms Horcrux.C50_accepted_iff
#print axioms Horcrux.C50_room
#print axioms Horcrux.C50_errors
#print axioms Horcrux.C51_failure
#print axioms Horcrux.C51_nodes
#print axioms Horcrux.C51_peers
#print axioms Horcrux.C51_shares
#print axioms Horcrux.C51_survives
#print axioms Horcrux.C52_last_partial
#print axioms Horcrux.C52_fails
#print axioms Horcrux.C53_round_trip
#print axioms Horcrux.C53_accepted_iff
#print axioms Horcrux.C53_refused
#print axioms Horcrux.C54_partial
#print axioms Horcrux.C54_recover
#print axioms Horcrux.C54_truncates
#print axioms Horcrux.C54_threshold_fails
#print axioms Horcrux.C54_fails
#print axioms Horcrux.C55_round_trip
#print axioms Horcrux.C55_amino
#print axioms Horcrux.C55_unknown_kind
#print axioms Horcrux.C55_range
#print axioms Horcrux.C56_no_overwrite
#print axioms Horcrux.C56_invalid
#print axioms Horcrux.C56_keeps_state
#print axioms Horcrux.C56_success
#print axioms Horcrux.C56_completes
#print axioms Horcrux.C57_grpc_fails
#print axioms Horcrux.C57_event_fails
#print axioms Horcrux.C57_partial
#print axioms Horcrux.C57_exact
#print axioms Horcrux.C57_only
#print axioms Horcrux.C58_distinct_partial
#print axioms Horcrux.C58_alias_fails
#print axioms Horcrux.C58_wrap_fails
#print axioms Horcrux.C58_exact
#print axioms Horcrux.C59_partial
#print axioms Horcrux.C59_needed
#print axioms Horcrux.C59_fails
#print axioms Horcrux.C59_history_fails
#print axioms Horcrux.C60_accepted_partial
#print axioms Horcrux.C60_peers_remove_partial
#print axioms Horcrux.C60_fails
#print axioms Horcrux.C60_peers_valid
#print axioms Horcrux.C61_signs
#print axioms Horcrux.C62_single
#print axioms Horcrux.C62_cosigner
#print axioms Horcrux.C62_starts
#print axioms Horcrux.C63_signs
#print axioms Horcrux.C63_recorded
#print axioms Horcrux.C63_proposal
#print axioms Horcrux.C63_vote
#print axioms Horcrux.C64_exact
#print axioms Horcrux.C64_unsigned
#print axioms Horcrux.C64_one_signed
#print axioms Horcrux.C64_restarts
#print axioms Horcrux.C64_restarts_unsigned
#print axioms Horcrux.C64_restarts_one_signed
#print axioms Horcrux.C64_retry_partial
#print axioms Horcrux.C64_asked
#print axioms Horcrux.C64_quorum_fails
#print axioms Horcrux.C64_restart_fails
#print axioms Horcrux.C64_leader_fails
#print axioms Horcrux.C65_roundtrip
#print axioms Horcrux.C65_load
#print axioms Horcrux.C65_injective
#print axioms Horcrux.C65_truncated
#print axioms Horcrux.C65_range
#print axioms Horcrux.C65_rewrite
#print axioms Horcrux.C65_created
#print axioms Horcrux.C66_covered_partial
#print axioms Horcrux.C66_needed
#print axioms Horcrux.C66_partial
#print axioms Horcrux.C66_idle_partial
#print axioms Horcrux.C66_fails
#print axioms Horcrux.C66_node_fails
#print axioms Horcrux.C67_same
#print axioms Horcrux.C67_not_text
#print axioms Horcrux.C67_signs
#print axioms Horcrux.C68_members
#print axioms Horcrux.C68_partial
#print axioms Horcrux.C68_accepted_partial
#print axioms Horcrux.C68_own_id_fails
#print axioms Horcrux.C68_same_host_fails
#print axioms Horcrux.C68_stored_fails
#print axioms Horcrux.C68_stale_fails
#print axioms Horcrux.C69_partial
#print axioms Horcrux.C69_exact_partial
#print axioms Horcrux.C69_member_partial
#print axioms Horcrux.C69_any_partial
#print axioms Horcrux.C69_unlisted_fails
#print axioms Horcrux.C69_fails
#print axioms Horcrux.C70_partial
#print axioms Horcrux.C70_same_leader
#print axioms Horcrux.C70_record_fails
#print axioms Horcrux.C70_fails
#print axioms Horcrux.C71_table
#print axioms Horcrux.C71_shareArray
#print axioms Horcrux.C71_stable
#print axioms Horcrux.C71_completes
#print axioms Horcrux.C71_exact
#print axioms Horcrux.C71_partial
#print axioms Horcrux.C71_threshold_fails
#print axioms Horcrux.C71_gap_fails
#print axioms Horcrux.C72_fails
#print axioms Horcrux.C72_once_partial
#print axioms Horcrux.C73_answers
#print axioms Horcrux.C73_refused
#print axioms Horcrux.C73_others
#print axioms Horcrux.C74_covered_partial
#print axioms Horcrux.C74_idle_covered
#print axioms Horcrux.C74_behind_fails
#print axioms Horcrux.C74_exact
#print axioms Horcrux.C74_stops
#print axioms Horcrux.C74_exits
#print axioms Horcrux.C74_last
#print axioms Horcrux.C74_returns_partial
#print axioms Horcrux.C74_dial_fails
#print axioms Horcrux.C74_refines
#print axioms Horcrux.C74_idle_partial
#print axioms Horcrux.C74_fails
#print axioms Horcrux.C75_self_fails
#print axioms Horcrux.C75_home_fails
#print axioms Horcrux.C75_set_partial
#print axioms Horcrux.C75_show
#print axioms Horcrux.C75_show_injective
#print axioms Horcrux.C76_bech32
#print axioms Horcrux.C76_unique
#print axioms Horcrux.C76_key
#print axioms Horcrux.C76_only
#print axioms Horcrux.C76_args
#print axioms Horcrux.C76_hint
#print axioms Horcrux.C76_cons_partial
#print axioms Horcrux.C76_identifies
#print axioms Horcrux.C76_fails
#print axioms Horcrux.C76_doc_fails
#print axioms Horcrux.C76_panics
#print axioms Horcrux.C77_reads
#print axioms Horcrux.C77_signs
#print axioms Horcrux.C77_unchecked
#print axioms Horcrux.C77_mismatch_fails
#print axioms Horcrux.C77_kind
#print axioms Horcrux.C77_panics
#print axioms Horcrux.C78_extensible
#print axioms Horcrux.C78_unseen
#print axioms Horcrux.C78_extended_fails
#print axioms Horcrux.C78_chain_fails
#print axioms Horcrux.C78_node_partial
#print axioms Horcrux.C78_request_chain_fails
#print axioms Horcrux.C79_accepted
#print axioms Horcrux.C79_readable
#print axioms Horcrux.C79_unique
#print axioms Horcrux.C79_cut
#print axioms Horcrux.C79_refused
#print axioms Horcrux.C79_written
#print axioms Horcrux.C79_silent_fails
#print axioms Horcrux.C79_damaged_fails
#print axioms Horcrux.C80_exact
#print axioms Horcrux.C80_accepted_partial
#print axioms Horcrux.C80_readable
#print axioms Horcrux.C80_unique
#print axioms Horcrux.C80_refused
#print axioms Horcrux.C80_null_fails
#print axioms Horcrux.C80_written
#print axioms Horcrux.C80_silent_fails
#print axioms Horcrux.C80_twice_fails
#print axioms Horcrux.C81_nodes
#print axioms Horcrux.C81_anyone
#print axioms Horcrux.C81_refused_partial
#print axioms Horcrux.C81_started_fails
#print axioms Horcrux.C81_replay_fails
#print axioms Horcrux.C81_answer_fails
#print axioms Horcrux.C81_concrete_fails
#print axioms Horcrux.C82_signs
#print axioms Horcrux.C82_votes
#print axioms Horcrux.C83_nonces_partial
#print axioms Horcrux.C83_fails
#print axioms Horcrux.C83_node_fails
#print axioms Horcrux.C84_order
#print axioms Horcrux.C85_fails
#print axioms Horcrux.C85_partial
#print axioms Horcrux.C86_partial
#print axioms Horcrux.C86_fails
#print axioms Horcrux.C87_partial
#print axioms Horcrux.C87_umask_partial
#print axioms Horcrux.C87_state_files
#print axioms Horcrux.C87_fails
#print axioms Horcrux.C88_partial
#print axioms Horcrux.C88_fails
#print axioms Horcrux.C88_sign_phase
#print axioms Horcrux.C89_partial
#print axioms Horcrux.C89_v6_partial
#print axioms Horcrux.C89_same
#print axioms Horcrux.C89_elect
#print axioms Horcrux.C89_cluster_partial
#print axioms Horcrux.C89_no_scheme_fails
#print axioms Horcrux.C89_elect_fails
#print axioms Horcrux.C89_v6_fails
#print axioms Horcrux.C89_no_port_fails
#print axioms Horcrux.C89_unambiguous
#print axioms Horcrux.C89_target_exact
#print axioms Horcrux.C89_elect_exact
#print axioms Horcrux.C89_listen_exact
#print axioms Horcrux.C90_partial
#print axioms Horcrux.C90_refused
#print axioms Horcrux.C90_taken
#print axioms Horcrux.C90_fails
#print axioms Horcrux.C90_start_fails
#print axioms Horcrux.C90_exact
#print axioms Horcrux.C91_partial
#print axioms Horcrux.C91_dialable
#print axioms Horcrux.C91_fails
#print axioms Horcrux.C91_refused_fails
#print axioms Horcrux.C91_accepted_exact
#print axioms Horcrux.C91_dialled_exact
#print axioms Horcrux.C92_partial
#print axioms Horcrux.C92_never_lowers
#print axioms Horcrux.C92_exact
#print axioms Horcrux.C92_home_fails
#print axioms Horcrux.C92_exit_fails
#print axioms Horcrux.C93_needs_all
#print axioms Horcrux.C93_partial
#print axioms Horcrux.C93_exact
#print axioms Horcrux.C93_fails
#print axioms Horcrux.C94_stays
#print axioms Horcrux.C94_kept
#print axioms Horcrux.C94_partial
#print axioms Horcrux.C94_fails
#print axioms Horcrux.C95_one
#print axioms Horcrux.C95_partial
#print axioms Horcrux.C95_sequential_partial
#print axioms Horcrux.C95_fails
#print axioms Horcrux.C95_needed
#print axioms Horcrux.C96_no_deadlock
#print axioms Horcrux.C96_ends
#print axioms Horcrux.C96_unlocks
#print axioms Horcrux.C97_maps
#print axioms Horcrux.C97_writes
#print axioms Horcrux.C97_partial
#print axioms Horcrux.C97_marshal_fails
#print axioms Horcrux.C97_refusal_fails
#print axioms Horcrux.C97_restore_fails
#print axioms Horcrux.C98_leader
#print axioms Horcrux.C98_follower
#print axioms Horcrux.C98_time
#print axioms Horcrux.C99_partial
#print axioms Horcrux.C99_fails
#print axioms Horcrux.C99_late_fails
#print axioms Horcrux.C100_waits
#print axioms Horcrux.C100_partial
#print axioms Horcrux.C100_fails
#print axioms Horcrux.C100_late_fails
#print axioms Horcrux.C101_read
#print axioms Horcrux.C101_served
#print axioms Horcrux.C101_own
#print axioms Horcrux.C102_votes
#print axioms Horcrux.C102_verify
#print axioms Horcrux.C102_proposals
#print axioms Horcrux.C102_lost_file_fails
#print axioms Horcrux.C103_served_partial
#print axioms Horcrux.C103_overlapping_partial
#print axioms Horcrux.C103_fails
#print axioms Horcrux.C103_leader_fails
#print axioms Horcrux.C104_signBlock
#print axioms Horcrux.C104_get
#print axioms Horcrux.C104_setSign
#print axioms Horcrux.C104_transfer
#print axioms Horcrux.C104_signBlockRes
#print axioms Horcrux.C104_getRes
#print axioms Horcrux.C104_setSignRes
#print axioms Horcrux.C104_served
#print axioms Horcrux.C104_answers
#print axioms Horcrux.C104_fields
#print axioms Horcrux.C105_requests
#print axioms Horcrux.C105_votes
#print axioms Horcrux.C105_verify
#print axioms Horcrux.C105_shared
#print axioms Horcrux.C105_proposals
#print axioms Horcrux.C105_covers
#print axioms Horcrux.C106_signs
#print axioms Horcrux.C106_progress
#print axioms Horcrux.C107_partial
#print axioms Horcrux.C107_fails
#print axioms Horcrux.C107_single_fails
#print axioms Horcrux.C107_exact
#print axioms Horcrux.C107_repair_fails
#print axioms Horcrux.C108_partial
#print axioms Horcrux.C108_sequence_partial
#print axioms Horcrux.C108_fails
#print axioms Horcrux.C108_needed
#print axioms Horcrux.C108_exact
#print axioms Horcrux.C109_fails
#print axioms Horcrux.C109_junk_fails
#print axioms Horcrux.C109_partial
#print axioms Horcrux.C109_exact
#print axioms Horcrux.C109_refused
#print axioms Horcrux.C110_contents
#print axioms Horcrux.C110_agree
#print axioms Horcrux.C110_progress
#print axioms Horcrux.C111_partial
#print axioms Horcrux.C111_fails
#print axioms Horcrux.C111_restart_fails
#print axioms Horcrux.C111_exact
#print axioms Horcrux.C112_fails
#print axioms Horcrux.C112_partial
#print axioms Horcrux.C112_exact
#print axioms Horcrux.C112_call
#print axioms Horcrux.C113_verify
#print axioms Horcrux.C113_partial
#print axioms Horcrux.C113_answers
#print axioms Horcrux.C113_again
#print axioms Horcrux.C113_refused
#print axioms Horcrux.C113_fails
#print axioms Horcrux.C114_exact
#print axioms Horcrux.C114_partial
#print axioms Horcrux.C114_fails
#print axioms Horcrux.C114_reconnects
#print axioms Horcrux.C115_migrates
#print axioms Horcrux.C115_unmodified
#print axioms Horcrux.C116_partial
#print axioms Horcrux.C116_fails
#print axioms Horcrux.C117_file_only
#print axioms Horcrux.C117_written
#print axioms Horcrux.C117_sequence
#print axioms Horcrux.C117_chainID
#print axioms Horcrux.C118_serial
#print axioms Horcrux.C118_crash
#print axioms Horcrux.C118_signs
#print axioms Horcrux.C118_rest
#print axioms Horcrux.C119_atomic
#print axioms Horcrux.C119_race
#print axioms Horcrux.C119_serial
#print axioms Horcrux.C119_crash
#print axioms Horcrux.C119_signs
#print axioms Horcrux.C119_rest
#print axioms Horcrux.C119_threshold
#print axioms Horcrux.C120_signBytes
#print axioms Horcrux.C120_crash
#print axioms Horcrux.C120_refused
#print axioms Horcrux.C120_signed
#print axioms Horcrux.C120_request
#print axioms Horcrux.C120_one
#print axioms Horcrux.C120_oneUse
#print axioms Horcrux.C120_allowed
#print axioms Horcrux.C120_loose
#print axioms Horcrux.C121_exact
#print axioms Horcrux.C121_partial
#print axioms Horcrux.C121_attempts
#print axioms Horcrux.C121_made
#print axioms Horcrux.C121_fails
#print axioms Horcrux.C121_silent_fails
#print axioms Horcrux.C121_own_fails
#print axioms Horcrux.C121_error_fails
#print axioms Horcrux.C121_any_fails
#print axioms Horcrux.C121_any_partial
#print axioms Horcrux.C121_member
#print axioms Horcrux.C121_unknown_fails
#print axioms Horcrux.C122_text
#print axioms Horcrux.C122_start
#print axioms Horcrux.C122_init
#print axioms Horcrux.C122_exact
#print axioms Horcrux.C122_partial
#print axioms Horcrux.C122_fails
#print axioms Horcrux.C123_fails
#print axioms Horcrux.C123_node_fails
#print axioms Horcrux.C123_exact
#print axioms Horcrux.C123_partial
#print axioms Horcrux.C123_shuts
#print axioms Horcrux.C123_behind
#print axioms Horcrux.C124_round
#print axioms Horcrux.C124_exact
#print axioms Horcrux.C124_uneven
#print axioms Horcrux.C124_quorums
#print axioms Horcrux.C124_one_short
#print axioms Horcrux.C124_nonces_short
#print axioms Horcrux.C124_partial
#print axioms Horcrux.C124_fails
#print axioms Horcrux.C124_uneven_fails
#print axioms Horcrux.C125_kept
#print axioms Horcrux.C125_signature
#print axioms Horcrux.C125_received
#print axioms Horcrux.C125_loaded
#print axioms Horcrux.C125_needed
#print axioms Horcrux.C126_back
#print axioms Horcrux.C126_exact
#print axioms Horcrux.C126_fails
#print axioms Horcrux.C126_partial
