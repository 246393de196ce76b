{
 "claims": [
  {
   "property": "C01",
   "status": "proved",
   "theorems": [
    "Horcrux.C01_save",
    "Horcrux.C01_history"
   ],
   "note": "For every sign state and every list of saves."
  },
  {
   "property": "C02",
   "status": "proved",
   "theorems": [
    "Horcrux.C02_errors"
   ],
   "note": "All four errors characterised exactly."
  },
  {
   "property": "C03",
   "status": "proved",
   "theorems": [
    "Horcrux.C03_check",
    "Horcrux.C03_check_conv"
   ],
   "note": "Both directions, nil versus empty slices distinguished."
  },
  {
   "property": "C04",
   "status": "partial",
   "theorems": [
    "Horcrux.C04_cache_created",
    "Horcrux.C04_cache_loaded",
    "Horcrux.C04_wraps_fails"
   ],
   "note": "Full characterisation of lookups after any save history, for fresh states and for loaded states with height >= -2^63+3. For the three heights below, which no chain reaches, C04_wraps_fails shows that the bound of the eviction wraps around and a saved block is not found."
  },
  {
   "property": "C05",
   "status": "proved",
   "theorems": [
    "Horcrux.C05_bytes",
    "Horcrux.C05_only_differ",
    "Horcrux.C05_other_steps",
    "Horcrux.C05_votes",
    "Horcrux.C05_vote_error",
    "Horcrux.C05_proposal_error"
   ],
   "note": "Iff for all byte strings against the byte-level decoder; also instantiated on the sign bytes of two votes; C05_bytes says it with the grammar of C120 in place of the decoder."
  },
  {
   "property": "C06",
   "status": "partial",
   "theorems": [
    "Horcrux.C06_proposal",
    "Horcrux.C06_vote_partial",
    "Horcrux.C06_unixNano",
    "Horcrux.C06_vote_fails",
    "Horcrux.C06_vote_exact"
   ],
   "note": "Proved for all proposals and all votes except nil votes at exactly the Unix epoch whose chain ID is empty or parses as a protobuf timestamp; for those it is false (witness C06_vote_fails). C06_vote_exact: a vote decodes to its own height, round, step and time if and only if it is not one of these."
  },
  {
   "property": "C07",
   "status": "proved",
   "theorems": [
    "Horcrux.C07_vote",
    "Horcrux.C07_proposal",
    "Horcrux.C07_vote_ne_proposal"
   ],
   "note": "Votes of whatever type, proposals, and vote versus proposal."
  },
  {
   "property": "C08",
   "status": "partial",
   "theorems": [
    "Horcrux.C08_partial",
    "Horcrux.C08_block_vote_partial",
    "Horcrux.C08_proposal",
    "Horcrux.C08_fails"
   ],
   "note": "The code violates the full claim (C08_fails); C08_partial states exactly which votes are mistaken for proposals."
  },
  {
   "property": "C09",
   "status": "partial",
   "theorems": [
    "Horcrux.C09_sign_partial",
    "Horcrux.C09_sign_fails",
    "Horcrux.C09_unpack_partial",
    "Horcrux.C09_unpack_fails"
   ],
   "note": "The code violates the claim: a vote with an unknown type aborts the process. The partial theorems say exactly when unpacking and signing abort."
  },
  {
   "property": "C10",
   "status": "proved",
   "theorems": [
    "Horcrux.C10_no_conflict"
   ],
   "note": "Any run from any state with arbitrary interleaved requests."
  },
  {
   "property": "C11",
   "status": "proved",
   "theorems": [
    "Horcrux.C11_no_regress"
   ],
   "note": "Relative to the initial watermark, all earlier releases and all accepted watermark events."
  },
  {
   "property": "C12",
   "status": "partial",
   "theorems": [
    "Horcrux.C12_immediate",
    "Horcrux.C12_recorded_partial",
    "Horcrux.C12_becomes_recorded_partial",
    "Horcrux.C12_resign_fails",
    "Horcrux.C12_resigned_partial",
    "Horcrux.C12_resigned_exact",
    "Horcrux.C12_parts_fails"
   ],
   "note": "Immediate repetition is proved in full. The full claim is false: after a re-sign of another timestamp the recorded request is answered with the newer ephemeral key (C12_resign_fails, general), and a re-signed request gets another signature once a part for its block came in between (C12_parts_fails). Partial: recorded signatures (C12_recorded_partial); re-signed requests with no part call for the block in between, which is the only thing that can matter (C12_resigned_partial). C12_resigned_exact: whatever came in between, a repeated re-signed request is signed with the parts held at that time, so the answer is the same exactly if those give the same key and signature."
  },
  {
   "property": "C13",
   "status": "partial",
   "theorems": [
    "Horcrux.C13_same_block_partial",
    "Horcrux.C13_honest_partial",
    "Horcrux.C13_trailing_fails"
   ],
   "note": "False in full: trailing bytes after the delimited message are signed with the same nonce (C13_trailing_fails, general). Proved for any caller up to timestamp/trailing bytes, and in full for validator-produced bytes under the protocol schedule."
  },
  {
   "property": "C14",
   "status": "partial",
   "theorems": [
    "Horcrux.C14_own_share_partial",
    "Horcrux.C14_set_only_fails",
    "Horcrux.C14_needed"
   ],
   "note": "Proved when the cosigner handed out its own part first (C14_own_share_partial); false otherwise (C14_set_only_fails). C14_needed: whenever it was not asked for a part for the height, round and step, its nonce share is a sum of shares that others sent."
  },
  {
   "property": "C15",
   "status": "proved",
   "theorems": [
    "Horcrux.C15_refused",
    "Horcrux.C15_stored",
    "Horcrux.C15_not_stored"
   ],
   "note": "Refusal, exact effect of acceptance, and no effect otherwise."
  },
  {
   "property": "C16",
   "status": "partial",
   "theorems": [
    "Horcrux.C16_replay_fails",
    "Horcrux.C16_destination_partial",
    "Horcrux.C16_exact"
   ],
   "note": "False: the source signature does not cover height, round, step, time (C16_replay_fails, general). C16_exact: after any history, exactly when a part is accepted; only the last of the conditions (randomness for an unknown block) depends on the block. C16_destination_partial: undecryptable parts of other destinations are refused."
  },
  {
   "property": "C17",
   "status": "partial",
   "theorems": [
    "Horcrux.C17_parts",
    "Horcrux.C17_interleaved_partial",
    "Horcrux.C17_new_deal",
    "Horcrux.C17_interleaved_fails"
   ],
   "note": "Proved for an uninterrupted call (C17_parts); with other calls in between proved unless a higher block is signed in between (C17_interleaved_partial). In that case it is false (C17_interleaved_fails), and in general the later parts come from a deal that a call after the signature has made (C17_new_deal), so the condition is exact."
  },
  {
   "property": "C18",
   "status": "proved",
   "theorems": [
    "Horcrux.C18_prune",
    "Horcrux.C18_otherwise"
   ],
   "note": "Exact characterisation for every key."
  },
  {
   "property": "C19",
   "status": "proved",
   "theorems": [
    "Horcrux.C19_less_iff",
    "Horcrux.C19_strict_weak_order",
    "Horcrux.C19_agrees"
   ],
   "note": "Order laws and agreement with save/check."
  },
  {
   "property": "C20",
   "status": "partial",
   "theorems": [
    "Horcrux.C20_complete_partial",
    "Horcrux.C20_gap_fails",
    "Horcrux.C20_gap_set_fails",
    "Horcrux.C20_exact"
   ],
   "note": "False in general (C20_gap_fails, C20_gap_set_fails: a configuration that lists only some peers crashes on the first request of a peer whose ID exceeds the number of listed cosigners). Proved for complete configurations, all runs and requests; C20_exact: no request of a configured peer ever aborts in any run exactly if the own ID and all listed IDs are positions in the table."
  },
  {
   "property": "C21",
   "status": "proved",
   "theorems": [
    "Horcrux.C21_round",
    "Horcrux.C21_alone"
   ],
   "note": "Over any crypto satisfying the stated algebraic laws (Lawful, LawfulRSA; instance given). C21_alone records why n >= 2 is needed."
  },
  {
   "property": "C22",
   "status": "proved",
   "theorems": [
    "Horcrux.C22_recover"
   ],
   "note": "Over any field in which 0..n are distinct."
  },
  {
   "property": "C23",
   "status": "proved",
   "theorems": [
    "Horcrux.C23_consistent",
    "Horcrux.C23_unique",
    "Horcrux.C23_no_information"
   ],
   "note": "Existence, uniqueness for t-1 shares, and a bijection between the dealings explaining two candidate secrets."
  },
  {
   "property": "C24",
   "status": "proved",
   "theorems": [
    "Horcrux.C24_quorum",
    "Horcrux.C24_full_signatures",
    "Horcrux.C24_no_conflict"
   ],
   "note": "Joint runs with any schedule and any leaders; also with f faulty cosigners and n + f < 2t. A full signature is tied to assemble. Unforgeability of share signatures is the stated assumption."
  },
  {
   "property": "C25",
   "status": "partial",
   "theorems": [
    "Horcrux.C25_upper_bound_partial",
    "Horcrux.C25_fails",
    "Horcrux.C25_shares_fails",
    "Horcrux.C25_exact"
   ],
   "note": "False (C25_fails for every n and every threshold <= n; C25_shares_fails). C25_exact: the thresholds, numbers of shares and of peers that accepted configurations have; C25_upper_bound_partial for every library."
  },
  {
   "property": "C26",
   "status": "partial",
   "theorems": [
    "Horcrux.C26_no_signature",
    "Horcrux.C26_any_proposal",
    "Horcrux.C26_swapped_fails",
    "Horcrux.C26_partial",
    "Horcrux.C26_vote_partial",
    "Horcrux.C26_no_signature_fails",
    "Horcrux.C26_other_proposal_fails"
   ],
   "note": "Negations: a re-timed vote below the watermark of started blocks gets success without a signature (C26_no_signature_fails; C26_no_signature: in every state, exactly when); a different proposal for a signed height and round gets the recorded signature (C26_other_proposal_fails; C26_any_proposal: in every state). Partial: every other successful return on a leader verifies over the sign bytes of the returned message, if the records in the loaded file and in raft events do. C26_swapped_fails: after a restart from a file that overlapping goroutines have left, a repeated request succeeds with the signature of the block before."
  },
  {
   "property": "C27",
   "status": "proved",
   "theorems": [
    "Horcrux.C27_returns",
    "Horcrux.C27_own_block",
    "Horcrux.C27_vote",
    "Horcrux.C27_proposal"
   ],
   "note": "Return values of every step of every call, and the vote/proposal after the wrappers. Proxied calls included."
  },
  {
   "property": "C28",
   "status": "proved",
   "theorems": [
    "Horcrux.C28_one_attempt",
    "Horcrux.C28_increasing"
   ],
   "note": "Every interleaving of sign calls and raft events from the start of a process."
  },
  {
   "property": "C29",
   "status": "partial",
   "theorems": [
    "Horcrux.C29_exact",
    "Horcrux.C29_partial",
    "Horcrux.C29_raft_record_fails"
   ],
   "note": "Negation: a record brought by raft for a block this process did not start is ignored by the leader path and a new round starts (C29_raft_record_fails). Partial: records made by this process or loaded at start, or whose HRS it started. C29_exact: for a record that came in whatever way, the request is answered from the cache exactly if the block does not lie above everything this process has started; otherwise a round starts."
  },
  {
   "property": "C30",
   "status": "proved",
   "theorems": [
    "Horcrux.C30_refused",
    "Horcrux.C30_waiting"
   ],
   "note": "For every state, with arbitrary other steps between the call and its answer."
  },
  {
   "property": "C31",
   "status": "proved",
   "theorems": [
    "Horcrux.C31_participants",
    "Horcrux.C31_late_answers",
    "Horcrux.C31_counter",
    "Horcrux.C31_threshold_zero"
   ],
   "note": "Any schedule of the collection goroutines; also: a threshold of zero panics."
  },
  {
   "property": "C32",
   "status": "proved",
   "theorems": [
    "Horcrux.C32_addressed",
    "Horcrux.C32_exactly",
    "Horcrux.C32_order"
   ],
   "note": "Unconditional part, exact characterisation for proper answers, independence of map order."
  },
  {
   "property": "C33",
   "status": "proved",
   "theorems": [
    "Horcrux.C33_round",
    "Horcrux.C33_refused",
    "Horcrux.C33_emitted_and_recorded"
   ],
   "note": "One round for all share signatures, with the exact condition for an error (C33_refused), and whole runs: everything emitted or newly recorded verifies."
  },
  {
   "property": "C34",
   "status": "proved",
   "theorems": [
    "Horcrux.C34_watermarks",
    "Horcrux.C34_record_stable",
    "Horcrux.C34_current_stable"
   ],
   "note": "Every run; record stability for states whose cache lies below the watermark, which is shown for empty and loaded states and preserved."
  },
  {
   "property": "C35",
   "status": "proved",
   "theorems": [
    "Horcrux.C35_block",
    "Horcrux.C35_signature",
    "Horcrux.C35_hrst",
    "Horcrux.C35_parts",
    "Horcrux.C35_setAndSign",
    "Horcrux.C35_setAndSign_answer"
   ],
   "note": "Byte-level proto3 encoding and decoding of all request and response messages except leadership transfer; chain IDs are taken to be UTF-8."
  },
  {
   "property": "C36",
   "status": "partial",
   "theorems": [
    "Horcrux.C36_covered_partial",
    "Horcrux.C36_recorded_covered",
    "Horcrux.C36_needed",
    "Horcrux.C36_partial",
    "Horcrux.C36_idle_partial",
    "Horcrux.C36_fails",
    "Horcrux.C36_every_fails",
    "Horcrux.C36_exact",
    "Horcrux.C36_node_any",
    "Horcrux.C36_node_fails",
    "Horcrux.C36_mixed_fails"
   ],
   "note": "False in full: C36_fails; C36_every_fails: of every cosigner of a correctly dealt key and every two sign bytes of a block above its file (killed between answering and the background write); C36_node_fails: a chain node can bring the crash about, at any time, with one malformed request; C36_node_any: any crash at any moment of any history. Proved over any number of process lives when, whenever the process dies, the watermark in the file is not below anything released (C36_covered_partial); C36_needed: otherwise any sign bytes of that block are signed after the restart; C36_exact puts both together as an equivalence. Implied by: the file holds the record in memory (C36_partial), or no write is outstanding and none overwrites a newer file (C36_idle_partial). C36_mixed_fails: of every cosigner even if it is killed long after all its goroutines have finished without an error, because marshalling takes no lock."
  },
  {
   "property": "C37",
   "status": "partial",
   "theorems": [
    "Horcrux.C37_record_partial",
    "Horcrux.C37_serial_partial",
    "Horcrux.C37_partial",
    "Horcrux.C37_stale_fails",
    "Horcrux.C37_ephemeral_fails",
    "Horcrux.C37_exact",
    "Horcrux.C37_last",
    "Horcrux.C37_resign_fails",
    "Horcrux.C37_swapped_fails"
   ],
   "note": "False in full: C37_stale_fails (an older marshalled state written last), C37_ephemeral_fails and, for every process and call, C37_resign_fails (re-signing changes the ephemeral key in memory only). Proved for writes that do not overwrite a newer file; everything but the ephemeral key without, everything with the condition that nothing is re-signed. C37_exact: under any scheduling a file holds the record exactly if it is at the height, round and step in memory, and is behind otherwise; C37_last: the last write to finish decides. These take marshalling as one step; field by field, without the lock, as in the code, a file with the watermark in memory can hold the sign bytes of that block with the signature of the one before, with nothing outstanding, and a restarted cosigner then answers with that signature (C37_swapped_fails)."
  },
  {
   "property": "C38",
   "status": "partial",
   "theorems": [
    "Horcrux.C38_partial",
    "Horcrux.C38_not_ahead_partial",
    "Horcrux.C38_load",
    "Horcrux.C38_torn_fails",
    "Horcrux.C38_fields_partial",
    "Horcrux.C38_alone",
    "Horcrux.C38_finishes",
    "Horcrux.C38_memory",
    "Horcrux.C38_mixed_fails",
    "Horcrux.C38_below_fails",
    "Horcrux.C38_height",
    "Horcrux.C38_covers_partial",
    "Horcrux.C38_settles_partial"
   ],
   "note": "C38_load is complete. The other two parts are proved with marshalling as one step (C38_partial) and, with the field-by-field unlocked marshalling of the code, for executions where saving and marshalling do not overlap (C38_fields_partial, C38_alone); with overlaps they are false (C38_torn_fails). With any number of goroutines marshalling at the same time: of every two saves the file can, with nothing outstanding, hold the height of the first and the rest of the second (C38_mixed_fails), and then be below both (C38_below_fails); the height in the file is never above the one in memory (C38_height); and if no write lowers the file's watermark, a file at rest is at or above everything released (C38_covers_partial). If the goroutines marshal and write one after the other, however they overlap with saves, the file holds exactly the state in memory once the last has finished (C38_settles_partial)."
  },
  {
   "property": "C39",
   "status": "proved",
   "theorems": [
    "Horcrux.C39_loadOrCreate_keeps",
    "Horcrux.C39_loadOrCreate_creates",
    "Horcrux.C39_start_refused",
    "Horcrux.C39_start_running"
   ],
   "note": "Both sentences, on every file system (also with chain IDs that alias to one file)."
  },
  {
   "property": "C40",
   "status": "partial",
   "theorems": [
    "Horcrux.C40_partial",
    "Horcrux.C40_home_fails",
    "Horcrux.C40_home_exact"
   ],
   "note": "Proved at every crash point, including a truncated configuration, if the configuration's home-dir is the directory it is in. Otherwise false: C40_home_fails (witness); C40_home_exact says what happens then in general: the start reads the file home-dir had before the command for the chain ID now configured, so the watermark is kept exactly if that file holds the same as the one of the old chain ID."
  },
  {
   "property": "C41",
   "status": "partial",
   "theorems": [
    "Horcrux.C41_partial",
    "Horcrux.C41_error_unchanged",
    "Horcrux.C41_never_lowers",
    "Horcrux.C41_lower_fails",
    "Horcrux.C41_exit_fails",
    "Horcrux.C41_success",
    "Horcrux.C41_exact"
   ],
   "note": "False in full: C41_lower_fails (height not above: silently nothing), C41_exit_fails (exit before the background write). C41_success and C41_exact say exactly when the command reports success and what is then in each file; errors change nothing and no watermark is ever lowered."
  },
  {
   "property": "C42",
   "status": "proved",
   "theorems": [
    "Horcrux.C42_get",
    "Horcrux.C42_ignored",
    "Horcrux.C42_agree",
    "Horcrux.C42_commands",
    "Horcrux.C42_api"
   ],
   "note": "Entries are arbitrary bytes, decoded by a model of encoding/json. C42_get is the trichotomy over any log; C42_api the same against a functional map for logs written through Set and Delete."
  },
  {
   "property": "C43",
   "status": "proved",
   "theorems": [
    "Horcrux.C43_snapshot",
    "Horcrux.C43_many",
    "Horcrux.C43_bytes"
   ],
   "note": "Snapshots are the JSON bytes written to the sink; C43_many allows any number of snapshots and restores interleaved with entries. The invariant that stored strings are valid UTF-8 is proved of the JSON decoder."
  },
  {
   "property": "C44",
   "status": "proved",
   "theorems": [
    "Horcrux.C44_event",
    "Horcrux.C44_other",
    "Horcrux.C44_emit",
    "Horcrux.C44_not_stored",
    "Horcrux.C44_watermark",
    "Horcrux.C44_replay_below",
    "Horcrux.C44_replay",
    "Horcrux.C44_empty",
    "Horcrux.C44_range"
   ],
   "note": "Save errors are ignored by the handler, as in the code. C44_replay_below covers restarts: any sign states at or above the replayed events. C44_empty: events without fields change nothing."
  },
  {
   "property": "C45",
   "status": "proved",
   "theorems": [
    "Horcrux.C45_join",
    "Horcrux.C45_rejoin",
    "Horcrux.C45_failed"
   ],
   "note": "hashicorp/raft's RemoveServer/AddVoter/checkConfiguration are modelled from their documented semantics; concurrent membership changes during Join are not modelled. C45_failed: a failed join adds nothing and removes no unrelated entry."
  },
  {
   "property": "C46",
   "status": "proved",
   "theorems": [
    "Horcrux.C46_not_leader",
    "Horcrux.C46_leader"
   ],
   "note": "Loss of leadership between the check and the proposal is raft's answer `res`."
  },
  {
   "property": "C47",
   "status": "proved",
   "theorems": [
    "Horcrux.C47_iteration",
    "Horcrux.C47_stream",
    "Horcrux.C47_connect",
    "Horcrux.C47_kind",
    "Horcrux.C47_threshold",
    "Horcrux.C47_threshold_proposal"
   ],
   "note": "Byte level: ReadMsg/WriteMsg, privval.Message encode/decode with round trip, handleRequest and the connection loop, for arbitrary streams, validator outcomes, dial and write failures. A validator panic ends the process (see C48)."
  },
  {
   "property": "C48",
   "status": "partial",
   "theorems": [
    "Horcrux.C48_fails",
    "Horcrux.C48_partial",
    "Horcrux.C48_unreadable",
    "Horcrux.C48_single_partial",
    "Horcrux.C48_single_fails"
   ],
   "note": "False of the code: C48_fails/C48_single_fails give short byte strings that abort the process (missing vote/proposal, unknown vote type, hash of wrong size). C48_partial: those malformed requests are the only ones that abort; every other byte stream gets a reply or a dropped connection."
  },
  {
   "property": "C49",
   "status": "proved",
   "theorems": [
    "Horcrux.C49_exclusive",
    "Horcrux.C49_linear",
    "Horcrux.C49_function",
    "Horcrux.C49_single"
   ],
   "note": "Any number of callers, any schedule, any underlying small-step validator, with environment steps that bypass the guard (raft events, gRPC)."
  },
  {
   "property": "C50",
   "status": "proved",
   "theorems": [
    "Horcrux.C50_accepted_iff",
    "Horcrux.C50_room",
    "Horcrux.C50_errors"
   ],
   "note": "Exact characterisation of acceptance, the free ID, and the error reported."
  },
  {
   "property": "C51",
   "status": "proved",
   "theorems": [
    "Horcrux.C51_failure",
    "Horcrux.C51_nodes",
    "Horcrux.C51_peers",
    "Horcrux.C51_shares",
    "Horcrux.C51_survives"
   ],
   "note": "Exact effect of every editing command; failures change nothing; entries survive command sequences. The write of the file is assumed to succeed."
  },
  {
   "property": "C52",
   "status": "partial",
   "theorems": [
    "Horcrux.C52_last_partial",
    "Horcrux.C52_fails"
   ],
   "note": "False (C52_fails: only the last address is checked). Proved: exact characterisation by the last address."
  },
  {
   "property": "C53",
   "status": "proved",
   "theorems": [
    "Horcrux.C53_round_trip",
    "Horcrux.C53_accepted_iff",
    "Horcrux.C53_refused"
   ],
   "note": "Round trip, exact characterisation of accepted texts, refusal."
  },
  {
   "property": "C54",
   "status": "partial",
   "theorems": [
    "Horcrux.C54_partial",
    "Horcrux.C54_recover",
    "Horcrux.C54_truncates",
    "Horcrux.C54_threshold_fails",
    "Horcrux.C54_fails"
   ],
   "note": "False as stated: the number of shares and the threshold are cut to a byte (C54_fails: create-shares k 1 257 makes one file; C54_truncates for all overflowing numbers; C54_threshold_fails: threshold 257 puts the whole secret into every file). C54_partial proves it for n <= 255; C54_recover adds that any t files give back the secret. Dealing for thresholds that are 0 modulo 256 or above n is library behaviour and is a hypothesis (hdeal) of C54_partial. Assumes reading the private key, RSA key generation and the writes succeed."
  },
  {
   "property": "C55",
   "status": "proved",
   "theorems": [
    "Horcrux.C55_round_trip",
    "Horcrux.C55_amino",
    "Horcrux.C55_unknown_kind",
    "Horcrux.C55_range"
   ],
   "note": "ASN.1 encoding of RSA keys is a parameter with round-trip laws (RSACodec.Lawful); JSON, base64, protobuf and the amino form of the public key are modelled."
  },
  {
   "property": "C56",
   "status": "proved",
   "theorems": [
    "Horcrux.C56_no_overwrite",
    "Horcrux.C56_invalid",
    "Horcrux.C56_keeps_state",
    "Horcrux.C56_success",
    "Horcrux.C56_completes"
   ],
   "note": "All three parts, and what holds on success."
  },
  {
   "property": "C57",
   "status": "partial",
   "theorems": [
    "Horcrux.C57_grpc_fails",
    "Horcrux.C57_event_fails",
    "Horcrux.C57_partial",
    "Horcrux.C57_exact",
    "Horcrux.C57_only"
   ],
   "note": "False of the code: schedules with registration or a raft event before SetThresholdValidator panic (C57_grpc_fails, C57_event_fails). C57_exact: from a point on nothing can go wrong just if the validator was set before the gRPC server was made; C57_only covers all schedules."
  },
  {
   "property": "C58",
   "status": "partial",
   "theorems": [
    "Horcrux.C58_distinct_partial",
    "Horcrux.C58_alias_fails",
    "Horcrux.C58_wrap_fails",
    "Horcrux.C58_exact"
   ],
   "note": "Proved under the protocol schedule for times 1678-2261 (C58_distinct_partial); false otherwise (C58_alias_fails, C58_wrap_fails). C58_exact: under the schedule, for all times, one nonce record exactly if the times are a multiple of 2^64 ns apart."
  },
  {
   "property": "C59",
   "status": "partial",
   "theorems": [
    "Horcrux.C59_partial",
    "Horcrux.C59_needed",
    "Horcrux.C59_fails",
    "Horcrux.C59_history_fails"
   ],
   "note": "False: C59_fails, C59_history_fails (the state file is not loaded). Proved without restarts; C59_needed: two different answers for one height, round and step always have a restart between them."
  },
  {
   "property": "C60",
   "status": "partial",
   "theorems": [
    "Horcrux.C60_accepted_partial",
    "Horcrux.C60_peers_remove_partial",
    "Horcrux.C60_fails",
    "Horcrux.C60_peers_valid"
   ],
   "note": "False for peers remove (C60_fails). Proved for all other commands, exact condition for peers remove, and that the peer list stays valid under all command sequences."
  },
  {
   "property": "C61",
   "status": "proved",
   "theorems": [
    "Horcrux.C61_signs"
   ],
   "note": "Composes create-shares, the key files, start-up and an honest round (C21). Participants all answer; the gRPC transport is C35."
  },
  {
   "property": "C62",
   "status": "proved",
   "theorems": [
    "Horcrux.C62_single",
    "Horcrux.C62_cosigner",
    "Horcrux.C62_starts"
   ],
   "note": "Equivalences for both modes, with the resulting configuration; URL, duration and host parsing are parameters (Lib)."
  },
  {
   "property": "C63",
   "status": "proved",
   "theorems": [
    "Horcrux.C63_signs",
    "Horcrux.C63_recorded",
    "Horcrux.C63_proposal",
    "Horcrux.C63_vote"
   ],
   "note": "Whole-cluster liveness over any number of requests, from C21's algebra; C63_vote/C63_proposal discharge the sign-bytes hypothesis for real votes and proposals (C06)."
  },
  {
   "property": "C64",
   "status": "partial",
   "theorems": [
    "Horcrux.C64_exact",
    "Horcrux.C64_unsigned",
    "Horcrux.C64_one_signed",
    "Horcrux.C64_restarts",
    "Horcrux.C64_restarts_unsigned",
    "Horcrux.C64_restarts_one_signed",
    "Horcrux.C64_retry_partial",
    "Horcrux.C64_asked",
    "Horcrux.C64_quorum_fails",
    "Horcrux.C64_restart_fails",
    "Horcrux.C64_leader_fails"
   ],
   "note": "Proved for the same participants and a leader that has not started the block itself (C64_retry_partial), and for any participants if none of them has signed (C64_unsigned, C64_asked), also with restarts in between (C64_restarts_unsigned). False for another quorum (C64_one_signed: in every honest cluster, unless the old share signature happens to be the new one; C64_quorum_fails: witness), after a restart (C64_restarts_one_signed: the general form; C64_restart_fails: witness) and for the same leader (C64_leader_fails). C64_exact, C64_restarts: the exact condition after attempts with any participants, without and with restarts."
  },
  {
   "property": "C65",
   "status": "proved",
   "theorems": [
    "Horcrux.C65_roundtrip",
    "Horcrux.C65_load",
    "Horcrux.C65_injective",
    "Horcrux.C65_truncated",
    "Horcrux.C65_range",
    "Horcrux.C65_rewrite",
    "Horcrux.C65_created"
   ],
   "note": "JSON text of the state file as tendermint/libs/json writes and reads it; for either reading of omitempty on empty non-nil slices. A file with the text null loads as the zero state."
  },
  {
   "property": "C66",
   "status": "partial",
   "theorems": [
    "Horcrux.C66_covered_partial",
    "Horcrux.C66_needed",
    "Horcrux.C66_partial",
    "Horcrux.C66_idle_partial",
    "Horcrux.C66_fails",
    "Horcrux.C66_node_fails"
   ],
   "note": "Partial: holds for every n + f < 2t where dying while the watermark in the file is below something released counts as a fault (C66_covered_partial; C66_partial with the stronger condition on the record). False otherwise: one such death in an honest 2-of-3 cluster gives two valid conflicting signatures (C66_fails). The bound is exact: in every correctly dealt cluster with 2t \u2264 n + f, f cosigners dying once each suffice for verifying full signatures over any two sign bytes of one height, round and step (C66_needed). C66_node_fails: those deaths can be brought about by one chain node each, with one malformed request."
  },
  {
   "property": "C67",
   "status": "proved",
   "theorems": [
    "Horcrux.C67_same",
    "Horcrux.C67_not_text",
    "Horcrux.C67_signs"
   ],
   "note": "C67_same needs no assumption on keys or on the state of the nodes: the state after a request over any hops is the state after the direct request, the answer has the same signature bytes. C67_signs: with C63, all increasing requests entering anywhere are signed (signatures that verify have 64 bytes, as Ed25519 checks). The transport is taken to deliver; losses are the proxyDone errors of C10/C45."
  },
  {
   "property": "C68",
   "status": "partial",
   "theorems": [
    "Horcrux.C68_members",
    "Horcrux.C68_partial",
    "Horcrux.C68_accepted_partial",
    "Horcrux.C68_own_id_fails",
    "Horcrux.C68_same_host_fails",
    "Horcrux.C68_stored_fails",
    "Horcrux.C68_stale_fails"
   ],
   "note": "Proved: agreeing configurations give the same server list on every node (C68_members), and the exact condition for a first start to have a raft configuration (C68_accepted_partial). False of the code: self-listing or repeated addresses are accepted and silently leave the node without raft configuration; a restart keeps the old one."
  },
  {
   "property": "C69",
   "status": "partial",
   "theorems": [
    "Horcrux.C69_partial",
    "Horcrux.C69_exact_partial",
    "Horcrux.C69_member_partial",
    "Horcrux.C69_any_partial",
    "Horcrux.C69_unlisted_fails",
    "Horcrux.C69_fails"
   ],
   "note": "Proved for IDs the leader lists (C69_partial, C69_exact_partial, C69_member_partial) and for no ID. False of the code for the own ID and unknown IDs, which move the leadership to any other server without an error."
  },
  {
   "property": "C70",
   "status": "partial",
   "theorems": [
    "Horcrux.C70_partial",
    "Horcrux.C70_same_leader",
    "Horcrux.C70_record_fails",
    "Horcrux.C70_fails"
   ],
   "note": "Proved for the same participants under another leader (C70_partial) and for the same leader (C70_same_leader). False otherwise: C70_fails (every quorum with a new leader that did not take part), C70_record_fails (general: the raft record is answered in place of a share)."
  },
  {
   "property": "C71",
   "status": "partial",
   "theorems": [
    "Horcrux.C71_table",
    "Horcrux.C71_shareArray",
    "Horcrux.C71_stable",
    "Horcrux.C71_completes",
    "Horcrux.C71_exact",
    "Horcrux.C71_partial",
    "Horcrux.C71_threshold_fails",
    "Horcrux.C71_gap_fails"
   ],
   "note": "Proved: complete table (C71_table, C71_shareArray, C71_stable), completes when all have answered (C71_completes), exact condition for a crash (C71_exact). The crash part is proved for configurations that list all peers and have a threshold of at least one (C71_partial); false otherwise: C71_threshold_fails, C71_gap_fails."
  },
  {
   "property": "C72",
   "status": "partial",
   "theorems": [
    "Horcrux.C72_fails",
    "Horcrux.C72_once_partial"
   ],
   "note": "C72_fails: the full statement is false. After any round, asking each participant for the signed bytes and for the signed bytes with trailing bytes (no parts needed, no authentication) gives two share signatures with one nonce; a fixed formula of the answers is the validator's private key, for every n, t, quorum, message and randomness. C72_once_partial: if every nonce record serves one signature only, the share signatures of any run are consistent with every key share. The hypothesis val (sc y) = y says that scalar decoding inverts encoding; discrete logarithms of the public points are outside the model."
  },
  {
   "property": "C73",
   "status": "proved",
   "theorems": [
    "Horcrux.C73_answers",
    "Horcrux.C73_refused",
    "Horcrux.C73_others"
   ],
   "note": "C73_answers, by induction over the events, with the chain node able to read each answer (votes with a validator address above 9000 bytes excepted); C73_refused: an error of the cluster reaches the chain node without a signature; C73_others: pings, public key requests and unreadable bytes. Assumes that verification accepts only 64-byte signatures (h64) and the laws of Lawful/Setup; the vote of C06's exception is excluded in Asks."
  },
  {
   "property": "C74",
   "status": "partial",
   "theorems": [
    "Horcrux.C74_covered_partial",
    "Horcrux.C74_idle_covered",
    "Horcrux.C74_behind_fails",
    "Horcrux.C74_exact",
    "Horcrux.C74_stops",
    "Horcrux.C74_exits",
    "Horcrux.C74_last",
    "Horcrux.C74_returns_partial",
    "Horcrux.C74_dial_fails",
    "Horcrux.C74_refines",
    "Horcrux.C74_idle_partial",
    "Horcrux.C74_fails"
   ],
   "note": "Proved in full: C74_stops, C74_exits, C74_last, C74_refines. The loop returns if dialling succeeds (C74_returns_partial; C74_dial_fails otherwise). No conflict after restarts if at every start the file had come up to everything released (C74_covered_partial; implied by no outstanding background write at the exit, C74_idle_covered, C74_idle_partial); otherwise false (C74_fails; C74_behind_fails: for every history of every honest cosigner whose file is below a block). C74_exact: as an equivalence."
  },
  {
   "property": "C75",
   "status": "partial",
   "theorems": [
    "Horcrux.C75_self_fails",
    "Horcrux.C75_home_fails",
    "Horcrux.C75_set_partial",
    "Horcrux.C75_show",
    "Horcrux.C75_show_injective"
   ],
   "note": "state show without --home: C75_show, C75_show_injective (full). state set: the exact condition of success is C75_set_partial; it never succeeds under the name horcrux (C75_self_fails), and neither command works with --home (C75_home_fails)."
  },
  {
   "property": "C76",
   "status": "partial",
   "theorems": [
    "Horcrux.C76_bech32",
    "Horcrux.C76_unique",
    "Horcrux.C76_key",
    "Horcrux.C76_only",
    "Horcrux.C76_args",
    "Horcrux.C76_hint",
    "Horcrux.C76_cons_partial",
    "Horcrux.C76_identifies",
    "Horcrux.C76_fails",
    "Horcrux.C76_doc_fails",
    "Horcrux.C76_panics"
   ],
   "note": "C76_bech32 and C76_unique: the Bech32 encoder is right for every human-readable part and all data, against BIP-173 stated over GF(32). C76_key, C76_hint and C76_cons_partial give the output of the command exactly; C76_identifies: the output determines prefix and key. The claim that other arguments are refused is false (C76_fails), and so is the documented use (C76_doc_fails); C76_panics: keys of a wrong length."
  },
  {
   "property": "C77",
   "status": "partial",
   "theorems": [
    "Horcrux.C77_reads",
    "Horcrux.C77_signs",
    "Horcrux.C77_unchecked",
    "Horcrux.C77_mismatch_fails",
    "Horcrux.C77_kind",
    "Horcrux.C77_panics"
   ],
   "note": "Proved from the bytes of the file to the verifying signature (C77_reads, C77_signs). The refusal half is false of the code: mismatched keys, another kind of key and a missing private key are not refused (C77_mismatch_fails, C77_unchecked, C77_kind, C77_panics)."
  },
  {
   "property": "C78",
   "status": "partial",
   "theorems": [
    "Horcrux.C78_extensible",
    "Horcrux.C78_unseen",
    "Horcrux.C78_extended_fails",
    "Horcrux.C78_chain_fails",
    "Horcrux.C78_node_partial",
    "Horcrux.C78_request_chain_fails"
   ],
   "note": "False of the code (C78_extended_fails, C78_chain_fails, C78_request_chain_fails, all general). Proved: what is unseen (C78_unseen, C78_extensible) and, for requests of chain nodes, that only sign bytes for the configured chain are asked for (C78_node_partial)."
  },
  {
   "property": "C79",
   "status": "partial",
   "theorems": [
    "Horcrux.C79_accepted",
    "Horcrux.C79_readable",
    "Horcrux.C79_unique",
    "Horcrux.C79_cut",
    "Horcrux.C79_refused",
    "Horcrux.C79_written",
    "Horcrux.C79_silent_fails",
    "Horcrux.C79_damaged_fails"
   ],
   "note": "The reader is proved equivalent to a separate grammar of JSON (strings with UTF-8, escapes and surrogates; numbers; nesting), base64, hexadecimal and decimal integers (readState_iff, parseJson_iff), so that a file is accepted exactly if it says a state (C79_accepted, C79_readable, C79_refused, C79_unique). False parts: a file that does not say a height is accepted as height 0 (C79_silent_fails); a damaged validator state file is overwritten by the empty state (C79_damaged_fails)."
  },
  {
   "property": "C80",
   "status": "partial",
   "theorems": [
    "Horcrux.C80_exact",
    "Horcrux.C80_accepted_partial",
    "Horcrux.C80_readable",
    "Horcrux.C80_unique",
    "Horcrux.C80_refused",
    "Horcrux.C80_null_fails",
    "Horcrux.C80_written",
    "Horcrux.C80_silent_fails",
    "Horcrux.C80_twice_fails"
   ],
   "note": "Files without duplicate names are accepted exactly if they are texts of the grammar (C80_accepted_partial, C80_readable, C80_unique, C80_refused), and what the program writes is one (C80_written); C80_exact gives the exact condition including which encodings of the public key are accepted. False of the code: files without share and ID are accepted and start a cosigner (C80_silent_fails), the last of two members counts (C80_twice_fails), `null` and only `null` crashes (C80_null_fails)."
  },
  {
   "property": "C81",
   "status": "partial",
   "theorems": [
    "Horcrux.C81_nodes",
    "Horcrux.C81_anyone",
    "Horcrux.C81_refused_partial",
    "Horcrux.C81_started_fails",
    "Horcrux.C81_replay_fails",
    "Horcrux.C81_answer_fails",
    "Horcrux.C81_concrete_fails"
   ],
   "note": "False in general: C81_replay_fails (for every cluster with Setup: sign bytes signed before, under any later height/round/step, are signed and recorded there, and the cosigners' watermarks follow), C81_answer_fails and C81_concrete_fails (a chain node's proposal is answered with the signature of another message), C81_started_fails (the leader refuses everything lower afterwards). True: C81_nodes (chain nodes never cause such blocks) and C81_refused_partial (every cluster: refused without trace in sign states and raft log if no participant holds nonces or a signature for the sign bytes)."
  },
  {
   "property": "C82",
   "status": "proved",
   "theorems": [
    "Horcrux.C82_signs",
    "Horcrux.C82_votes"
   ],
   "note": "`C82_signs`: repeated votes with other times in arbitrary runs of the cluster; `C82_votes`: the blocks of votes meet its hypotheses. Times are told apart by their nanosecond count; two times with one count are the subject of C83."
  },
  {
   "property": "C83",
   "status": "partial",
   "theorems": [
    "Horcrux.C83_nonces_partial",
    "Horcrux.C83_fails",
    "Horcrux.C83_node_fails"
   ],
   "note": "False: `C83_fails` (cluster, after any run in order, any leader) and `C83_node_fails` (from the bytes that the chain node sends): a vote and the same vote 2^64 nanoseconds later are signed with one nonce, and the two answers give the private key. `C83_nonces_partial`: with times of different nanosecond counts every signature is made with secrets drawn for its own request."
  },
  {
   "property": "C84",
   "status": "proved",
   "theorems": [
    "Horcrux.C84_order"
   ],
   "note": "For any cryptographic functions, any runs from any loaded files, n + f < 2t where restarts that lose the watermark count as faults. Signatures that come back for lower blocks had been seen before the higher one was made, or were brought in by raft events or files since."
  },
  {
   "property": "C85",
   "status": "partial",
   "theorems": [
    "Horcrux.C85_fails",
    "Horcrux.C85_partial"
   ],
   "note": "False: C85_fails (from the bytes of the request; general in the block asked for, in what follows and in the faulty nodes of C84). C85_partial: the next request for another block gets a signature exactly if it is above the block asked for."
  },
  {
   "property": "C86",
   "status": "partial",
   "theorems": [
    "Horcrux.C86_partial",
    "Horcrux.C86_fails"
   ],
   "note": "False as stated: C86_fails, for any bytes and any cryptography. C86_partial: true if raft events and loaded files bring only genuine records and records that nodes of the cluster have sent to raft; over any sequence of events, with restarts."
  },
  {
   "property": "C87",
   "status": "partial",
   "theorems": [
    "Horcrux.C87_partial",
    "Horcrux.C87_umask_partial",
    "Horcrux.C87_state_files",
    "Horcrux.C87_fails"
   ],
   "note": "False for key share files (written with 0644): C87_fails, with recovery of the private key from the readable files. C87_partial gives the exact condition for reading by group and others; C87_umask_partial the safe umask; C87_state_files: state files are always for their owner only."
  },
  {
   "property": "C88",
   "status": "partial",
   "theorems": [
    "Horcrux.C88_partial",
    "Horcrux.C88_fails",
    "Horcrux.C88_sign_phase"
   ],
   "note": "False: C88_fails, if fewer than t-1 peers answer, one goroutine is left behind by every request. C88_partial: at rest nothing else is left, and the waiting goroutine exactly then (or not if the leader's own parts failed); C88_sign_phase: the second half of a round leaves nothing behind."
  },
  {
   "property": "C89",
   "status": "partial",
   "theorems": [
    "Horcrux.C89_partial",
    "Horcrux.C89_v6_partial",
    "Horcrux.C89_same",
    "Horcrux.C89_elect",
    "Horcrux.C89_cluster_partial",
    "Horcrux.C89_no_scheme_fails",
    "Horcrux.C89_elect_fails",
    "Horcrux.C89_v6_fails",
    "Horcrux.C89_no_port_fails",
    "Horcrux.C89_unambiguous",
    "Horcrux.C89_target_exact",
    "Horcrux.C89_elect_exact",
    "Horcrux.C89_listen_exact"
   ],
   "note": "Proved for all addresses of the documented form (C89_partial, C89_v6_partial, C89_cluster_partial); for all strings signing rounds and raft agree (C89_same) and elect differs by brackets only (C89_elect). False for addresses without scheme, IPv6 in elect, listen addresses without port (C89_*_fails). For all strings, by a grammar of URLs: C89_target_exact, C89_elect_exact, C89_listen_exact, C89_unambiguous."
  },
  {
   "property": "C90",
   "status": "partial",
   "theorems": [
    "Horcrux.C90_partial",
    "Horcrux.C90_refused",
    "Horcrux.C90_taken",
    "Horcrux.C90_fails",
    "Horcrux.C90_start_fails",
    "Horcrux.C90_exact"
   ],
   "note": "C90_partial, C90_refused, C90_taken: the taken address has host and port and is not 0.0.0.0; every documented one is taken. False for other spellings of unreachable addresses (C90_fails) and for start (C90_start_fails). C90_exact: the exact condition on the address, for all strings."
  },
  {
   "property": "C91",
   "status": "partial",
   "theorems": [
    "Horcrux.C91_partial",
    "Horcrux.C91_dialable",
    "Horcrux.C91_fails",
    "Horcrux.C91_refused_fails",
    "Horcrux.C91_accepted_exact",
    "Horcrux.C91_dialled_exact"
   ],
   "note": "Documented addresses are accepted and dialled as named (C91_partial, C91_dialable). False: addresses that cannot be dialled are accepted (C91_fails), one that can is refused (C91_refused_fails). For all strings: C91_accepted_exact, C91_dialled_exact."
  },
  {
   "property": "C92",
   "status": "partial",
   "theorems": [
    "Horcrux.C92_partial",
    "Horcrux.C92_never_lowers",
    "Horcrux.C92_exact",
    "Horcrux.C92_home_fails",
    "Horcrux.C92_exit_fails"
   ],
   "note": "C92_exact: whichever writes get done and whatever home directory is configured, a watermark reaches the height just if it was there before, or its write got done and the configuration names that file. C92_partial: what follows for signing. A start never gets lower watermarks (C92_never_lowers). False in general: C92_home_fails, C92_exit_fails."
  },
  {
   "property": "C93",
   "status": "partial",
   "theorems": [
    "Horcrux.C93_needs_all",
    "Horcrux.C93_partial",
    "Horcrux.C93_exact",
    "Horcrux.C93_fails"
   ],
   "note": "Proved for peers that do not answer the call for secret parts (C93_partial). C93_exact: in an honest cluster the leader gets a signature that verifies iff each of the first t - 1 peers that answered the call for secret parts, and the leader, answered the call to sign. False in full, for every n and every t from 2: one peer that answers the first call and not the second blocks every block (C93_fails, C93_needs_all)."
  },
  {
   "property": "C94",
   "status": "partial",
   "theorems": [
    "Horcrux.C94_stays",
    "Horcrux.C94_kept",
    "Horcrux.C94_partial",
    "Horcrux.C94_fails"
   ],
   "note": "C94_stays and C94_kept say exactly how long a record is kept; C94_partial bounds their number for calls that come in order. False for calls about blocks that are not signed: C94_fails, for any number of blocks and any later run."
  },
  {
   "property": "C95",
   "status": "partial",
   "theorems": [
    "Horcrux.C95_one",
    "Horcrux.C95_partial",
    "Horcrux.C95_sequential_partial",
    "Horcrux.C95_fails",
    "Horcrux.C95_needed"
   ],
   "note": "False as stated: the state file is loaded before the lock is taken (C95_fails; C95_needed for all honest cosigners). C95_one: at most one process serves. C95_partial and C95_sequential_partial: no conflict if whoever takes over loaded what is in the file."
  },
  {
   "property": "C96",
   "status": "proved",
   "theorems": [
    "Horcrux.C96_no_deadlock",
    "Horcrux.C96_ends",
    "Horcrux.C96_unlocks"
   ],
   "note": "C96_no_deadlock, C96_ends and C96_unlocks, for any number of nodes and requests and all interleavings; no remote call has to be given up. Waiting for raft is waiting for the state machine to apply the entry (trusted)."
  },
  {
   "property": "C97",
   "status": "partial",
   "theorems": [
    "Horcrux.C97_maps",
    "Horcrux.C97_writes",
    "Horcrux.C97_partial",
    "Horcrux.C97_marshal_fails",
    "Horcrux.C97_refusal_fails",
    "Horcrux.C97_restore_fails"
   ],
   "note": "False: three races (C97_marshal_fails, C97_refusal_fails, C97_restore_fails). Proved: there are no others (C97_partial), never two writes at once (C97_writes), and no race on any Go map (C97_maps). Memory of signing rounds is covered by C119, memory set at start-up by C57."
  },
  {
   "property": "C98",
   "status": "proved",
   "theorems": [
    "Horcrux.C98_leader",
    "Horcrux.C98_follower",
    "Horcrux.C98_time"
   ],
   "note": "For all runs of all nodes. C98_time says that the limits do not hold because time stands still. Examples show runs that reach both limits to the millisecond. Bounds for local steps and for raft are parameters."
  },
  {
   "property": "C99",
   "status": "partial",
   "theorems": [
    "Horcrux.C99_partial",
    "Horcrux.C99_fails",
    "Horcrux.C99_late_fails"
   ],
   "note": "Partial: the leader may get a signature after the four seconds of the follower (C99_fails; C99_late_fails in general: whenever the leader has not ended a call for the block within four seconds and a local step, the follower's call has ended with an error for good). Otherwise the answer is the leader's answer for the same block (C99_partial); assumes that the connection does not fail."
  },
  {
   "property": "C100",
   "status": "partial",
   "theorems": [
    "Horcrux.C100_waits",
    "Horcrux.C100_partial",
    "Horcrux.C100_fails",
    "Horcrux.C100_late_fails"
   ],
   "note": "Partial: the second call gives up after about a second (C100_fails; C100_late_fails in general: whenever the block is not signed within 0.99 seconds and a hundred local steps, the waiting call has ended with a time-out for good). C100_waits is a complete case distinction of what it returns; C100_partial: with the same sign bytes and the watermark at most three heights above, it is the recorded signature."
  },
  {
   "property": "C101",
   "status": "proved",
   "theorems": [
    "Horcrux.C101_read",
    "Horcrux.C101_served",
    "Horcrux.C101_own"
   ],
   "note": "The grammar of encodings in Spec/Encodings.lean is independent of the decoder. C101_own shows that it contains what tendermint writes; the example has an encoding with fields out of order, repeated, unknown and in pieces."
  },
  {
   "property": "C102",
   "status": "proved",
   "theorems": [
    "Horcrux.C102_votes",
    "Horcrux.C102_verify",
    "Horcrux.C102_proposals",
    "Horcrux.C102_lost_file_fails"
   ],
   "note": "Requests are served one after another (interleavings of the cosigners' calls: C66). For proposals the two signatures are assumed to verify over the sign bytes of the messages they come with: the code may answer a proposal with the signature of an earlier one (C26). C102_lost_file_fails shows that the bound on lost files is needed."
  },
  {
   "property": "C103",
   "status": "partial",
   "theorems": [
    "Horcrux.C103_served_partial",
    "Horcrux.C103_overlapping_partial",
    "Horcrux.C103_fails",
    "Horcrux.C103_leader_fails"
   ],
   "note": "False: C103_fails (five bytes to SetEphemeralSecretPartsAndSign end any cosigner in any state, because UnpackHRST panics on votes of unknown type) and C103_leader_fails (one SignBlock message to the leader ends the processes of all participants of the round, for every cluster with Setup and every state below the block). Kept: C103_served_partial, the exact condition for all methods of the cosigner and all bytes in every reachable state of a complete configuration. C103_overlapping_partial: the same for any interleaving of the atomic steps of overlapping calls and raft events."
  },
  {
   "property": "C104",
   "status": "proved",
   "theorems": [
    "Horcrux.C104_signBlock",
    "Horcrux.C104_get",
    "Horcrux.C104_setSign",
    "Horcrux.C104_transfer",
    "Horcrux.C104_signBlockRes",
    "Horcrux.C104_getRes",
    "Horcrux.C104_setSignRes",
    "Horcrux.C104_served",
    "Horcrux.C104_answers",
    "Horcrux.C104_fields"
   ],
   "note": "For each request and answer the decoder is equivalent to a specification by fields; the library is modelled from knowledge of it (trusted base). C104_served: effect of a call."
  },
  {
   "property": "C105",
   "status": "proved",
   "theorems": [
    "Horcrux.C105_requests",
    "Horcrux.C105_votes",
    "Horcrux.C105_verify",
    "Horcrux.C105_shared",
    "Horcrux.C105_proposals",
    "Horcrux.C105_covers"
   ],
   "note": "Safety of the cluster with all calls, cosigner steps, raft events and restarts interleaved. Proposals as in C102. C105_covers: the sequential cluster of C102 is a special case."
  },
  {
   "property": "C106",
   "status": "proved",
   "theorems": [
    "Horcrux.C106_signs",
    "Horcrux.C106_progress"
   ],
   "note": "Liveness of one round with everything else interleaved: whatever ends the call is a signature that verifies (C106_signs), and the call can always be brought to an end (C106_progress). The conditions on the participants and the leader are those of an honest round (C21)."
  },
  {
   "property": "C107",
   "status": "partial",
   "theorems": [
    "Horcrux.C107_partial",
    "Horcrux.C107_fails",
    "Horcrux.C107_single_fails",
    "Horcrux.C107_exact",
    "Horcrux.C107_repair_fails"
   ],
   "note": "False: C107_fails (every command but elect crashes without configuration once its arguments are read), C107_single_fails (peer and share commands on every single signer configuration), C107_repair_fails (a mistyped value ends config init --overwrite too). C107_partial: without configuration nothing is changed, and exactly which commands end with an error; C107_exact: the exact condition for a crash."
  },
  {
   "property": "C108",
   "status": "partial",
   "theorems": [
    "Horcrux.C108_partial",
    "Horcrux.C108_sequence_partial",
    "Horcrux.C108_fails",
    "Horcrux.C108_needed",
    "Horcrux.C108_exact"
   ],
   "note": "Proved if nothing shadows config.yaml (C108_partial, C108_sequence_partial). C108_needed: otherwise (config.json or config.toml in $HOME/.horcrux, whatever is in it, and no --home) no sequence of commands changes what is read; so the condition is exact (C108_exact). C108_fails is the case of a valid config.json."
  },
  {
   "property": "C109",
   "status": "partial",
   "theorems": [
    "Horcrux.C109_fails",
    "Horcrux.C109_junk_fails",
    "Horcrux.C109_partial",
    "Horcrux.C109_exact",
    "Horcrux.C109_refused"
   ],
   "note": "C109_fails: one byte string of 131 bytes, sent to ApplyLog of the leader, stops every cluster for all blocks below the last height. C109_junk_fails: anyone makes a node give any bytes as a signature. C109_partial: entries without records above the blocks signed before do no harm. C109_exact: after a record was applied everywhere, exactly the blocks above it are signed. C109_refused: only the leader puts anything into the log."
  },
  {
   "property": "C110",
   "status": "proved",
   "theorems": [
    "Horcrux.C110_contents",
    "Horcrux.C110_agree",
    "Horcrux.C110_progress"
   ],
   "note": "For every run of the raft stores of all nodes: no node ends, every store has the contents of the entries it has applied (C110_contents), equal numbers of entries give equal contents (C110_agree), and a node that starts again at any time can go on to the end of the log (C110_progress)."
  },
  {
   "property": "C111",
   "status": "partial",
   "theorems": [
    "Horcrux.C111_partial",
    "Horcrux.C111_fails",
    "Horcrux.C111_restart_fails",
    "Horcrux.C111_exact"
   ],
   "note": "C111_partial: for nodes that are given no snapshot and whose files are not behind when they start again. C111_fails: a node that is given a snapshot of another node. C111_restart_fails: a node that starts from its own snapshot with a file that is behind, although without the snapshot it would learn the block from the log. C111_exact: the blocks that a node knows are exactly those at or below the sign state of its file at its last start or a record it has applied itself since then."
  },
  {
   "property": "C112",
   "status": "partial",
   "theorems": [
    "Horcrux.C112_fails",
    "Horcrux.C112_partial",
    "Horcrux.C112_exact",
    "Horcrux.C112_call"
   ],
   "note": "C112_fails: for every raft configuration, one call per cosigner and one more make any given server its only member. C112_exact: the calls bring a cluster to exactly the configurations that raft accepts. C112_call: what each call with whatever arguments does, exactly. C112_partial: calls at nodes that do not lead change nothing; the configuration always stays one that raft accepts."
  },
  {
   "property": "C113",
   "status": "partial",
   "theorems": [
    "Horcrux.C113_verify",
    "Horcrux.C113_partial",
    "Horcrux.C113_answers",
    "Horcrux.C113_again",
    "Horcrux.C113_refused",
    "Horcrux.C113_fails"
   ],
   "note": "C113_fails: with a restart in between (which a chain node can bring about with a malformed request) a chain node gets two signed precommits for different blocks, for every key and state file. C113_partial: without restarts never, for any bytes on any connections. C113_verify: with restarts too, every signed message verifies. C113_answers: later blocks are signed. C113_again: repeated requests get the signature of before. C113_refused: every other request is refused with an error, and nothing changes."
  },
  {
   "property": "C114",
   "status": "partial",
   "theorems": [
    "Horcrux.C114_exact",
    "Horcrux.C114_partial",
    "Horcrux.C114_fails",
    "Horcrux.C114_reconnects"
   ],
   "note": "False of the code when a secret connection handshake fails: the TCP connection is not closed (C114_fails, any number open, none closed). C114_exact counts the open connections in every run; C114_partial is the statement without failed handshakes; C114_reconnects: closing, dialling and serving again."
  },
  {
   "property": "C115",
   "status": "proved",
   "theorems": [
    "Horcrux.C115_migrates",
    "Horcrux.C115_unmodified"
   ],
   "note": "C115_migrates: from the commands and texts of the guide to the answers that chain nodes get, and no signature at or below the given state over any lives of the nodes. C115_unmodified: with the state file of a chain node copied unchanged every cosigner refuses to start (and the copy of the validator state is replaced by the empty state)."
  },
  {
   "property": "C116",
   "status": "partial",
   "theorems": [
    "Horcrux.C116_partial",
    "Horcrux.C116_fails"
   ],
   "note": "False of the code: votes that differ only in the time are signed again, however many (C116_fails). C116_partial: all other requests at the same height, round and step leave the whole cluster unchanged and get the first signature or an error."
  },
  {
   "property": "C117",
   "status": "proved",
   "theorems": [
    "Horcrux.C117_file_only",
    "Horcrux.C117_written",
    "Horcrux.C117_sequence",
    "Horcrux.C117_chainID"
   ],
   "note": "YAML and viper at the level of trees of values, from knowledge of the libraries."
  },
  {
   "property": "C118",
   "status": "proved",
   "theorems": [
    "Horcrux.C118_serial",
    "Horcrux.C118_crash",
    "Horcrux.C118_signs",
    "Horcrux.C118_rest"
   ],
   "note": "C118_serial: every schedule that assembles gives the sequential round of its participants or notEnoughCosigners; C118_crash: the leader crashes only through its own cosigner; C118_signs: honest cosigners always give a verifying signature unless a peer call to sign fails; C118_rest: nothing gets stuck."
  },
  {
   "property": "C119",
   "status": "proved",
   "theorems": [
    "Horcrux.C119_atomic",
    "Horcrux.C119_race",
    "Horcrux.C119_serial",
    "Horcrux.C119_crash",
    "Horcrux.C119_signs",
    "Horcrux.C119_rest",
    "Horcrux.C119_threshold"
   ],
   "note": "C119_atomic: every schedule of single accesses is one of Gather and SignPhase with the same answers, map, counters, end of the waits, and table and key as read by the main goroutine; nothing panics. C119_race: no two goroutines are ever about to access the same location, one writing. C119_serial, C119_crash, C119_signs: with the cosigners, C118 holds of every such schedule. C119_rest: no deadlock."
  },
  {
   "property": "C120",
   "status": "proved",
   "theorems": [
    "Horcrux.C120_signBytes",
    "Horcrux.C120_crash",
    "Horcrux.C120_refused",
    "Horcrux.C120_signed",
    "Horcrux.C120_request",
    "Horcrux.C120_one",
    "Horcrux.C120_oneUse",
    "Horcrux.C120_allowed",
    "Horcrux.C120_loose"
   ],
   "note": "Equivalences for sign bytes (C120_signBytes, C120_crash, C120_refused) and requests (C120_request); uniqueness (C120_one, C120_oneUse); every protobuf encoding is accepted (C120_allowed), some other byte strings too (C120_loose); C120_signed for the cosigner."
  },
  {
   "property": "C121",
   "status": "partial",
   "theorems": [
    "Horcrux.C121_exact",
    "Horcrux.C121_partial",
    "Horcrux.C121_attempts",
    "Horcrux.C121_made",
    "Horcrux.C121_fails",
    "Horcrux.C121_silent_fails",
    "Horcrux.C121_own_fails",
    "Horcrux.C121_error_fails",
    "Horcrux.C121_any_fails",
    "Horcrux.C121_any_partial",
    "Horcrux.C121_member",
    "Horcrux.C121_unknown_fails"
   ],
   "note": "False: a retry after a lost answer moves the leadership away from the cosigner asked for and reports success (C121_fails, for every cluster with agreeing configurations); also C121_silent_fails, C121_own_fails, C121_error_fails, C121_any_fails, C121_unknown_fails. C121_exact: if everything but the caller's connection works, the cosigner leads exactly if an odd number of attempts was handled (even if it led before). C121_partial, C121_any_partial: the claim if one attempt was handled. C121_attempts, C121_made: which attempts are made, when success is reported. C121_member: always one of the cosigners leads."
  },
  {
   "property": "C122",
   "status": "partial",
   "theorems": [
    "Horcrux.C122_text",
    "Horcrux.C122_start",
    "Horcrux.C122_init",
    "Horcrux.C122_exact",
    "Horcrux.C122_partial",
    "Horcrux.C122_fails"
   ],
   "note": "False of durations that are not positive: they are accepted and mean no limit (C122_fails, for all accepted flags and every such text). C122_exact: a timeout is a limit exactly if it is positive; C122_partial: the claim for a started process with a positive one. C122_text: exactly the texts of durations are read, each as what it stands for; C122_init, C122_start: what is accepted and what the process has."
  },
  {
   "property": "C123",
   "status": "partial",
   "theorems": [
    "Horcrux.C123_fails",
    "Horcrux.C123_node_fails",
    "Horcrux.C123_exact",
    "Horcrux.C123_partial",
    "Horcrux.C123_shuts",
    "Horcrux.C123_behind"
   ],
   "note": "C123_fails: one empty request to each of half of the nodes stops the cluster, whatever happens until one of them is started again. C123_node_fails: one request to a node, and its chain nodes get no signature. C123_exact: when a request gets a signature. C123_partial: calls at fewer than half of the nodes, and not at those a request passes, do no harm. C123_shuts: exactly the protobuf messages shut raft down. C123_behind: the validator of the node learns of no block until it is started again."
  },
  {
   "property": "C124",
   "status": "partial",
   "theorems": [
    "Horcrux.C124_round",
    "Horcrux.C124_exact",
    "Horcrux.C124_uneven",
    "Horcrux.C124_quorums",
    "Horcrux.C124_one_short",
    "Horcrux.C124_nonces_short",
    "Horcrux.C124_partial",
    "Horcrux.C124_fails",
    "Horcrux.C124_uneven_fails"
   ],
   "note": "Proved for cosigners that are as many as the key was split for and as many as each of their own configurations asks for (C124_partial). False of smaller thresholds (C124_fails, general) and of participants that ask for more than the leader (C124_uneven_fails), all of which are accepted. Exact conditions: C124_round (any thresholds), C124_exact (none larger than the quorum), C124_uneven (key shares fit); C124_quorums: all quorums sign just if the key was in effect split with at most that threshold; C124_one_short, C124_nonces_short: none does if one short."
  },
  {
   "property": "C125",
   "status": "proved",
   "theorems": [
    "Horcrux.C125_kept",
    "Horcrux.C125_signature",
    "Horcrux.C125_received",
    "Horcrux.C125_loaded",
    "Horcrux.C125_needed"
   ],
   "note": "C125_kept, C125_signature: every run of a process from a state file as the program writes it. C125_received, C125_loaded: where the keys come from. C125_needed: with room for 32 more bytes in a key's array the second signature overwrites the first. Assumed of the ed25519 library (hypothesis Tight): keys have room for less than 32 further bytes, combined share signatures have 32 bytes."
  },
  {
   "property": "C126",
   "status": "partial",
   "theorems": [
    "Horcrux.C126_back",
    "Horcrux.C126_exact",
    "Horcrux.C126_fails",
    "Horcrux.C126_partial"
   ],
   "note": "C126_back and C126_exact: the service part, in full. C126_fails: a chain node that sends one malformed request on every connection ends every life of the process within five steps of its loop, in every history. C126_partial: without malformed requests and without requests that abort the cosigner (exactly which those are: C48_partial, C103_served_partial) the process never ends unasked. systemd is modelled from its documentation; start-up failures and waiting times are left out."
  }
 ]
}