{"id": "C01", "title": "The sign-state watermark never moves backwards", "statement": "A save into a sign state succeeds exactly when its (height, round, step) is lexicographically strictly greater than the current one; on success the state's height, round, step, signature and sign bytes are those saved; a refused save leaves the whole state unchanged. Hence over any history of saves the watermark is non-decreasing.", "quantifier": "every initial sign state and every finite sequence of saved records (from signing, from raft events, from the CLI), in any order", "why_tests_cant": "the claim is about every interleaving and length of save history; tests exercise a handful of literal triples", "anchors": ["signer/sign_state.go:SignState.Save", "signer/sign_state.go:SignState.GetErrorIfLessOrEqual"]}
{"id": "C02", "title": "Refused saves report why, and exactly when", "statement": "A refused save reports height regression iff the height is lower; round regression iff heights are equal and the round is lower; step regression iff height and round are equal and the step is lower; and the distinguished same-HRS error iff all three are equal. Callers that tolerate only the same-HRS error therefore tolerate exactly re-saves of the current block.", "quantifier": "every sign state and every (height, round, step)", "why_tests_cant": "total decision over an unbounded integer domain", "anchors": ["signer/sign_state.go:SignState.GetErrorIfLessOrEqual", "signer/sign_state.go:SameHRSError"]}
{"id": "C03", "title": "The pre-sign watermark check decides every request correctly", "statement": "For any request: an HRS below the watermark is refused; an HRS above it is allowed as new; the HRS equal to the watermark is recognised as a repeat when a signature and sign bytes are on record, is refused when no sign bytes are on record, and aborts the process only when sign bytes are on record without a signature.", "quantifier": "every sign state (including nil versus empty sign bytes and signatures) and every request", "why_tests_cant": "exhaustive decision table over unbounded integers and nil-ness combinations", "anchors": ["signer/sign_state.go:SignState.CheckHRS"]}
{"id": "C04", "title": "The signature cache answers exactly the recent saved blocks", "statement": "After any history of saves, looking up an HRS returns precisely the record that was accepted for that HRS if its height is at least (current height - 3), and nothing otherwise; the lookup also reports the current watermark.", "quantifier": "every save history from a freshly created state, or from a freshly loaded one whose height is at least -2^63+3 (below that the bound of the eviction wraps around), and every queried HRS", "why_tests_cant": "depends on the whole history and on eviction order over an unbounded key space", "anchors": ["signer/sign_state.go:SignState.GetFromCache", "signer/sign_state.go:SignState.Save", "signer/sign_state.go:blocksToCache"]}
{"id": "C05", "title": "'Only differs by timestamp' means exactly that", "statement": "The re-sign check passes for a recorded and a new byte string iff both decode as the message kind of the recorded step and the two decoded messages agree on every field except the timestamp (type, height, round, POL round, block ID hash and part-set header, chain ID). It refuses every step outside propose/prevote/precommit.", "quantifier": "every pair of byte strings and every step value", "why_tests_cant": "ranges over all byte strings, including non-canonical protobuf encodings", "anchors": ["signer/sign_state.go:onlyDifferByTimestamp", "signer/sign_state.go:checkVoteOnlyDifferByTimestamp", "signer/sign_state.go:checkProposalOnlyDifferByTimestamp"]}
{"id": "C06", "title": "Sign bytes of a vote or proposal unpack to its own height, round, step and time", "statement": "Unpacking the sign bytes produced for any vote (prevote or precommit) or proposal yields that message's height, round, step and timestamp in Unix nanoseconds, for every chain ID.", "quantifier": "every chain ID, height, round, POL round, block ID and timestamp in the protobuf-valid range", "why_tests_cant": "round trip over an unbounded message space; unit tests use three literal messages with a zero timestamp", "anchors": ["signer/Serialization.go:UnpackHRST", "signer/sign_state.go:CanonicalVoteToStep", "signer/threshold_validator.go:SignVote", "signer/threshold_validator.go:SignProposal"]}
{"id": "C07", "title": "Sign bytes determine the message", "statement": "If two votes (or two proposals) have the same sign bytes they have the same chain ID, type, height, round, POL round, block ID and timestamp; a vote and a proposal never share sign bytes.", "quantifier": "every pair of messages", "why_tests_cant": "injectivity over an unbounded domain", "anchors": ["signer/threshold_validator.go:SignVote", "signer/threshold_validator.go:SignProposal", "signer/Serialization.go:UnpackHRST"]}
{"id": "C08", "title": "A vote is never mistaken for a proposal", "statement": "No vote's sign bytes are interpreted by a cosigner as a proposal (and vice versa), whatever the chain ID, block ID and timestamp.", "quantifier": "every vote and chain ID", "why_tests_cant": "the exception, if any, sits at one point of an unbounded domain", "anchors": ["signer/Serialization.go:UnpackHRST"]}
{"id": "C09", "title": "Bad sign bytes are refused with an error, not a crash", "statement": "Whatever bytes are sent to a cosigner to sign, it either signs or answers with an error; it does not abort the process.", "quantifier": "every byte string", "why_tests_cant": "ranges over all byte strings", "anchors": ["signer/Serialization.go:UnpackHRST", "signer/sign_state.go:CanonicalVoteToStep", "signer/local_cosigner.go:sign"]}
{"id": "C10", "title": "A running cosigner never signs conflicting data at one height/round/step", "statement": "Over any history of requests to one running cosigner, any two share signatures it releases for the same height, round and step are over sign bytes that differ in nothing but the timestamp.", "quantifier": "every finite sequence of get-parts, set-parts, sign and raft watermark events, interleaved arbitrarily, with arbitrary (also malicious) contents", "why_tests_cant": "safety over unbounded adversarial histories and schedules", "anchors": ["signer/local_cosigner.go:sign", "signer/local_cosigner.go:SetEphemeralSecretPartsAndSign", "signer/local_cosigner.go:SaveLastSignedState"]}
{"id": "C11", "title": "A running cosigner never signs below anything it has signed or been told was signed", "statement": "Every share signature released by a running cosigner is at an HRS greater than or equal to every HRS it released before and to every watermark event it accepted before; no share signature is released below the watermark it started with.", "quantifier": "every request history", "why_tests_cant": "history property over unbounded schedules", "anchors": ["signer/local_cosigner.go:sign", "signer/raft_events.go:handleLSSEvent"]}
{"id": "C12", "title": "Repeating a sign request returns the same answer", "statement": "After a cosigner has answered a sign request, repeating the same sign bytes while the HRS is still the watermark returns the same share signature and the same ephemeral public key, and changes no state.", "quantifier": "every request history between the two calls that leaves the watermark in place", "why_tests_cant": "depends on every possible intervening request", "anchors": ["signer/local_cosigner.go:sign"]}
{"id": "C13", "title": "A cosigner never uses one nonce for two different messages", "statement": "Two share signatures released by one cosigner with the same ephemeral nonce share are over identical sign bytes.", "quantifier": "every request history, with honest or malicious callers", "why_tests_cant": "nonce reuse reveals the key share; it must hold on every history, not on sampled ones", "anchors": ["signer/local_cosigner.go:dealShares", "signer/local_cosigner.go:setEphemeralSecretPart", "signer/local_cosigner.go:sign"]}
{"id": "C14", "title": "Every share signature includes the cosigner's own secret nonce contribution", "statement": "A cosigner releases a fresh share signature only if its own dealt nonce share for that HRST is part of the sum, so no other party knows the nonce.", "quantifier": "every request history, including set-parts without a preceding get-parts", "why_tests_cant": "adversarial history property", "anchors": ["signer/local_cosigner.go:setEphemeralSecretPart", "signer/local_cosigner.go:getEphemeralSecretPart", "signer/local_cosigner.go:sign"]}
{"id": "C15", "title": "Secret parts are accepted only from the cosigner that signed them", "statement": "A secret part is stored only if its source is a configured peer, its source signature verifies under that peer's configured RSA key over the source ID, ephemeral public key and ciphertext, and the ciphertext decrypts; it is stored in exactly the slot of that source. A part with an unknown source, missing signature or invalid signature is refused and changes nothing.", "quantifier": "every cosigner state and every submitted part", "why_tests_cant": "ranges over all parts and states", "anchors": ["signer/local_cosigner.go:setEphemeralSecretPart"]}
{"id": "C16", "title": "A secret part is only usable for the block and destination it was made for", "statement": "A part produced for one HRST is refused when submitted for a different HRST.", "quantifier": "every part and every pair of HRSTs", "why_tests_cant": "replay space is unbounded", "anchors": ["signer/local_cosigner.go:getEphemeralSecretPart", "signer/local_cosigner.go:setEphemeralSecretPart"]}
{"id": "C17", "title": "Requesting secret parts yields one part per peer, all from one deal", "statement": "A successful get-parts call returns exactly one part for every configured peer other than the cosigner itself, addressed to that peer, encrypted to that peer's key, signed by this cosigner, all carrying the same ephemeral public key and the shares of one single deal; asking again for the same HRST re-uses that same deal; get-parts never touches the watermark.", "quantifier": "every peer set, iteration order and cosigner state", "why_tests_cant": "map iteration order and peer sets are unbounded", "anchors": ["signer/local_cosigner.go:GetEphemeralSecretParts", "signer/local_cosigner.go:getEphemeralSecretPart", "signer/local_cosigner.go:dealShares"]}
{"id": "C18", "title": "Signing forgets the nonces of lower blocks and only those", "statement": "After a fresh share signature at an HRST, the cosigner holds no nonce material for any strictly lower (height, round, step), and all material for the same or higher ones is untouched.", "quantifier": "every cosigner state and sign request", "why_tests_cant": "ranges over arbitrary maps", "anchors": ["signer/local_cosigner.go:sign", "signer/local_cosigner.go:Less"]}
{"id": "C19", "title": "The (height, round, step) comparison is a strict weak order that ignores the timestamp", "statement": "Less is irreflexive, transitive, total up to equal (height, round, step), and independent of timestamps; it agrees with the watermark comparisons used when saving and checking.", "quantifier": "every pair and triple of HRST keys", "why_tests_cant": "order laws over an unbounded domain", "anchors": ["signer/local_cosigner.go:Less", "signer/sign_state.go:GetErrorIfLessOrEqual", "signer/sign_state.go:CheckHRS"]}
{"id": "C20", "title": "No request crashes a cosigner started from an accepted configuration", "statement": "With any cosigner configuration accepted by validation, well-formed get-parts and set-parts requests from configured peers never index outside the per-block tables.", "quantifier": "every accepted configuration and request", "why_tests_cant": "ranges over all configurations", "anchors": ["signer/local_cosigner.go:getEphemeralSecretPart", "signer/local_cosigner.go:setEphemeralSecretPart", "cmd/horcrux/cmd/cosigner.go:StartCosignerCmd", "cmd/horcrux/cmd/config.go:validateCosignerPeers"]}
{"id": "C21", "title": "Any t honest cosigners produce a valid signature", "statement": "If the leader and any t-1 responding peers hold shares of one t-of-n key, have no record at or above the requested HRS and no earlier nonce material for it, then running the signing protocol among them yields a signature that verifies over the sign bytes under the validator public key, and every participant's watermark becomes that HRS.", "quantifier": "every n >= 2, t, subset of responders, key, nonce randomness, message and map iteration order", "why_tests_cant": "algebraic identity over all subsets, keys and random coins", "anchors": ["signer/threshold_validator.go:SignBlock", "signer/threshold_validator.go:waitForPeerSetEphemeralSharesAndSign", "signer/local_cosigner.go:sign", "signer/local_cosigner.go:getEphemeralSecretPart"]}
{"id": "C22", "title": "Every t-subset of shares recovers the same key", "statement": "Combining the shares of any set of at least t distinct cosigners of a key split with threshold t gives the original secret scalar.", "quantifier": "every secret, t, n and subset", "why_tests_cant": "algebraic identity over an unbounded domain", "anchors": ["signer/cosigner_key_shares.go:CreateCosignerShares", "signer/threshold_validator.go:SignBlock"]}
{"id": "C23", "title": "Fewer than t shares reveal nothing about the key", "statement": "For any set of fewer than t shares and any candidate secret there is a dealing consistent with both, and for exactly t-1 shares exactly one, so the shares carry no information about the secret.", "quantifier": "every t, every set of fewer than t cosigners, every candidate secret", "why_tests_cant": "a counting statement over all polynomials", "anchors": ["signer/cosigner_key_shares.go:CreateCosignerShares"]}
{"id": "C24", "title": "With t > n/2 the cluster cannot produce two conflicting signatures", "statement": "When every full signature needs share signatures from t distinct cosigners and 2t > n, then over any history of n running cosigners, under any number of concurrent leaders and any message schedule, two full signatures at the same HRS are over sign bytes differing only by timestamp.", "quantifier": "every n, t with 2t > n, every joint history and schedule", "why_tests_cant": "distributed safety over unbounded schedules", "anchors": ["signer/local_cosigner.go:sign", "signer/threshold_validator.go:SignBlock", "docs/signing.md"]}
{"id": "C25", "title": "Accepted cosigner configurations have a threshold that makes that guarantee hold", "statement": "Every cosigner configuration accepted by validation has 1 <= threshold <= n and 2*threshold > n, as the documentation requires.", "quantifier": "every configuration", "why_tests_cant": "ranges over all configurations", "anchors": ["cmd/horcrux/cmd/config.go:validateCosignerConfig", "docs/signing.md"]}
{"id": "C26", "title": "A successful sign call returns a signature valid for the returned message", "statement": "Whenever SignVote or SignProposal reports success on the leader, the signature placed in the message is non-empty and verifies over the sign bytes of the message as returned.", "quantifier": "every request, validator state and interleaving with other requests and raft events", "why_tests_cant": "schedule- and history-dependent", "anchors": ["signer/threshold_validator.go:SignBlock", "signer/threshold_validator.go:getExistingBlockSignature"]}
{"id": "C27", "title": "Signing only fills in the signature", "statement": "SignVote/SignProposal leave every field of the vote/proposal other than signature and timestamp unchanged, return the request's own timestamp, and on error leave no signature in the message.", "quantifier": "every request and every outcome", "why_tests_cant": "ranges over all requests and outcomes", "anchors": ["signer/threshold_validator.go:SignVote", "signer/threshold_validator.go:SignProposal", "signer/threshold_validator.go:SignBlock"]}
{"id": "C28", "title": "At most one signing attempt per block on a leader", "statement": "On one leader process, a second signing round for an HRS that was already started is run only if a record for that HRS is in the cache and either the new sign bytes differ from it only by timestamp or the record has no signature; otherwise the call waits, answers from the cache or errors. The HRS of newly started rounds is strictly increasing.", "quantifier": "every interleaving of concurrent SignBlock calls and raft events", "why_tests_cant": "all schedules of concurrent handlers", "anchors": ["signer/threshold_validator.go:SignBlock", "signer/threshold_validator.go:SaveLastSignedStateInitiated"]}
{"id": "C29", "title": "Re-requesting a signed block is answered from the cache", "statement": "Once a validator has recorded a signature for an HRS, any request for that HRS with the same sign bytes while it is within the last three heights returns that very signature without contacting any cosigner, whatever was signed since.", "quantifier": "every later history within the cache window", "why_tests_cant": "history property", "anchors": ["signer/threshold_validator.go:getExistingBlockSignature", "signer/sign_state.go:GetFromCache"]}
{"id": "C30", "title": "Requests below the watermark are refused", "statement": "A request for an HRS below what the leader has started, with no cached record, is refused with the beyond-block error, starts no signing round and changes no state. A request that waits for its block to be signed by another one is refused with the beyond-block error exactly when the saved watermark has passed the block, and otherwise waits.", "quantifier": "every state and request", "why_tests_cant": "ranges over all states", "anchors": ["signer/threshold_validator.go:SignBlock", "signer/threshold_validator.go:getExistingBlockSignature"]}
{"id": "C31", "title": "Exactly t cosigners take part in a signing round", "statement": "For every order in which peers answer or fail, the set of participants is the leader plus the first t-1 distinct peers that answered; late answers never join; the completion counter is decremented exactly once per joined peer and never below zero; with fewer than t-1 answers the round times out and nothing is signed.", "quantifier": "every number of peers, threshold >= 1, and arrival order", "why_tests_cant": "all schedules of goroutines", "anchors": ["signer/threshold_validator.go:waitForPeerEphemeralShares", "signer/threshold_validator.go:SignBlock"]}
{"id": "C32", "title": "Each participant receives exactly the parts meant for it", "statement": "Every participant of a round is sent exactly one part from each other participant that dealt one for it, and no part addressed to somebody else or dealt by a non-participant.", "quantifier": "every participant set, map iteration order and set of answers", "why_tests_cant": "map iteration order and participant sets are unbounded", "anchors": ["signer/threshold_validator.go:waitForPeerSetEphemeralSharesAndSign"]}
{"id": "C33", "title": "An unverified signature is never recorded, emitted or returned by a signing round", "statement": "A signing round that fails to combine to a signature verifying under the validator key over the requested bytes returns an error, leaves the validator's watermark and cache unchanged and emits nothing to raft.", "quantifier": "every set of share signatures and validator state", "why_tests_cant": "ranges over all cosigner answers including garbage", "anchors": ["signer/threshold_validator.go:SignBlock"]}
{"id": "C34", "title": "The validator watermark and cache are monotone under all interleavings", "statement": "Under every interleaving of concurrent sign calls and raft watermark events the validator's recorded HRS never decreases, and a recorded signature for an HRS is never replaced by a different one.", "quantifier": "every schedule", "why_tests_cant": "all schedules", "anchors": ["signer/threshold_validator.go:SignBlock", "signer/threshold_validator.go:SaveLastSignedState", "signer/raft_events.go:handleLSSEvent"]}
{"id": "C35", "title": "A proxied request reaches the leader unchanged", "statement": "A block sent by a follower to the leader arrives with the same height, round, step, sign bytes and timestamp (for timestamps representable in Unix nanoseconds), and HRST keys and secret parts survive the gRPC encoding unchanged (IDs within int32).", "quantifier": "every block, HRST key and secret part", "why_tests_cant": "round trip over an unbounded domain with integer narrowing", "anchors": ["signer/Cosigner.go:HRSTKeyFromProto", "signer/Cosigner.go:CosignerEphemeralSecretPartFromProto", "signer/threshold_validator.go:Block.toProto", "signer/grpc_server.go:SignBlock"]}
{"id": "C36", "title": "A cosigner that crashes and restarts does not sign conflicting data", "statement": "For every crash point, after restart from its share state file a cosigner never signs data conflicting with a share signature it released before the crash.", "quantifier": "every history of requests, background writes and crash points", "why_tests_cant": "crash points and write schedules are unbounded", "anchors": ["signer/sign_state.go:Save", "signer/sign_state.go:save", "signer/sign_state.go:LoadSignState", "signer/local_cosigner.go:sign"]}
{"id": "C37", "title": "Once background writes finish the file holds the latest watermark", "statement": "Whenever no background state write is outstanding, the sign state file equals the in-memory state.", "quantifier": "every schedule of background writes", "why_tests_cant": "goroutine schedules", "anchors": ["signer/sign_state.go:Save", "signer/sign_state.go:save"]}
{"id": "C38", "title": "The sign state file never runs ahead of or mixes in-memory states", "statement": "At every moment the state file holds exactly the persistent fields of some state the process actually had; its watermark never exceeds the in-memory watermark; loading a saved file yields the same height, round, step, ephemeral key, signature and sign bytes with a cache containing just that block.", "quantifier": "every history of saves and background writes", "why_tests_cant": "schedules and states are unbounded", "anchors": ["signer/sign_state.go:save", "signer/sign_state.go:LoadSignState"]}
{"id": "C39", "title": "A cosigner refuses to start without its share state; creating state never lowers a readable watermark", "statement": "Starting a cosigner with a missing or unreadable share state file fails and creates no share state file. LoadOrCreate returns the stored state unchanged when the file is readable, and otherwise an empty state which it writes to the file.", "quantifier": "every file system state", "why_tests_cant": "ranges over all file contents", "anchors": ["signer/sign_state.go:LoadOrCreateSignState", "signer/sign_state.go:LoadSignState", "cmd/horcrux/cmd/cosigner.go:StartCosignerCmd"]}
{"id": "C40", "title": "Changing the chain ID never loses the share watermark at any crash point", "statement": "If chain-id set is interrupted at any point, a subsequent cosigner start under the configuration on disk either uses the original share watermark or refuses to start.", "quantifier": "every file system state and crash point", "why_tests_cant": "crash points", "anchors": ["cmd/horcrux/cmd/config.go:setChainIDCmd", "cmd/horcrux/cmd/cosigner.go:StartCosignerCmd"]}
{"id": "C41", "title": "state set either stores the requested height or reports an error", "statement": "When the state set command reports success, both state files hold the requested height with round 0 and step 0.", "quantifier": "every file system state, height and scheduling of the background write against process exit", "why_tests_cant": "schedule-dependent", "anchors": ["cmd/horcrux/cmd/state.go:setStateCmd", "signer/sign_state.go:Save"]}
{"id": "C42", "title": "The replicated store is a map", "statement": "After applying any log of entries, Get of any key other than the watermark event key (LSS, which is never stored, see C44) returns the value of the last set of that key not followed by a delete, or the empty string; unknown and malformed commands change nothing; what Set and Delete propose are such commands for that key and value (bytes that are not UTF-8 are replaced by the JSON encoding); any two nodes that applied the same log agree.", "quantifier": "every command log, including malformed entries", "why_tests_cant": "unbounded histories", "anchors": ["signer/raft_store.go:Apply", "signer/raft_store.go:applySet", "signer/raft_store.go:applyDelete", "signer/raft_store.go:Get"]}
{"id": "C43", "title": "Snapshot plus log suffix equals full replay", "statement": "Restoring a snapshot taken after any prefix of the log and applying the remainder gives the same key-value contents as applying the whole log.", "quantifier": "every log and every snapshot point", "why_tests_cant": "unbounded histories", "anchors": ["signer/raft_store.go:Snapshot", "signer/raft_store.go:Restore", "signer/raft_store.go:Persist"]}
{"id": "C44", "title": "Watermark events update both watermarks once and are never stored", "statement": "Applying a last-sign-state event saves the record into the validator's and the cosigner's sign state (subject to monotonicity), never appears in Get or in snapshots, and re-applying events already applied changes nothing.", "quantifier": "every log, including replays after restart", "why_tests_cant": "replay histories are unbounded", "anchors": ["signer/raft_events.go:handleLSSEvent", "signer/raft_events.go:shouldRetain", "signer/raft_store.go:applySet"]}
{"id": "C45", "title": "Joining a node leaves exactly one membership entry for it", "statement": "After a successful join of (id, address) the cluster configuration contains that pair, contains no other entry with that id or that address, and every unrelated entry is kept; re-joining an existing member changes nothing.", "quantifier": "every cluster configuration and join request", "why_tests_cant": "ranges over all configurations", "anchors": ["signer/raft_store.go:Join"]}
{"id": "C46", "title": "Only the leader writes to the store", "statement": "Set, Delete and Emit on a non-leader fail and propose nothing.", "quantifier": "every node state and command", "why_tests_cant": "ranges over all states", "anchors": ["signer/raft_store.go:Set", "signer/raft_store.go:Delete", "signer/raft_store.go:Emit"]}
{"id": "C47", "title": "Every chain-node request gets exactly one reply of the matching kind", "statement": "For each request read from a connection the signer writes exactly one reply: signed-vote, signed-proposal, public-key or ping reply matching the request; the reply carries an error and an empty vote/proposal iff signing failed, and otherwise the signed message.", "quantifier": "every request stream and signer outcome", "why_tests_cant": "unbounded request streams", "anchors": ["signer/remote_signer.go:handleRequest", "signer/remote_signer.go:handleSignVoteRequest", "signer/remote_signer.go:handleSignProposalRequest", "signer/remote_signer.go:loop"]}
{"id": "C48", "title": "A chain node cannot crash the signer", "statement": "Whatever message a chain node sends, the signer replies or drops the connection; it does not abort.", "quantifier": "every request", "why_tests_cant": "ranges over all messages", "anchors": ["signer/remote_signer.go:handleRequest", "signer/sign_state.go:VoteToStep"]}
{"id": "C49", "title": "Private-validator calls are mutually exclusive", "statement": "However many chain-node connections call the guarded validator concurrently, at most one call is inside the underlying validator at a time, and the results are those of some sequential order of the calls.", "quantifier": "every number of callers and every schedule", "why_tests_cant": "all schedules", "anchors": ["signer/PvGuard.go:PvGuard"]}
{"id": "C50", "title": "Accepted peer lists are sane", "statement": "A peer list is accepted exactly when share IDs are pairwise distinct, all within 1..shares, and their number differs from shares; hence (for a non-empty list) there are strictly fewer peers than shares and some share ID in 1..shares is left for the local node.", "quantifier": "every peer list and share count", "why_tests_cant": "pigeonhole over unbounded lists", "anchors": ["cmd/horcrux/cmd/config.go:validateCosignerPeers", "cmd/horcrux/cmd/config.go:duplicatePeers"]}
{"id": "C51", "title": "Adding and removing nodes and peers is set union and difference", "statement": "Adding keeps all existing entries in order and appends exactly the new ones not already present; removing keeps exactly the entries not named, in order; a command that fails leaves the configuration unchanged; removing never empties the list.", "quantifier": "every configuration and argument list", "why_tests_cant": "unbounded lists", "anchors": ["cmd/horcrux/cmd/config.go:addNodesCmd", "cmd/horcrux/cmd/config.go:removeNodesCmd", "cmd/horcrux/cmd/config.go:addPeersCmd", "cmd/horcrux/cmd/config.go:removePeersCmd", "cmd/horcrux/cmd/config.go:diffSetChainNode", "cmd/horcrux/cmd/config.go:diffSetCosignerPeer"]}
{"id": "C52", "title": "Every chain-node address is validated", "statement": "A list of chain nodes is accepted only if every address in it parses as a URL.", "quantifier": "every list of addresses", "why_tests_cant": "unbounded lists", "anchors": ["cmd/horcrux/cmd/config.go:validateChainNodes"]}
{"id": "C53", "title": "The peers flag parses to what was written", "statement": "Writing any non-empty peer list in the documented addr|id,addr|id form (addresses without separators, IDs in int64) and parsing it returns the same list; any entry without exactly one separator or with a non-numeric ID is refused.", "quantifier": "every peer list and every string", "why_tests_cant": "round trip over strings", "anchors": ["cmd/horcrux/cmd/config.go:peersFromFlag"]}
{"id": "C54", "title": "create-shares makes the requested number of shares with matching IDs and keys", "statement": "Splitting a key with threshold t into n shares yields exactly n key files with IDs 1..n, all with the original public key, each holding the private RSA key matching its entry in the common list of n RSA public keys.", "quantifier": "every t and n accepted by the command", "why_tests_cant": "integer narrowing over an unbounded domain", "anchors": ["signer/cosigner_key_shares.go:CreateCosignerShares", "signer/cosigner_key_shares.go:makeRSAKeys", "cmd/horcrux/cmd/key2shares.go:validateCreateCosignerShares"]}
{"id": "C55", "title": "A cosigner key file reads back as written", "statement": "Loading a written cosigner key yields the same public key, key share, RSA private key, ID and RSA public keys; files with the older amino public-key encoding are still read.", "quantifier": "every cosigner key", "why_tests_cant": "round trip over an unbounded domain", "anchors": ["signer/cosigner_key.go:MarshalJSON", "signer/cosigner_key.go:UnmarshalJSON", "signer/cosigner_key_shares.go:WriteCosignerShareFile"]}
{"id": "C56", "title": "config init does not clobber existing configuration or state", "statement": "config init without the overwrite flag fails and changes nothing when a configuration file exists; with any arguments, when it fails validation nothing is written; existing readable sign state files are kept unchanged even with overwrite.", "quantifier": "every file system state and argument list", "why_tests_cant": "ranges over all file systems and arguments", "anchors": ["cmd/horcrux/cmd/config.go:initCmd", "signer/sign_state.go:LoadOrCreateSignState"]}
{"id": "C57", "title": "A started node always serves requests with a configured validator", "statement": "For every schedule of start-up, the gRPC server and raft state machine of a cosigner node see the configured validator.", "quantifier": "every schedule of the start-up goroutine against the main goroutine", "why_tests_cant": "goroutine schedules", "anchors": ["signer/raft_store.go:init", "signer/raft_store.go:OnStart", "cmd/horcrux/cmd/cosigner.go:StartCosignerCmd"]}
{"id": "C58", "title": "Distinct timestamps get distinct nonces", "statement": "Two sign requests at the same height, round and step whose timestamps differ are handled under different nonce records.", "quantifier": "every pair of protobuf-valid timestamps and every request history", "why_tests_cant": "64-bit wrap-around and aliasing happen at isolated points of an unbounded domain", "anchors": ["signer/Serialization.go:UnpackHRST", "signer/local_cosigner.go:dealShares", "signer/local_cosigner.go:setEphemeralSecretPart"]}
{"id": "C59", "title": "A restarted single signer does not sign conflicting data", "statement": "In single-signer mode, after a restart the signer refuses to sign data conflicting with what it signed before.", "quantifier": "every history and restart point", "why_tests_cant": "restart points", "anchors": ["cmd/horcrux/cmd/signer.go:StartSignerCmd"]}
{"id": "C60", "title": "Editing an accepted configuration gives an accepted configuration", "statement": "When a node/peer add, node/peer remove or set-shares command succeeds on a configuration that start accepts, start also accepts the edited configuration; in particular the peer list stays valid under any sequence of commands.", "quantifier": "every accepted configuration and every sequence of commands", "why_tests_cant": "Tests apply a few commands to a few configurations; the claim is about every configuration and every command sequence.", "anchors": ["cmd/horcrux/cmd/config.go:addNodesCmd", "cmd/horcrux/cmd/config.go:removePeersCmd", "cmd/horcrux/cmd/config.go:validateCosignerConfig"]}
{"id": "C61", "title": "Shares made by create-shares sign for the original key", "statement": "If a key is split with threshold t into n shares and each cosigner is started with its key file and a configuration with threshold t listing the other cosigners, then all start, and any t of them that have not signed beyond a block produce a signature for it that verifies under the original public key.", "quantifier": "every key, every 1 <= t <= n with 2 <= n <= 255, every accepted configuration of this shape, every quorum, leader, block, iteration order and randomness", "why_tests_cant": "Tests split one key and sign one message; the claim spans the splitting, the file format, the start-up and a signing round for all parameters.", "anchors": ["cmd/horcrux/cmd/key2shares.go:CreateCosignerSharesCmd", "signer/cosigner_key.go:LoadCosignerKey", "cmd/horcrux/cmd/cosigner.go:StartCosignerCmd", "signer/threshold_validator.go:SignBlock"]}
{"id": "C62", "title": "config init accepts exactly usable flags and produces the configuration asked for", "statement": "config init accepts a set of flags exactly if: for a single signer, there are a chain ID and chain nodes whose last address parses; for a cosigner, there is a chain ID, the peers flag lists all other cosigners once, the threshold is at most the number of cosigners, the listen address and timeout parse, the host is not 0.0.0.0 and the last chain node, if any, parses. The configuration has the fields given by the flags, with one share per peer plus one, and passes the checks made at start.", "quantifier": "every set of flags and every home directory", "why_tests_cant": "Tests cover a dozen flag combinations; the claim is an equivalence over all flag values.", "anchors": ["cmd/horcrux/cmd/config.go:initCmd", "cmd/horcrux/cmd/config.go:validateSingleSignerConfig", "cmd/horcrux/cmd/config.go:validateCosignerConfig"]}
{"id": "C63", "title": "An honest cluster keeps signing", "statement": "In a cluster whose cosigners hold the shares of one key, every sign request of a sequence of requests for increasing blocks is answered with a signature that verifies under the public key, whichever node leads and whichever threshold of cosigners takes part each time, even if raft events about signed blocks are delayed, lost, repeated or reordered, late calls about signed blocks still arrive, and nodes restart from state files that are not ahead.", "quantifier": "every cluster size n>=2 and threshold, every start state not above the first block, every number of requests and every sequence of events in between, every leader, quorum, iteration order and randomness", "why_tests_cant": "Tests sign a handful of blocks with one fixed quorum; the claim is about all sequences of requests, leaders, quorums and interleaved events.", "anchors": ["signer/threshold_validator.go:SignBlock", "signer/local_cosigner.go:SetEphemeralSecretPartsAndSign", "signer/raft_events.go:handleLSSEvent", "cmd/horcrux/cmd/cosigner.go:StartCosignerCmd"]}
{"id": "C64", "title": "A block whose signing attempt failed can still be signed", "statement": "If attempts at signing a block were given up at any point (answers lost, timeouts, leader change), a later attempt with a quorum of honest reachable cosigners yields a valid signature.", "quantifier": "every number of attempts, every prefix of steps of them in any interleaving, every leader and quorum of the last attempt", "why_tests_cant": "Tests do not interrupt rounds; the claim is about every interruption point and every combination of quorums.", "anchors": ["signer/threshold_validator.go:SignBlock", "signer/local_cosigner.go:sign", "signer/local_cosigner.go:getEphemeralSecretPart"]}
{"id": "C65", "title": "The sign state file is read back as it was written", "statement": "Writing a sign state to its file and loading that file yields the same height, round, step, ephemeral key, signature and sign bytes; a proper prefix of the file is never accepted as a state; a missing or unreadable file is replaced by the empty state, which loads as empty from then on.", "quantifier": "every height, round and step in range, every byte content of the three slices (nil, empty or not), every proper prefix of the written text, every initial file content", "why_tests_cant": "Tests write one or two states; the claim ranges over all integers, byte strings and cut points of the text.", "anchors": ["signer/sign_state.go:save", "signer/sign_state.go:LoadSignState", "signer/sign_state.go:LoadOrCreateSignState"]}
{"id": "C66", "title": "The cluster never signs two conflicting blocks, over all restarts", "statement": "With t > n/2, over the whole history of the cluster including crashes and restarts of cosigner processes at any moment, no two full signatures are obtained for one height, round and step over sign bytes that differ in more than the timestamp.", "quantifier": "every n, t, every number of lives of every process, every request sequence, every scheduling of the background file writes and every crash point", "why_tests_cant": "Tests never kill a cosigner between its answer and the background write, and cannot cover all schedules of several processes.", "anchors": ["signer/sign_state.go:Save", "signer/local_cosigner.go:sign", "signer/threshold_validator.go:SignBlock", "cmd/horcrux/cmd/cosigner.go:StartCosignerCmd"]}
{"id": "C67", "title": "A request to any node is answered as by the leader", "statement": "A sign request received by a node that is not the raft leader is passed on, possibly several times, until it reaches the leader. The caller gets the bytes of the leader's signature together with the time stamp it sent, or an error if the leader has none, and no node is left in another state than if the leader had been asked directly. In particular, increasing requests that enter the cluster at any nodes are all signed.", "quantifier": "every cluster state, every block and UTF-8 chain ID, every way of a request over nodes, every leader; for the signing part every n, t, every sequence of requests, deliveries and restarts as in C63", "why_tests_cant": "Tests never proxy a request through the gRPC layer of a running cluster; the ways and leader changes are unbounded.", "anchors": ["signer/threshold_validator.go:SignBlock", "signer/raft_events.go:LeaderSignBlock", "signer/grpc_server.go:SignBlock"]}
{"id": "C68", "title": "All nodes take part in one raft cluster with exactly the configured cosigners", "statement": "When the configurations of the cosigners agree on IDs and addresses, every node runs raft with the same set of servers: one voter for each cosigner, under its share ID and the host of the URL it listens on. A configuration from which no such cluster can be formed is refused at start.", "quantifier": "every number of cosigners, every set of URLs, every order of the peers in each configuration, every accepted configuration and key, first starts and restarts", "why_tests_cant": "The raft test bootstraps one node alone; nothing compares the server lists of several nodes or looks at the ignored result of BootstrapCluster.", "anchors": ["signer/raft_store.go:Open", "signer/raft_store.go:p2pURLToRaftAddress", "cmd/horcrux/cmd/cosigner.go:StartCosignerCmd"]}
{"id": "C69", "title": "elect with an ID moves the leadership to that cosigner or reports an error", "statement": "A leadership transfer request that names a cosigner asks raft to hand over to the server of that cosigner, a voter of the raft configuration, and answers with its ID and address; when the ID names no cosigner that can take over, the request fails. A request without an ID asks raft to hand over to any other server.", "quantifier": "every peer list, every requested ID string, every URL", "why_tests_cant": "No test calls TransferLeadership; the ID is an arbitrary string.", "anchors": ["signer/grpc_server.go:TransferLeadership", "cmd/horcrux/cmd/leader_election.go"]}
{"id": "C70", "title": "A signed block can be requested again after a change of leader", "statement": "When the cluster has signed a block and the record has been made known to the nodes by raft, a repeated request for the block is answered with the same signature, whichever node is the leader by then.", "quantifier": "every n, t, every earlier history in order, every set of participants and leaders of the two requests, every delivery of records, anything the other nodes do in between", "why_tests_cant": "Needs a leader change between the answer and the retry of the chain node; tests run one leader per block, and the schedules are unbounded.", "anchors": ["signer/threshold_validator.go:SignBlock", "signer/local_cosigner.go:sign", "signer/raft_events.go:handleLSSEvent"]}
{"id": "C71", "title": "A signing round never crashes the leader, and the table it assembles from is complete when read", "statement": "In a signing round of a leader started from an accepted configuration, no order of answers, failures, completions and timeouts of the cosigners makes the leader panic; and when the wait for the share signatures completes, every participant has answered or failed, and the table holds exactly the share signatures of the answers, which nothing changes afterwards.", "quantifier": "every accepted configuration, every set of participants, every schedule of both phases, every content of the answers", "why_tests_cant": "The index of the table comes from the configuration of the peers, the writes from one goroutine per participant; tests run one complete peer list and whatever interleaving the scheduler picks.", "anchors": ["signer/threshold_validator.go:SignBlock", "signer/threshold_validator.go:waitForPeerSetEphemeralSharesAndSign", "signer/config.go:validateCosignerPeers"]}
{"id": "C72", "title": "The answers of the cosigners do not give away a key share or the key", "statement": "Nobody who may call a cosigner's gRPC service can compute the key share of a cosigner, or the private key of the validator, from the answers of the cosigners: the share signatures a cosigner gives out are consistent with every key share.", "quantifier": "every n, t, every set of participants, every key and shares, all nonce randomness, every message, every caller of SetEphemeralSecretPartsAndSign, every run of a cosigner", "why_tests_cant": "Tests check that a signature verifies, not what can be derived from several answers; the attacker's calls and the runs are unbounded.", "anchors": ["signer/local_cosigner.go:sign", "signer/local_cosigner.go:SetEphemeralSecretPartsAndSign", "signer/grpc_server.go:SetEphemeralSecretPartsAndSign", "signer/sign_state.go:OnlyDifferByTimestamp"]}
{"id": "C73", "title": "A chain node's request is answered with its own message and a valid signature, byte for byte", "statement": "In a cluster whose cosigners hold the shares of one key, a chain node that sends a request to sign a prevote, precommit or proposal, as bytes on its connection to any node of the cluster, for a later block than all before, gets back bytes that it decodes to the same message with nothing changed but the signature, and that signature verifies over the message's sign bytes under the validator's public key.", "quantifier": "every n >= 2, t, key, shares; every sequence of requests with increasing blocks to any nodes, any leader per request, any way of passing on, any participating quorum, all randomness and iteration orders; restarts, raft events and other calls in between; whatever follows on the stream", "why_tests_cant": "No test goes from the bytes of the privval connection to the bytes of the answer through proxying, nonce exchange and combination, and the sequences are unbounded.", "anchors": ["signer/remote_signer.go:loop", "signer/remote_signer.go:handleRequest", "signer/threshold_validator.go:SignVote", "signer/threshold_validator.go:SignBlock", "signer/raft_events.go:LeaderSignBlock", "signer/local_cosigner.go:sign", "cmd/horcrux/cmd/cosigner.go:startCosignerCmd"]}
{"id": "C74", "title": "A process that is asked to end stops serving and forgets nothing", "statement": "When a cosigner process receives SIGTERM or SIGINT, every service is stopped without a panic and the process exits; after Stop a remote signer answers no more than the request it is reading, and its loop returns; and after the process has been started again the cosigner signs nothing that conflicts with what it released before.", "quantifier": "every number of chain nodes and every interleaving of the signal handler, the loops, requests of peers and background writes, over any number of lives, each ended by a signal", "why_tests_cant": "No test sends a signal; the outcome depends on where each goroutine is when the process exits.", "anchors": ["signer/services.go:WaitAndTerminate", "signer/remote_signer.go:loop", "signer/sign_state.go:Save", "cmd/horcrux/cmd/cosigner.go:startCosignerCmd"]}
{"id": "C75", "title": "state show shows what is stored, and state set works when nothing else runs", "statement": "state show prints, for the home directory in use, height, round, step, ephemeral key, signature and sign bytes of both state files, so that they can be told from the output. state set to a 64-bit height succeeds whenever the configuration and both state files can be read and no other horcrux process is running, with and without --home.", "quantifier": "every file system, --home flag, set of running processes, name of the executable and argument", "why_tests_cant": "No test runs the commands; the outcome depends on the process table and on the flag.", "anchors": ["cmd/horcrux/cmd/state.go:showStateCmd", "cmd/horcrux/cmd/state.go:setStateCmd", "cmd/horcrux/cmd/state.go:isRunning", "cmd/horcrux/cmd/state.go:printSignState"]}
{"id": "C76", "title": "cosigner address prints the addresses of the validator key", "statement": "With an accepted configuration and a readable key file, cosigner address prints JSON with the hexadecimal address and the JSON form of the public key. With a prefix as argument it also prints the consensus address (the hash of the key) and the consensus public key (its amino encoding) as valid Bech32 strings for that prefix, from which prefix and key can be read back; arguments for which there is no such string are refused.", "quantifier": "every configuration, key file, public key and argument", "why_tests_cant": "The command has no test; the checksum and the regrouping of bits must be right for every key, and the argument is free text.", "anchors": ["cmd/horcrux/cmd/cosigner.go:AddressCmd", "signer/Config.go:PubKey", "docs/migrating.md:208"]}
{"id": "C77", "title": "A chain node's key file is split into shares of its own key", "statement": "create-shares reads the key file of a chain node (priv_validator_key.json) in any JSON layout; the key files it writes carry the node's public key, and cosigners started from any threshold of them sign blocks with signatures that verify under that public key. A file whose keys do not belong together, are of a kind this signer cannot use, or are missing is refused with an error.", "quantifier": "every key file (address, keys, white space), threshold and number of shares in range, configuration, participating set, block and cosigner state", "why_tests_cant": "The test uses one generated in-memory key; neither the file format nor the way from file to a verifying signature is tested, and wrong files are not tried.", "anchors": ["signer/cosigner_key_shares.go:ReadPrivValidatorFile", "signer/cosigner_key_shares.go:CreateCosignerShares", "cmd/horcrux/cmd/key2shares.go:CreateCosignerSharesCmd"]}
{"id": "C78", "title": "Nothing is signed but sign bytes of the configured chain", "statement": "Share signatures are released only over the sign bytes of votes and proposals of the configured chain; everything in the bytes counts when they are compared with what was signed before, and requests for another chain are refused.", "quantifier": "every cosigner state, every vote and proposal, every byte string and chain ID, any additional fields and bytes", "why_tests_cant": "Tests only ever send canonical bytes of one chain; what happens to well-formed bytes with more in them depends on the generated decoders for every wire type and nesting.", "anchors": ["signer/local_cosigner.go:sign", "signer/Serialization.go:UnpackHRST", "signer/sign_state.go:onlyDifferByTimestamp", "signer/remote_signer.go:handleRequest"]}
{"id": "C79", "title": "Exactly the JSON texts of a sign state are taken for one", "statement": "A sign state file is accepted only if it is a JSON text (RFC 8259) for an object that says the height, round, step, ephemeral key, signature and sign bytes that are loaded; every such text is accepted, whatever its white space, the order of its members and other members in it; a text says one state only; what is left of a file after a cut is not taken for a state, unless only white space was cut; a file that does not say the height is not accepted, and a file that is not accepted keeps the process from starting.", "quantifier": "every byte string as the content of the file, every layout, order and number of members, every nesting depth, every cut point", "why_tests_cant": "Tests read a few well-formed files; the claim is about all byte strings and needs the grammar.", "anchors": ["signer/sign_state.go:LoadSignState", "signer/sign_state.go:LoadOrCreateSignState", "signer/sign_state.go:SignState"]}
{"id": "C80", "title": "Exactly the JSON texts of a key share are taken for one", "statement": "A key share file is accepted only if it is a JSON text (RFC 8259) for an object that says the share, the ID, the RSA key, the cosigners' RSA keys and the public key that are loaded; every such text is accepted, whatever its white space, the order and the case of the names and other members in it; a text says one key only, so no name is in it twice; a file that does not say the share or the ID is refused, and no file crashes the process.", "quantifier": "every byte string as the content of the file, every layout, case, order and number of members, every RSA codec and key", "why_tests_cant": "Tests load one file that was written by the program; the claim is about all byte strings, needs the grammar, and its failures come from texts nobody writes in a test.", "anchors": ["signer/cosigner_key.go:LoadCosignerKey", "signer/cosigner_key.go:UnmarshalJSON", "signer/cosigner_key.go:MarshalJSON", "cmd/horcrux/cmd/cosigner.go:StartCosignerCmd"]}
{"id": "C81", "title": "A block whose sign bytes are for another height, round or step comes to nothing", "statement": "A request over gRPC SignBlock whose sign bytes are for another height, round or step than the block says is refused: no signature is returned, no sign state changes, nothing is put into the raft log, and later requests are served as if it had not come. Requests of chain nodes are never of this kind.", "quantifier": "every cluster, keys, state, participants, iteration orders and randomness; every block (height, round, step, time and sign bytes chosen independently); every continuation", "why_tests_cant": "Tests only build blocks from votes and proposals; the blocks and the histories before and after are unbounded.", "anchors": ["signer/grpc_server.go:SignBlock", "signer/threshold_validator.go:SignBlock", "signer/local_cosigner.go:sign", "signer/local_cosigner.go:SetEphemeralSecretPartsAndSign"]}
{"id": "C82", "title": "A vote requested again with another time is signed for that time", "statement": "A vote may be requested again, any number of times, with another time (as a chain node does after a restart), from the node that led before or any other, with any participants, and with restarts, raft events and late calls in between: every request is answered with a signature that verifies over its own sign bytes, with its own time.", "quantifier": "every cluster, threshold, keys, participants, leader, iteration orders and randomness; every sequence of requests in order, each vote repeated any number of times with different times; every interleaving of raft records, cosigner calls and restarts about the blocks already requested", "why_tests_cant": "Tests sign one block a few times with fixed times; the number of repetitions, the clusters and the events in between are unbounded.", "anchors": ["signer/threshold_validator.go:SignBlock", "signer/threshold_validator.go:getExistingBlockSignature", "signer/local_cosigner.go:sign", "signer/local_cosigner.go:SetEphemeralSecretPartsAndSign", "signer/sign_state.go:OnlyDifferByTimestamp"]}
{"id": "C83", "title": "No chain node learns the private key from signatures", "statement": "The signatures that the cluster gives a chain node for its votes do not let it compute the private key of the validator: in particular, no two signatures of different sign bytes are made with the same nonce.", "quantifier": "every cluster, threshold, keys, participants, leaders, iteration orders and randomness; every sequence of requests in order, votes repeated any number of times with any valid times", "why_tests_cant": "Tests never compare the nonces of two signatures, and use times of a few seconds; the times, requests and clusters are unbounded.", "anchors": ["signer/local_cosigner.go:dealShares", "signer/local_cosigner.go:sign", "signer/Cosigner.go:HRSTKey", "signer/threshold_validator.go:SignBlock", "signer/remote_signer.go:handleSignVoteRequest"]}
{"id": "C84", "title": "The cluster makes signatures in order", "statement": "Once the cluster has made a signature for a block, every signature it makes later is for that block or a higher one, whichever nodes lead and take part: a request for a lower block is answered, if at all, with a signature that had been made before. Nodes that lose their watermark in a restart count as faulty, up to f of them for n + f < 2t.", "quantifier": "every cluster size, threshold, number of faulty nodes with n + f < 2t, cryptographic functions, loaded files and sequence of sign requests, raft events, calls of cosigners and restarts", "why_tests_cant": "It is about all interleavings and all pairs of quorums; tests use one leader and one order.", "anchors": ["signer/threshold_validator.go:SignBlock", "signer/local_cosigner.go:sign", "signer/sign_state.go:CheckHRS", "signer/threshold_validator.go:getExistingBlockSignature"]}
{"id": "C85", "title": "No request of a chain node keeps the cluster from signing the blocks that follow", "statement": "Whatever a chain node asks for, the cluster goes on to sign the blocks above those that it had signed before that request.", "quantifier": "every cluster, every message of a chain node, every way to the leader, everything that happens afterwards", "why_tests_cant": "Tests do not send requests for heights the chain has not reached, and the claim is about everything that follows.", "anchors": ["signer/threshold_validator.go:SignBlock", "signer/remote_signer.go:handleSignVoteRequest", "signer/sign_state.go:Save", "signer/local_cosigner.go:sign"]}
{"id": "C86", "title": "Signatures that raft events bring are checked before they are given to a chain node", "statement": "Every signature with which a sign request is answered verifies under the validator's public key over a message for the block asked for, and for votes over the very bytes asked for, whatever records raft events have brought to the node.", "quantifier": "every cluster, any cryptography, every sequence of sign requests, raft events, other calls and restarts", "why_tests_cant": "Tests only apply raft events that the code itself has produced; a record with a wrong signature never occurs in them.", "anchors": ["signer/raft_events.go:handleLSSEvent", "signer/raft_store.go:Apply", "signer/threshold_validator.go:SaveLastSignedState", "signer/threshold_validator.go:getExistingBlockSignature", "signer/threshold_validator.go:SignBlock"]}
{"id": "C87", "title": "Only their owner can read the files with key shares and sign states", "statement": "After create-shares nobody but the owner has access to the key share files, and after a save nobody but the owner has access to a state file, whatever the umask and the permissions of earlier files.", "quantifier": "every umask, every directory, all arguments of the command", "why_tests_cant": "Tests write into temporary directories with one umask and do not look at permissions.", "anchors": ["signer/cosigner_key_shares.go:WriteCosignerShareFile", "cmd/horcrux/cmd/key2shares.go:CreateCosignerSharesCmd", "signer/sign_state.go:save"]}
{"id": "C88", "title": "A sign request leaves no goroutine behind", "statement": "Once all calls to peers that a sign request has started have ended, every goroutine started for it ends.", "quantifier": "every threshold of at least 1, every set of peers, every order of answers, failures and timeouts, any number of requests", "why_tests_cant": "A goroutine that waits for ever is invisible in a test's result; the claim is about every schedule and about requests without bound.", "anchors": ["signer/threshold_validator.go:waitUntilCompleteOrTimeout", "signer/threshold_validator.go:waitForPeerEphemeralShares", "signer/threshold_validator.go:waitForPeerSetEphemeralSharesAndSign", "signer/threshold_validator.go:SignBlock"]}
{"id": "C89", "title": "Everything for a cosigner goes to the host and port its address names", "statement": "For every accepted configuration and every cosigner in it, the requests of signing rounds, raft messages, leadership transfers and horcrux elect all go to the host and port that the configured address names, and the cosigner listens on that port; so cosigners whose configurations agree form one raft cluster and elect asks all of them.", "quantifier": "every address string, every number of cosigners, every host name, IPv4 or IPv6 address and port", "why_tests_cant": "Tests use a few addresses of one form; the claim is about all strings the URL parser takes and about four different places that use them.", "anchors": ["signer/remote_cosigner.go:getGRPCClient", "signer/raft_store.go:p2pURLToRaftAddress", "signer/raft_store.go:init", "signer/raft_store.go:Open", "cmd/horcrux/cmd/leader_election.go:leaderElectionCmd"]}
{"id": "C90", "title": "config init takes exactly listen addresses that other cosigners can use", "statement": "The listen address of a configuration written by config init has a host and a port, to which other cosigners connect when they are given the address and on which the process listens, and the host is not an unspecified address (which no other machine can reach); every address of the documented form with another host is taken. The start does not accept a configuration with an unspecified host.", "quantifier": "every flag value, every host name, IP address and port", "why_tests_cant": "Tests try a few addresses; the claim is about all strings and the URL grammar.", "anchors": ["cmd/horcrux/cmd/config.go:initCmd", "cmd/horcrux/cmd/config.go:validateCosignerConfig", "signer/raft_store.go:init"]}
{"id": "C91", "title": "Accepted chain node addresses are exactly those that can be dialled", "statement": "A list of chain nodes is accepted exactly if for each of them the signer dials a TCP host and port, the ones its address names.", "quantifier": "every list of address strings", "why_tests_cant": "Tests use well-formed addresses; the claim relates two different parsers (net/url and ProtocolAndAddress) on all strings.", "anchors": ["cmd/horcrux/cmd/config.go:validateChainNodes", "signer/remote_signer.go:loop"]}
{"id": "C92", "title": "What state set has set is what the cosigner starts from", "statement": "After horcrux state set has reported success for a height, a cosigner started with the same --home has both watermarks at or above that height and never releases a share signature for a lower one. Whatever state set reports, it never makes a later start use a lower watermark than before.", "quantifier": "every file system, configuration, height argument, outcome of the background writes and run of the started cosigner", "why_tests_cant": "Tests of state set read the file back from the directory they wrote to; the claim spans two commands, the configured home directory and all later runs.", "anchors": ["cmd/horcrux/cmd/state.go:setStateCmd", "cmd/horcrux/cmd/cosigner.go:startCosignerCmd", "signer/sign_state.go:Save"]}
{"id": "C93", "title": "The leader and t-1 working cosigners suffice to sign, whatever the others do", "statement": "If the leader and t-1 of its peers answer all calls correctly and in time, a request for a new block is answered with a valid signature, whatever the other cosigners do: answer, fail, or answer some calls and not others.", "quantifier": "every cluster size and threshold, every order of answers and failures in both halves of a signing round, every sequence of blocks", "why_tests_cant": "Tests stop whole cosigners; the claim is about all schedules of answers of partly working ones.", "anchors": ["signer/threshold_validator.go:SignBlock", "signer/threshold_validator.go:waitForPeerEphemeralShares", "signer/threshold_validator.go:waitForPeerSetEphemeralSharesAndSign"]}
{"id": "C94", "title": "A cosigner keeps only the nonce records it can still need", "statement": "The nonce records a cosigner holds are those of blocks it was called about since it last released a new share signature for a higher block. Calls about lower blocks take no room, and the number of records stays bounded however long the process runs.", "quantifier": "every run of every length, every set of blocks asked for", "why_tests_cant": "Tests make a handful of calls; the claim bounds the memory of a long-running process under all sequences of calls, including those for blocks that are never signed.", "anchors": ["signer/local_cosigner.go:sign", "signer/local_cosigner.go:dealShares", "signer/local_cosigner.go:setEphemeralSecretPart", "signer/grpc_server.go:GetEphemeralSecretParts"]}
{"id": "C95", "title": "Processes that share a home directory never sign conflicting data", "statement": "If several horcrux cosigner start processes are run with one home directory, at the same time or one after the other, on one host or several, at most one of them serves calls at any time, and two share signatures for one height, round and step, by whichever of them, are over sign bytes that differ in nothing but the time.", "quantifier": "every number of processes and hosts, every interleaving of their starts, calls, background writes and ends", "why_tests_cant": "Tests run one process per home directory; the claim is about all interleavings of the start of one process with the run and end of another.", "anchors": ["cmd/horcrux/cmd/cosigner.go:startCosignerCmd", "signer/raft_store.go:init", "signer/raft_store.go:Open", "signer/sign_state.go:LoadSignState"]}
{"id": "C96", "title": "Requests never wait for each other for ever", "statement": "On any number of nodes, requests of chain nodes, calls of other nodes and raft events, in whatever order they arrive and are worked on, never come to a standstill: as long as something that was begun has not ended, something can go on without any remote call being given up, and everything that was begun ends after a bounded number of steps with no mutex held. No mutex is unlocked by a goroutine that does not hold it.", "quantifier": "every number of nodes, requests, rounds and forwarded requests, every interleaving of their steps, every choice of errors and calls given up", "why_tests_cant": "A deadlock needs one interleaving among unboundedly many; tests run a few schedules of a few requests, and a race detector does not report lock orders across processes.", "anchors": ["signer/PvGuard.go:SignVote", "signer/threshold_validator.go:SignBlock", "signer/raft_events.go:handleLSSEvent", "signer/raft_events.go:LeaderSignBlock", "signer/local_cosigner.go:sign", "signer/raft_store.go:Apply"]}
{"id": "C97", "title": "No data races", "statement": "Goroutines of a node never access its sign states, nonce records or replicated store while another goroutine writes the same memory, whatever requests of chain nodes, calls of other nodes, raft events and snapshots are worked on at the same time; in particular no Go map is accessed concurrently with a write, for which the runtime would end the process.", "quantifier": "every number of nodes and requests, every interleaving of their steps, all shared memory of a running node", "why_tests_cant": "The race detector sees only the accesses of the schedules that were run; the claim is about all of them.", "anchors": ["signer/sign_state.go:Save", "signer/sign_state.go:save", "signer/threshold_validator.go:newBeyondBlockError", "signer/local_cosigner.go:sign", "signer/raft_store.go:Restore"]}
{"id": "C98", "title": "Every sign request is answered within a bounded time", "statement": "A call of SignBlock on the leader has returned at most 8.99 seconds after it was made, plus 104 times the time a local step takes at most, plus the time raft takes to say that the emission is applied; on another node it has returned after at most 6.9 seconds plus 31 local steps. This holds whatever other requests are worked on, whichever peers answer, and whoever leads; and time never has to stand still for it.", "quantifier": "every number of nodes and calls, every order and timing of requests, answers, failures, leader changes and raft events, every bound for local steps and raft", "why_tests_cant": "The bound is reached only by one particular timing of a second request behind a slow one (the hundredth look at the record finds a changed time, then both halves of a round use up their four seconds); tests run with other timings.", "anchors": ["signer/threshold_validator.go:SignBlock", "signer/threshold_validator.go:waitUntilCompleteOrTimeout", "signer/raft_events.go:LeaderSignBlock", "signer/remote_cosigner.go:getContext"]}
{"id": "C99", "title": "A node that is not the leader passes on the leader's answer", "statement": "If a node that is not the leader has passed a sign request on and the connection does not fail, the call returns what the leader's call for the same block returns: its signature if it gets one, an error if it does not.", "quantifier": "every number of nodes and calls, every order and timing of everything else", "why_tests_cant": "The follower's limit of four seconds for the whole call and the leader's limits of four seconds for each half of the round only disagree for rounds of between four and eight seconds; tests have no such peers.", "anchors": ["signer/raft_events.go:LeaderSignBlock", "signer/grpc_server.go:SignBlock", "signer/threshold_validator.go:SignBlock"]}
{"id": "C100", "title": "A request for a block that is being signed waits for the signature", "statement": "If the leader is asked for a block that it is already signing, the second call returns the signature of the first if that succeeds. What it returns depends only on what is recorded when it looks: the recorded signature, a refusal if another block is recorded or a later one was signed, and that it timed out if nothing is recorded.", "quantifier": "every number of nodes and calls, every order and timing of everything else", "why_tests_cant": "Needs a second request that arrives while a round of more than a second runs, or a record that appears between two looks; the outcome depends on the timing in milliseconds.", "anchors": ["signer/threshold_validator.go:SignBlock", "signer/threshold_validator.go:getExistingBlockSignature"]}
{"id": "C101", "title": "Requests of chain nodes are read whatever their encoding", "statement": "A request of a chain node (for the public key, to sign a vote or proposal, a ping) of at most 10240 bytes is read as what it says whatever its protobuf encoding: fields in any order, repeated fields (the last counts, messages are merged), fields that horcrux does not know, numbers and lengths in more bytes than needed. The stream continues right after it. Two encodings of the same request get the same answer and lead to the same cluster.", "quantifier": "every request, every encoding of it as fields of protobuf, every continuation of the stream, every state of the cluster", "why_tests_cant": "Tests only use the encodings that the library writes; there are infinitely many others for each message, e.g. with unknown fields of newer chain nodes.", "anchors": ["signer/Serialization.go:ReadMsg", "signer/remote_signer.go:loop", "signer/remote_signer.go:handleRequest"]}
{"id": "C102", "title": "Chain nodes never get two conflicting signatures, whatever they send", "statement": "Up to f of the n cosigners may have files that hold anything whenever they start; the files of the others hold what was written. Chain nodes send any bytes to any nodes, which serve the requests along any ways; nodes call each other, deliver raft records and start again at any time. If n + f < 2t, no two answers read by chain nodes hold signed votes of one type for one height and round and two blocks, and every signed vote that is read verifies over its own sign bytes. Two proposals for one height and round whose signatures verify are for one block and POL round, unless one of the signatures verifies over two different messages.", "quantifier": "every sequence of byte streams from chain nodes, sign requests of nodes, raft deliveries and restarts; every choice of participating cosigners, leaders and ways; every n, f, t with n + f < 2t; every chain ID that is not read as a time", "why_tests_cant": "It is about all byte streams and all histories with restarts, lost files, retries through other nodes and late raft records.", "anchors": ["signer/remote_signer.go:handleRequest", "signer/threshold_validator.go:SignBlock", "signer/local_cosigner.go:sign", "signer/sign_state.go:Save"]}
{"id": "C103", "title": "Nothing sent to a node's gRPC port ends a process", "statement": "Whatever bytes are sent to the methods of the gRPC service of a node, in whatever state the node is, its process goes on: the call is answered or fails with an error, and no other node ends because of it either.", "quantifier": "every cosigner of an accepted and complete configuration, every history of calls, every method and every byte string; for SignBlock every cluster, state, leader and participants", "why_tests_cant": "Tests only make well-formed calls; the byte strings and the histories are unbounded.", "anchors": ["signer/grpc_server.go:SetEphemeralSecretPartsAndSign", "signer/grpc_server.go:GetEphemeralSecretParts", "signer/grpc_server.go:TransferLeadership", "signer/grpc_server.go:SignBlock", "signer/sign_state.go:UnpackHRST"]}
{"id": "C104", "title": "Cosigners understand each other's messages exactly as protobuf defines them", "statement": "The requests and answers of the gRPC service are read exactly as what their bytes say by the rules of protobuf: the last value of a field counts, a field left out is zero, an integer is the low bits of its varint, a message within a message may come in pieces, repeated messages keep their order, unknown fields are stepped over, strings have to be UTF-8. Bytes that say nothing by these rules are refused, and such a call changes nothing.", "quantifier": "all byte strings, for each of the requests and answers of the service", "why_tests_cant": "There are infinitely many encodings of every message and infinitely many byte strings that are none; tests only decode what the same library has encoded.", "anchors": ["signer/grpc_server.go:SignBlock", "signer/grpc_server.go:SetEphemeralSecretPartsAndSign", "signer/grpc_server.go:GetEphemeralSecretParts", "signer/remote_cosigner.go:SetEphemeralSecretPartsAndSign", "signer/Cosigner.go:CosignerEphemeralSecretPartFromProto", "signer/Cosigner.go:HRSTKeyFromProto"]}
{"id": "C105", "title": "Chain nodes never get two conflicting signatures when everything in the cluster overlaps", "statement": "Any number of sign requests are served at once by all nodes; several nodes may take themselves for the leader; the steps of the calls and of the cosigners come in any order, answers come late or never, requests are passed on, raft brings records in any order and number, nodes start again at any time. Up to f of the n cosigners may start with any file, and anything may be answered in their name. If n + f < 2t, no two answers that chain nodes read hold signed votes of one type for one height and round and two blocks; every signed vote that is read verifies over its own sign bytes and at least t cosigners answered with shares for these sign bytes. Two proposals for one height and round whose signatures verify are for one block and POL round, unless one of the signatures verifies over two different messages.", "quantifier": "every interleaving of the steps of the calls, cosigners, raft events and restarts; every n, f, t with n + f < 2t; every chain ID that is not read as a time; every block", "why_tests_cant": "The interleavings of concurrent calls on several nodes are unbounded, and the wrong ones are rare.", "anchors": ["signer/threshold_validator.go:SignBlock", "signer/threshold_validator.go:waitForPeerSetEphemeralSharesAndSign", "signer/local_cosigner.go:sign", "signer/local_cosigner.go:SetEphemeralSecretPartsAndSign", "signer/raft_events.go:handleLSSEvent", "signer/grpc_server.go:SignBlock"]}
{"id": "C106", "title": "A block above all others is signed whatever else the cluster does meanwhile", "statement": "In a cluster that has run in any way, SignBlock is called on the leader for a block above all that the leader and t of the cosigners know. The steps of its round are mixed, in any order, with anything that is about lower blocks and with anything that other nodes do: other calls, rounds that are given up, answers in the name of other cosigners, raft records, restarts of other nodes. If the participants get working random numbers, are sent each other's parts before they sign, do not start again, and the leader waits for their answers, then the call returns exactly a signature that verifies over the sign bytes of the block, and never an error or a stale signature. At every moment of such a run there is a way to go on after which the call is over.", "quantifier": "every earlier run of the cluster, every interleaving of the allowed steps, every n, t, every set of at least t participants, every block", "why_tests_cant": "Interference between a round and everything else that goes on depends on the interleaving; there are unboundedly many.", "anchors": ["signer/threshold_validator.go:SignBlock", "signer/threshold_validator.go:waitForPeerEphemeralShares", "signer/threshold_validator.go:waitForPeerSetEphemeralSharesAndSign", "signer/local_cosigner.go:GetEphemeralSecretParts", "signer/local_cosigner.go:setEphemeralSecretPart", "signer/local_cosigner.go:sign", "signer/sign_state.go:Save"]}
{"id": "C107", "title": "Without a usable configuration every command reports an error and changes nothing", "statement": "A horcrux command that is run when the configuration file is missing, cannot be read or lacks the section that the command is about ends with an error message (never a crash) and changes no file; config init needs no configuration and can replace an unusable one with --overwrite.", "quantifier": "every command with every argument, every content of the files, every caller", "why_tests_cant": "Every command has its own path to the configuration, for every combination of missing files, sections and arguments.", "anchors": ["cmd/horcrux/cmd/root.go:initConfig", "cmd/horcrux/cmd/config.go:addNodesCmd", "cmd/horcrux/cmd/config.go:removeNodesCmd", "cmd/horcrux/cmd/config.go:addPeersCmd", "cmd/horcrux/cmd/config.go:removePeersCmd", "cmd/horcrux/cmd/config.go:setSharesCmd", "cmd/horcrux/cmd/config.go:setChainIDCmd", "cmd/horcrux/cmd/cosigner.go:StartCosignerCmd", "cmd/horcrux/cmd/signer.go:StartSignerCmd", "cmd/horcrux/cmd/state.go:showStateCmd", "cmd/horcrux/cmd/leader_election.go"]}
{"id": "C108", "title": "Commands read the configuration that commands have written", "statement": "After config init, an editing command or chain-id set has reported success, the next command of the same caller works with exactly the configuration that was written: that asked for, the edited one, that with the new chain ID. A sequence of editing commands leaves the configuration that the edits make one after the other.", "quantifier": "every sequence of commands, every caller with or without --home, every content of the home directory", "why_tests_cant": "It depends on all files in the home directory and on unboundedly many commands before.", "anchors": ["cmd/horcrux/cmd/root.go:initConfig", "cmd/horcrux/cmd/config.go:writeConfigFile", "cmd/horcrux/cmd/config.go:initCmd", "cmd/horcrux/cmd/config.go:setChainIDCmd"]}
{"id": "C109", "title": "Nobody can stop the cluster through the administration service on its gRPC port", "statement": "Whatever is sent to the ApplyLog method of the raft administration service that every node offers on its gRPC port, the cluster goes on to sign the blocks above those that it had signed before, and gives no signature that does not verify.", "quantifier": "every byte string, every node and raft state it is sent to, every cluster, state, set of nodes that apply the entry, and everything that happens afterwards", "why_tests_cant": "Tests never call the administration service; the claim is about every byte string and everything that follows.", "anchors": ["signer/raft_store.go:init", "signer/raft_store.go:Apply", "signer/raft_events.go:handleLSSEvent", "signer/threshold_validator.go:SignBlock", "signer/local_cosigner.go:SaveLastSignedState"]}
{"id": "C110", "title": "All nodes' stores have the contents of the log, whatever becomes of snapshots", "statement": "At every moment every node's store has exactly the contents that the entries it has applied make one after the other. This holds whatever snapshots are taken, fail while they are written, are written while further entries are applied, replace the beginning of a node's log or are given to nodes that lag behind, and whichever nodes start again. Nodes that have applied equally many entries have equal contents, no entry that a node still needs is lost, and no node ends because of its snapshot.", "quantifier": "every number of nodes, every committed log, every interleaving of applying, snapshots, failures, installs and restarts", "why_tests_cant": "The interleavings and the logs are unbounded, and tests let no snapshot fail.", "anchors": ["signer/raft_store.go:Apply", "signer/raft_store.go:Snapshot", "signer/raft_store.go:Persist", "signer/raft_store.go:Restore", "signer/raft_store.go:Open"]}
{"id": "C111", "title": "A node that has caught up with the log knows every block that was signed", "statement": "The watermarks of the validator and of the cosigner of a node are at or above every record in the part of the raft log that the node has caught up with, whether it has applied the entries or has been given a snapshot of them.", "quantifier": "every number of nodes, every committed log, every interleaving of applying, snapshots, failures, installs and restarts", "why_tests_cant": "The interleavings and the logs are unbounded; no test restores a snapshot on another node.", "anchors": ["signer/raft_store.go:Snapshot", "signer/raft_store.go:Restore", "signer/raft_events.go:shouldRetain", "signer/raft_events.go:handleLSSEvent"]}
{"id": "C112", "title": "The members of the raft cluster stay the configured cosigners", "statement": "Whatever is sent to the AddVoter, AddNonvoter, DemoteVoter and RemoveServer methods of the raft administration service that every node offers on its gRPC port, the members of the raft cluster stay the cosigners it was bootstrapped with; and the configuration stays one that raft accepts.", "quantifier": "every raft configuration, every sequence of calls with any bytes to nodes in any raft state", "why_tests_cant": "Tests never call the administration service; configurations and sequences of calls are unbounded.", "anchors": ["signer/raft_store.go:init", "signer/raft_store.go:Open", "signer/raft_store.go:GetLeader"]}
{"id": "C113", "title": "A single signer never gives its chain nodes two conflicting messages", "statement": "Whatever bytes chain nodes send to a single signer, on however many connections and in whatever order, and however often the process ends and is started again: two signed votes of the same type for the same height and round, or two signed proposals for the same height and round, that chain nodes read from it are for the same block; every signature they get verifies over the message it comes with; a request for a later block is answered with the message signed, a repeated one with the signature of before, and any other with an error.", "quantifier": "every chain ID, key and state file, every number of chain nodes, every sequence of loop iterations with any bytes, failed dials and failed writes, and restarts", "why_tests_cant": "The tests never run the single signer; byte streams, interleavings and restarts are unbounded.", "anchors": ["cmd/horcrux/cmd/signer.go:StartSignerCmd", "signer/remote_signer.go:loop", "signer/remote_signer.go:handleRequest", "signer/pv_guard.go:SignVote"]}
{"id": "C114", "title": "A remote signer keeps one connection per chain node", "statement": "The loop of a remote signer has at most one TCP connection to its chain node open at any time, and none once it has returned; when a connection ends while the service is running, the loop closes it, dials as often as it takes, and serves the next request on the new connection.", "quantifier": "every sequence of steps of the loop: any bytes read, any refused dials, failed handshakes and failed writes, and the service stopped at any point", "why_tests_cant": "The tests never lose a connection, and the number of reconnections is unbounded.", "anchors": ["signer/remote_signer.go:loop"]}
{"id": "C115", "title": "A validator that is moved to horcrux as the guide says keeps signing and never goes back", "statement": "Initialise n cosigners with config init, split the validator's key file with create-shares, give each node its share, replace both state files by a text with height, round and step of the validator's last signature, and start the cosigners. Then all of them run from that state; every block that chain nodes ask for in order above it is signed for the validator's public key; and whatever else happens, over crashes and restarts and with fewer than t faulty cosigners, no signature is made at or below it. If the validator's own state file is copied unchanged, no cosigner starts.", "quantifier": "every cluster size 2..255 and threshold, every key, all accepted flags that list the other cosigners, every layout of the state file texts, every state, every sequence of requests and events afterwards", "why_tests_cant": "The guide is a procedure over several machines and commands; tests exercise the commands one by one and never the state that the whole procedure leads to.", "anchors": ["docs/migrating.md:73-176", "cmd/horcrux/cmd/config.go:initCmd", "cmd/horcrux/cmd/key2shares.go:CreateCosignerSharesCmd", "cmd/horcrux/cmd/cosigner.go:StartCosignerCmd", "signer/sign_state.go:LoadSignState"]}
{"id": "C116", "title": "Only the first request for a block that reaches the leader is acted upon", "statement": "When several chain nodes ask the leader for a signature at one height, round and step, only the request that arrives first leads to a signing round: the others contact no cosigner and change nothing, and get the first signature (the same message, or a proposal) or an error.", "quantifier": "every honest cluster, every history of events in order before the first request, every number of further requests at that height, round and step in any order", "why_tests_cant": "The number of chain nodes, their order and what each of them asks for are unbounded, and the tests never look at the cosigners after a repeated request.", "anchors": ["docs/signing.md", "signer/threshold_validator.go:SignBlock", "signer/threshold_validator.go:getExistingBlockSignature"]}
{"id": "C117", "title": "Environment variables do not change the configuration", "statement": "Whatever environment variables are set (horcrux switches on viper's AutomaticEnv with the prefix HORCRUX), the configuration that a command reads is exactly the one that config init or the last editing command wrote. A file written by hand is read the same way in every environment unless a setting is spelled like a field of the Go structure.", "quantifier": "every configuration, every environment, every sequence of editing commands each in its own environment, every YAML tree without such settings", "why_tests_cant": "The tests run with one environment and never set such variables; variables and configurations are unbounded.", "anchors": ["cmd/horcrux/cmd/root.go:initConfig", "cmd/horcrux/cmd/config.go:Config", "cmd/horcrux/cmd/config.go:MustMarshalYaml"]}
{"id": "C118", "title": "A signing round comes out as if its cosigners were asked one after the other", "statement": "Take one signing round of the leader with all its goroutines (one per peer asking for secret parts, the main goroutine making its own, the goroutine waiting for the wait group, and then one per participant asking to sign) and with the cosigners that answer. However all of these are interleaved, whichever calls fail or time out, however late an answer is, and in whatever order each goroutine iterates the map of parts: if the round gets as far as assembling a signature, there are exactly threshold different participants, the leader among them, which all answered the request for parts, such that the result is what asking those participants one after the other for parts and then one after the other to sign gives, and they are left in the same states; or a participant's call to sign failed and the result is `not enough co-signers`. No cosigner is left in any other state than before the round, after its request for parts, or after the sequential round. The leader crashes only if its own cosigner does; among honest cosigners, below the block, it never does and every such round in which no peer's call to sign fails yields a signature that verifies. And nothing gets stuck: a round in which nothing but a timeout can happen any more has ended, or still waits for parts because the calls to all peers have failed but for fewer than threshold minus one.", "quantifier": "all thresholds, sets of peers, cosigner configurations and states, blocks, randomness, and all interleavings of the goroutines, the cosigners' answers, failures and timeouts", "why_tests_cant": "The number of interleavings of the goroutines, calls and map iterations is unbounded, and tests only ever see the few that the scheduler picks.", "anchors": ["signer/threshold_validator.go:172-261", "signer/threshold_validator.go:363-453", "signer/local_cosigner.go:287-330", "signer/local_cosigner.go:468-488"]}
{"id": "C119", "title": "No data race or deadlock within a signing round, and each of its critical sections counts as one step", "statement": "Take the goroutines of one signing round of the leader with every lock, unlock, read and write of the memory they share as a separate step: the map of cosigners and their parts, the table of share signatures, the ephemeral public key, the two wait groups. Under every schedule: at no time are two goroutines about to access the same memory with one of them writing, although the goroutines of the second half and the main goroutine read the map, the table and the key without any lock; no wait group counter goes below zero and no index is out of range; and the round is indistinguishable from one in which each critical section happens at once: for some such round with the same answers and failures of the same cosigners the map, the wait group counters, and where the main goroutine is agree, and if it goes on to assemble the signature it reads the same table and the same ephemeral public key. Together with the cosigners that answer, every such round comes out as C118 says: as the sequential round of its participants or as `not enough co-signers`, the leader crashing only through its own cosigner; and no schedule deadlocks: where nothing but a timeout can happen any more, nobody holds a lock, every goroutine has ended, and the round is over or waits for peers whose calls have all failed but for fewer than threshold minus one.", "quantifier": "all thresholds of at least one, sets of peers with different identifiers between 1 and the number of cosigners, answers of the cosigners, iteration orders, and all schedules of the single steps of all goroutines, including those that go on after the main goroutine has given up", "why_tests_cant": "The race detector sees only accesses of the schedules that happen to run; the claim is about all of them, including goroutines that are delayed past the end of the round.", "anchors": ["signer/threshold_validator.go:172-191", "signer/threshold_validator.go:193-246", "signer/threshold_validator.go:248-261", "signer/threshold_validator.go:363-437"]}
{"id": "C120", "title": "Exactly these byte strings are taken for sign bytes and for requests, each in one way", "statement": "A byte string is taken for sign bytes of a height, round, step and time exactly if it is a length followed by that many bytes that read as a canonical proposal or, failing that, as a canonical vote of type prevote or precommit, with the last of repeated numbers counting and repeated submessages merged; it crashes the process exactly if it reads as a vote of another type but as no proposal, and is refused otherwise. A connection's bytes are taken for a request and what follows it exactly if they are a length of at most 10240 with that many bytes after it that read as a message with that request as its last member. No byte string is taken for two different things, every protobuf encoding of the fields is among those accepted, and so are some byte strings that are not protobuf (unknown groups whose end has another number, varints with excess bits). A cosigner signs nothing but what is sign bytes in this sense.", "quantifier": "every byte string, every height, round, step and time, every request, every state of a cosigner", "why_tests_cant": "The claim is an equivalence over all byte strings: fuzzing the decoder shows neither that nothing else is accepted nor that everything of the grammar is.", "anchors": ["signer/Serialization.go:ReadMsg", "signer/Serialization.go:UnpackHRST", "signer/local_cosigner.go:sign", "signer/remote_signer.go:handleRequest"]}
{"id": "C121", "title": "elect leaves the cosigner asked for in the lead", "statement": "When horcrux elect with the ID of a cosigner reports success, that cosigner leads; when it reports an error, the leadership has not moved. When elect without an ID reports success, another cosigner than before leads. The call is made at most five times.", "quantifier": "every cluster with agreeing configurations, every leader, every ID, every course of the call and its retries (requests and answers lost, transfers that come about or not)", "why_tests_cant": "The outcome depends on where in a sequence of retried calls an answer is lost and on what raft does with a transfer whose result nobody reads; tests run the call once over a working connection.", "anchors": ["cmd/horcrux/cmd/leader_election.go:45-106", "signer/grpc_server.go:69-88"]}
{"id": "C122", "title": "The timeout in a configuration is the duration written there and bounds the handing over to raft", "statement": "config init and cosigner start accept as --timeout / rpc-timeout exactly the strings that Go's documentation calls durations ('1s', '1000ms', '1.5m'), and a started process has that duration, overflow and signs included, as the timeout of its raft store. Handing a signed block to raft (Set, Emit, Delete) then takes at most that long: it ends with raft having the entry or with an error.", "quantifier": "every string as timeout, all other flags or configurations that are accepted, every time after which raft takes the entry, including never", "why_tests_cant": "The accepted strings form an infinite language with overflow conditions on sums of products, and the wait only shows when raft's main loop hangs; tests use one well-formed duration and a raft that answers.", "anchors": ["cmd/horcrux/cmd/config.go:209-212", "cmd/horcrux/cmd/cosigner.go:112,210,221-222", "signer/raft_store.go:66-76,229,248"]}
{"id": "C123", "title": "Nobody can stop the cluster by shutting raft down through the administration service", "statement": "Whatever is sent to the Shutdown method of the raft administration service that every node offers on its gRPC port, requests for signatures go on to be answered with valid signatures, at every node.", "quantifier": "every byte string, every set of nodes it is sent to, every cluster and state, every sequence of sign requests on any way to the leader, raft records, calls of cosigners and restarts afterwards", "why_tests_cant": "No test calls the administration service; what follows depends on which of arbitrarily many nodes were called and restarted in between and on the way that each request takes.", "anchors": ["signer/raft_store.go:107-113", "signer/threshold_validator.go:298-311", "signer/raft_events.go:39-56"]}
{"id": "C124", "title": "Cosigners that start sign with the threshold their configurations ask for", "statement": "If a key is split with create-shares and every cosigner is started with its share and an accepted configuration that lists the others, then any of them that are as many as the leader's configuration asks for make signatures that verify under the key.", "quantifier": "every key, every threshold and number of shares in create-shares, every threshold in each of the accepted configurations (not necessarily the same), every quorum and leader, every block, all randomness", "why_tests_cant": "Tests use one threshold throughout; which quorums of which thresholds fit which splits is a statement about all polynomials and all subsets.", "anchors": ["signer/cosigner_key_shares.go:CreateCosignerShares", "cmd/horcrux/cmd/cosigner.go:StartCosignerCmd", "cmd/horcrux/cmd/config.go:validateCosignerConfig", "signer/threshold_validator.go:SignBlock", "signer/local_cosigner.go:dealShares"]}
{"id": "C125", "title": "A signature once made is not overwritten", "statement": "The leader makes a signature by appending to the ephemeral public key that its own cosigner returned, which is also the key in the cosigner's record and may be in the hands of several rounds. Whatever happens later in the process, every signature made, the recorded key and the keys of the rounds keep their bytes, and each signature is the key as its round received it followed by the combined share signature.", "quantifier": "every state file as the program writes it, every sequence (of any length) of keys made, recorded keys returned, rounds without the own cosigner's answer, and assembled signatures, every room that Go leaves in the arrays of appended slices", "why_tests_cant": "Whether append writes in place depends on capacities that no test looks at, and the overwritten signature is one that was already handed out; a test would have to keep old signatures and sign again with the same key slice.", "anchors": ["signer/threshold_validator.go:SignBlock", "signer/local_cosigner.go:sign", "signer/sign_state.go:LoadSignState"]}
{"id": "C126", "title": "A cosigner that runs as the documented service comes back, and no chain node keeps it down", "statement": "A cosigner process that runs under docs/horcrux.service is up, or is started again from its state file, unless somebody has asked it to end since the last start; once it has ended because it was asked, it stays down. No chain node can end it again and again.", "quantifier": "every history (of any length) of events of the process under systemd: any number of chain nodes and what they send, signals, requests to the cosigner, background writes, crashes and starts, every scheduling", "why_tests_cant": "It is about all sequences of crashes and starts and all points at which a signal or a crash can come; a test sees one crash of one process.", "anchors": ["docs/horcrux.service", "signer/services.go:WaitAndTerminate", "signer/remote_signer.go:loop", "cmd/horcrux/cmd/cosigner.go:StartCosignerCmd"]}
