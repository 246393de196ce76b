# Formal model of best-partner-tak/horcrux in Lean 4

This directory holds a machine-checked model of the horcrux threshold signer and theorems about it.
`properties.jsonl` lists the properties, `MANIFEST.json` maps each one to its theorems, `seeded/LOG.jsonl`
records the wrong programs the theorems were tested against.

## Layout

* `lean/Verif/Model/*.lean` – executable definitions, one comment per definition citing the Go code it models.
* `lean/Verif/Spec/*.lean` – small independent specifications (orders, abstract map, "differs only by time").
* `lean/Verif/Lemmas/*.lean` – helper lemmas and invariants.
* `lean/Verif/Props/*.lean` – the property theorems only, named `C<nn>_…`, with satisfiability examples beside them.
* `lean/Verif/Axioms.lean` – `#print axioms` for every property theorem (the output is in the build log).

## Modelling conventions

* Error returns are values (`Out.err`), a Go panic is `Out.panic`. `nil` slices are `none`, non-nil `some bytes`.
* `int64`/`int32`/`int8` values are `Int`; every narrowing conversion or arithmetic that can wrap in the code goes
  through an explicit wrap (`i64`, `i32`, `i8`).
* Go maps are functions to `Option` (or association lists where iteration matters); where the code iterates over a map
  the order is a parameter and theorems quantify over it. Slices shared between two map entries are modelled with an
  explicit heap (the nonce records of a cosigner), so aliasing is visible.
* Random bytes are inputs of the operations. Cryptographic primitives are parameters (`Crypto`); theorems that need
  algebra assume `Lawful` and say so; a toy instance of `Lawful` is constructed so the assumption is not vacuous.
* A mutex-protected section is one atomic step; theorems about schedules quantify over all sequences of such steps.
* When the real code violates a property, the negation is proved with a concrete witness history (`…_fails`), and the
  strongest version found to hold is proved as `…_partial`.

## What is modelled

| module (`Model/`) | Go code | what it covers |
|---|---|---|
| `Prim`, `Time` | everywhere | byte strings, nil-able slices, integer wrapping, `HRSTKey.Less`, `time.Unix`/`UnixNano` with wrap-around |
| `SignState` | `signer/sign_state.go` | `Save`, `GetErrorIfLessOrEqual`, `CheckHRS`, `GetFromCache`, cache pruning, `OnlyDifferByTimestamp`, `NewSignStateConsensus` |
| `Wire` | `signer/Serialization.go`, `sign_state.go:287-358`, tendermint's canonical messages | byte-level protobuf encoder (`VoteSignBytes`, `ProposalSignBytes`) and decoder (gogo's generated loop), `UnpackHRST` |
| `Crypto`, `Shamir` | `threshold-ed25519`, `crypto/rsa` | parameters; the algebra of sharing and recombination over an arbitrary field |
| `Cosigner` | `signer/local_cosigner.go` | `sign`, `dealShares`, `getEphemeralSecretPart(s)`, `setEphemeralSecretPart`, `SetEphemeralSecretPartsAndSign`, `SaveLastSignedState`, pruning, the shared `HrsMetadata` slices |
| `Round` | `signer/threshold_validator.go:205-243, 363-453` | collecting answers with the wait group, routing of parts, combination and verification, a whole round |
| `Cluster` | – | several cosigners side by side, any schedule |
| `Validator` | `signer/threshold_validator.go` | `SignVote`, `SignProposal`, `SignBlock` as a small-step machine: any number of concurrent calls, raft events, proxying to the leader, started watermark, cache |
| `Protowire` | google.golang.org/protobuf v1.27.1 `proto/decode.go`, `protowire/wire.go` | the decoding loop of the repository's own messages, for all bytes |
| `Grpc` | `signer/grpc_server.go`, `remote_cosigner.go`, `proto/*.pb.go`, `Cosigner.go` | byte-level encoding of the requests and answers and the conversions on both sides |
| `Disk` | `sign_state.go:135-158`, `local_cosigner.go` | background writes of the state file, crashes, restarts; unlocked field-by-field marshalling |
| `FS` | `sign_state.go:246-284`, `cmd/cosigner.go`, `cmd/config.go`, `cmd/state.go` | load, load-or-create, `cosigner start`, `config init`, `chain-id set`, `state set`, with crash points |
| `Config` | `cmd/config.go` | validation, editing commands, flags, `config init` checks |
| `Start` | `cmd/cosigner.go:174-208` | the local cosigner built from key and configuration |
| `FilePV` | `cmd/signer.go`, tendermint `privval/file.go` | single-signer mode |
| `Json`, `Raft` | `signer/raft_store.go`, `raft_events.go`, `encoding/json` | JSON text, commands, the state machine, snapshots, events, `Join`, `Set`/`Delete`/`Emit` |
| `Remote` | `signer/remote_signer.go`, `Serialization.go` | `ReadMsg`/`WriteMsg` on byte streams, `handleRequest`, the connection loop |
| `Guard` | `signer/PvGuard.go` | the mutex around the private validator, any callers and schedule |
| `Startup` | `cmd/cosigner.go:210-255`, `raft_store.go:100-180` | start-up order against the raft/gRPC goroutine |
| `KeyFile` | `signer/cosigner_key.go`, `cosigner_key_shares.go`, `cmd/key2shares.go` | key files and `create-shares` |
| `Retry` | `signer/threshold_validator.go:363-425` | any number of unfinished attempts at one block |
| `System` | `cmd/cosigner.go:174-255`, `threshold_validator.go:290-477` | all nodes with validator and cosigner: sign requests in sequence (with the lookup of earlier signatures and the waiting of repeated calls), raft events, other calls, restarts. A participant whose process ends in a round counts as one that refuses (when that happens: C103) |
| `StateFile` | `sign_state.go:53-60, 150-158, 244-284` | the text of the state file: `MarshalIndent`, `Unmarshal`, load or create |
| `Lives` | `cmd/cosigner.go:168-255` | all cosigner processes with their state files: any requests, background writes, crashes and restarts on every node |
| `Server` | `grpc_server.go:36-88`, `cosigner_grpc_server.go:37-89` (the same code, unused) | the methods of the gRPC service as functions of the bytes of a call; the library does not recover from panics |
| `Proxy` | `threshold_validator.go:298-311`, `raft_events.go:39-76`, `grpc_server.go:18-35` | a sign request on its way over several nodes to the leader, through the encoders of `Grpc`; the transport delivers what is sent |
| `Membership` | `raft_store.go:129-195`, `grpc_server.go:69-88`, the raft part of `cmd/cosigner.go` | the server list a node bootstraps raft with, and `elect`; the host part of an URL is a parameter; `BootstrapCluster` is modelled from knowledge of hashicorp/raft; the outcome of a leadership transfer is not modelled |
| `Elect` | `cmd/leader_election.go:45-106`, `grpc_server.go:69-88` | `elect` as a call with up to five attempts (the retries of go-grpc-middleware, from knowledge of the library), on top of `Membership`; a transfer of the leadership comes about or not, and the leadership does not change by itself meanwhile |
| `SignPhase` | `threshold_validator.go:192-247,397-425` | the second half of a signing round: table, mutex, wait group, timeout as an event system; the critical section under the lock is one event; the nonces a participant is sent are modelled in `Round`, not here |
| `Node` | `remote_signer.go:64-182`, `threshold_validator.go:89-125`, `cmd/cosigner.go:174-258` | a request from the bytes on a chain node's connection to the bytes of the answer: `Remote` on top of `Proxy` and `System` |
| `Services` | `services.go:11-24`, `remote_signer.go:64-123`, `cmd/cosigner.go:220-256`, tendermint `libs/service`, `libs/os` | the end of a process: the signal handler, the flags of the services, the loops in small steps (`C74_refines`: they are iterations of `Remote`), background writes of `Disk` going on until the exit |
| `StateCmd` | `cmd/state.go:29-146` | `state show` and `state set` as called: home directory, the `pgrep` check (modelled from knowledge of the tool), the printed text |
| `Address` | `cmd/cosigner.go:33-104`, `signer/Config.go:43-72`, Bech32 of `cosmos/btcutil` and `cosmos-sdk/types/bech32` (from knowledge of the code) | the hash of the address is a parameter; keys of other kinds are errors |
| `PrivFile` | `signer/cosigner_key_shares.go:14-52` `ReadPrivValidatorFile`, `tmjson.Unmarshal` into `privval.FilePVKey` (from knowledge of the library) | sr25519 keys are of unknown type |
| `Modes` | `signer/cosigner_key_shares.go:54-61`, `sign_state.go:144-160` | permission bits of the files written (POSIX rules for new, existing and renamed files); owners and directories are left out |
| `Gather` | `threshold_validator.go:172-191,249-261,363-395` | the goroutines of the first half of a signing round, with the one that waits for the wait group; that calls to peers end (after 4 seconds at the latest) is left to the schedule |
| `Whole` | `threshold_validator.go:172-261,363-425` | both halves of a signing round with their goroutines and the cosigners that answer, as one event system; a call returns what the cosigner answered or fails, except that the leader's own cosigner is called directly; each cosigner serves a request in one go and gets only the requests of this round |
| `RoundMem` | `threshold_validator.go:172-261,363-425` | the same goroutines, with every lock, unlock and access of shared memory a step of its own, and the accesses each goroutine is about to make; what the calls return is arbitrary. A peer's parts in the map are not kept apart from its presence there; the reads of the map by a participant's goroutine (lines 206-222) are one step, those of the main goroutine one per iteration of line 412 |
| `WholeMem` | `threshold_validator.go:172-261,363-425` | `RoundMem` together with the cosigners that answer, as in `Whole`: a call returns what the cosigner answered, or fails; a participant's request is served some time after its goroutine has read the map. Simplified as `Whole` |
| `Url` | `remote_cosigner.go:49-57`, `raft_store.go:87-96,129-135`, `cmd/leader_election.go:51-74`, `remote_signer.go:75-76`, `net/url.Parse`, `net.SplitHostPort`, `tmnet.ProtocolAndAddress` (from knowledge of the libraries) | what becomes of the addresses in a configuration, down to the string handed to the network library; resolving and dialling are not modelled; of a URL only the host and whether there is an error |
| `Shared` | `cmd/cosigner.go:158-230`, `raft_store.go:87-203` | several processes with one home directory: loading the state file, the port, the lock of the raft log (`raft-boltdb`, from knowledge of the library: waits without limit), background writes, ends |
| `Locks` | `PvGuard.go:15-37`, every `Lock` and `Unlock` in `signer/`, `remote_cosigner.go`, `raft_events.go:58-76`, `raft_store.go:205-231,294-354` | only the order of locks, accesses to memory, calls and new goroutines; what is done between them waits for nothing. Remote calls may be given up at any time; the waits of 4 seconds for enough answers are no waits, because they end by themselves. Memory is that of a running node: the variables of a round are covered by C31 and C71, those set once at the start by C57; slices that are never written again after they were made are not memory |
| `Timed` | `threshold_validator.go:290-477`, `raft_events.go:39-76`, `remote_cosigner.go:30` | the calls of `SignBlock` on all nodes (each a `VState`) with a clock in milliseconds: every wait has an earliest and a latest time, and time cannot pass the latest time of a call that has not returned. Parameters: the longest time of a local step (computing, or waiting for a mutex) and of an emission. A half of a round ends at any time up to its limit; a request is delivered at most once |
| `Overlap` | `threshold_validator.go:89-125,193-243,290-477`, `raft_events.go:28-76`, `grpc_server.go:18-35`, `local_cosigner.go` | the whole cluster with everything at once: the calls of all validators (`Validator`), the steps of all cosigners (`Cosigner`), answers, requests passed on, raft events, restarts, in any order. More can happen than in the code: see the head of the file. After a panic a process goes on |
| `Program` | `cmd/root.go:27-67`, and every command of `cmd/` up to its use of the configuration | runs of the program: the global pointer `config`, which file viper finds (`SupportedExts` of viper 1.8.1, from knowledge of the library), nil dereferences; the commands themselves are those of `Config`, `FS`, `StateCmd`, `Address`. Environment variables are in `Env`, `signer start` and `elect` end as given after their checks |
| `Single` | `cmd/signer.go:30-97`, `remote_signer.go:64-182,219-234` | the single signer from bytes to bytes: a loop of `Remote` for each chain node on one `FilePV`. An iteration is one step (the guard lets the calls in one after the other, C49) |
| `Conns` | `remote_signer.go:58-123` | the connections the loop of a remote signer opens and closes, over the steps of `Services`; a dial that fails is told from a handshake that fails. What the garbage collector closes is not modelled |
| `Admin` | `raft_store.go:109`, and `ApplyLog`, `AddVoter`, `AddNonvoter`, `DemoteVoter`, `RemoveServer` of github.com/Jille/raftadmin v1.2.0 | the bytes of the requests (messages from knowledge of the library), the entry that the leader puts into the log and the changes of the raft configuration, which raft commits; what the entry does is `Raft` and `System`. `Shutdown` is in `Halt`, the other methods of that service are left out |
| `Replica` | `raft_store.go:34-36,137-194,291-390` | the raft stores of all nodes over one committed log. Of the library (hashicorp/raft): entries are applied in order, a snapshot counts if `Persist` returns no error, the newest two are kept, the log is cut below the newest, a node starts from its newest snapshot and may be given that of another. Snapshots on disk stay readable |
| `Migrate` | `docs/migrating.md:73-176`, `cosigner.go:151-157` | the steps of the migration guide on a node, as a composition of the commands of `FS` and `KeyFile` with state files as texts |
| `Env` | `cmd/root.go:35-60`, `cmd/config.go:520-615` | the configuration file as a tree of YAML values, read by viper 1.8.1 (mapstructure) with the environment and then by yaml.v2 (both from knowledge of the libraries). Keys without dots, no two equal up to case; no anchors, merges, floating-point numbers or dates. The text of the file is not modelled |
| `Duration` | `cmd/config.go:209-212`, `cmd/cosigner.go:210`, `raft_store.go:229,248`, `time.ParseDuration` (Go 1.17) and `raft.Apply` up to the queue (both from knowledge of the libraries) | the text of the timeout and what it is for; the one floating-point computation, the nanoseconds of a fraction, is a parameter; raft is not shut down meanwhile |
| `Halt` | `raft_store.go:107-113`, `threshold_validator.go:298-311`, `raft_events.go:39-56`, and `Shutdown` of github.com/Jille/raftadmin v1.2.0 | nodes whose raft was shut down, in the cluster of `Proxy`. Of raft: there is a leader only while more than half of the members run it, and only those lead or know the leader. A leader without a majority notices at once; no request is under way at the shutdown |
| `KeyMem` | `threshold_validator.go:410,447-448`, `local_cosigner.go:179,207,225,248`, `sign_state.go:246-265` | the arrays behind the ephemeral public keys and signatures of a process, Go's `append`, and the room that `encoding/json` leaves (from knowledge of the library). Everywhere else slices are values; C125 says why that is right here |
| `Torn` | `signer/sign_state.go:131-161` | any number of goroutines marshalling the state field by field while saves run; a field is read and assigned in one step |
| `Unit` | `docs/horcrux.service:9-11`, `cmd/horcrux/main.go:20-22` | systemd's `Restart=on-failure` around the process of `Services`: started again exactly after a status other than 0. systemd is modelled from its documentation; waiting times and the start limit are left out, every start succeeds |

Not modelled: `cmd/version.go`, `cosigner_grpc_server.go` (a copy of `grpc_server.go` that nothing uses), the methods of the raftadmin service other than `ApplyLog`, `AddVoter`, `AddNonvoter`, `DemoteVoter`, `RemoveServer` and `Shutdown`, the reflection and
leader-health services registered next to horcrux's own on the gRPC server (`raft_store.go:107-110`), the secret
connection, TCP, gRPC transport and retries, raft's consensus itself, timeouts as durations except in `Timed` (elsewhere a timeout is a failing
call), logging and metrics. `/repo`'s tests are not used.

## Plan per property


| id | model | proof |
|----|-------|-------|
| C01–C04 | `SignState.save/checkHRS/getFromCache` on integers and nil-able slices, cache as a finite map | decision lemmas; invariant by induction over the list of saves; cache characterised against an independent history specification |
| C05 | byte-level protobuf decoder of CanonicalVote/CanonicalProposal (gogo generated loop), `onlyDifferByTimestamp` | iff with "decodes and equal except time", for all byte strings |
| C06–C08 | byte-level encoder of tendermint's canonical messages, `UnpackHRST` | encode/decode round trip by induction on varints and the field loop; C08 fails for nil votes at the Unix epoch: witness plus `_partial` with exactly that case excluded |
| C09 | `UnpackHRST` with panics | fails (unknown vote type): witness; `_partial`: panics only for that case |
| C10, C11 | cosigner state machine over get/set/sign/raft steps | invariant over the release history |
| C12 | same | fails for the ephemeral key after a timestamp re-sign, and for re-signed requests when parts come in between: witnesses; `_partial` for recorded and for re-signed requests; exact condition for the latter (`C12_resigned_exact`) |
| C13, C14, C58 | same, with nonce heap | fail (trailing bytes, re-sign with new peer parts, set without get, zero-time aliasing): witnesses; `_partial` theorems |
| C15–C18, C20 | `setEphemeralSecretPart`, `GetEphemeralSecretParts`, `sign` | functional characterisation; C16 fails (signature does not cover HRST): witness; C20 fails for IDs above the number of configured cosigners: witness plus `_partial`, and the exact condition (`C20_exact`) |
| C19 | `HRSTKey.Less` | order laws |
| C21 | whole round: get-parts, routing, set-and-sign, combine, verify, over `Lawful` crypto | algebra over an arbitrary field (Mathlib Lagrange) composed with the functional model |
| C22, C23 | Shamir sharing over an arbitrary field | Lagrange interpolation |
| C24, C25 | n cosigner machines, quorum intersection; `validateCosignerConfig` | C10 + pigeonhole; C25 fails: witness |
| C26–C30, C33, C34 | `SignBlock` as a concurrent state machine (calls × validator state × raft events) | invariants over all schedules; C26 fails in three ways: witnesses plus `_partial` |
| C31, C32 | collection of answers under any arrival order; routing of parts | induction over arrivals |
| C35 | proto conversions with integer narrowing, `time.Unix`/`UnixNano` | round-trip laws |
| C36–C38 | in-memory state + outstanding background writes + file; crash = memory lost | C36, C37 fail: witnesses; `_partial` for flushed / in-order writes and, exactly, for deaths while the file is not below anything released (`C36_covered_partial`, `C36_needed`, as an equivalence `C36_exact`); under any scheduling the file holds the record exactly if it is at the height, round and step in memory (`C37_exact`); C38 invariant, and with any number of goroutines marshalling at the same time: mixtures that stay (`C38_mixed_fails`, `C38_below_fails`), the height never above memory (`C38_height`), at rest at or above everything released if no write lowers the file (`C38_covers_partial`), exactly the state in memory if they work one after the other (`C38_settles_partial`). `C36_node_fails`: under the documented service a chain node can bring the crash about with one malformed request |
| C39–C41, C56 | file-system model of the commands, with crash points | case analysis; C41 fails: witness |
| C42–C46 | FSM over command logs, snapshot/restore, membership list | refinement to an abstract map; induction |
| C47, C48 | request dispatcher and connection loop | case analysis, induction on the stream; C48 fails: witness |
| C49 | lock state machine | invariant over all schedules |
| C50–C53 | config functions on lists and strings | induction, pigeonhole, string round trip; C52 fails: witness |
| C54, C55 | share creation with uint8 narrowing; key file as JSON text | C54 fails above 255: witness plus `_partial`; C55 by the JSON and protobuf round trips |
| C60 | editing commands | fails for `peers remove`: witness plus exact condition |
| C61 | `create-shares`, key files, start and a round composed | C54 + C55 + C21 |
| C62 | `config init` checks | equivalence with independently stated conditions on the flags |
| C63 | whole cluster over sequences of requests | C21 for states with nonce records, and the invariant that no watermark or record is above the last block |
| C64 | steps of unfinished attempts, then a request | invariant relating all nonce records to one nonce per cosigner; fails for another quorum, after a restart and for the same leader: witnesses plus `_partial`; for attempts with any participants each, the last request is answered with a signature just if the old and new share signatures fit one split (`C64_exact`, an invariant that keeps for each cosigner the participants it signed for), and with one old signature just if it is the one of now (`C64_one_signed`); with restarts between the attempts the same holds of the answers recorded (`C64_restarts`, `C64_restarts_one_signed`), and with no record among the participants the request is answered with a signature (`C64_restarts_unsigned`) — invariant per cosigner: nothing, nothing after a restart, or a record in which each slot is from some dealing of its owner |
| C65 | JSON text printer and parser with two-space indentation, base64, upper-case hex | induction on members; the text has one closing brace, at its end |
| C66 | joint histories of processes with files | projection to one process (C36), quorum intersection; fails for a death before the write: witness in a correctly dealt 2-of-3 cluster plus `_partial`; the bound `n + f < 2t` is exact (`C66_needed`: for every n, t, f beyond it, every pair of conflicting sign bytes). `C66_node_fails`: chain nodes of `f` cosigners that send one malformed request each are enough (every history of C36 is one of a process under the documented service: `C36_node_any`) |
| C67 | one hop after the other | a node's calls do not see each other (marking a call commutes with every step), so each hop leaves the state alone; then C35 and C63 |
| C68 | permutation of lists | each list is the node in front of the others; `checkConfiguration` does not see the order; the exact condition under which a first start has a raft configuration |
| C69 | induction over the peers | the loop finds the peer with that decimal ID; decimal notation is injective |
| C70 | a second round over the records of the first | after a round every participant holds share, ephemeral key and nonces; a second round with the same participants gives the same shares (C64's invariant keeps the nonces), hence the same signature |
| C71 | invariant of the second half over every schedule | the table is a function of the first outcome of each participant, wait group counter = outstanding calls + due `Done`s; exact condition for a panic by constructing the schedule in which a given peer joins (`C71_exact`); `C71_shareArray` shows that the table is the `shareArray` of the model of a whole round |
| C72 | composition of the round (C21, C64) with the reuse of a nonce record (C13) and interpolation (C22) | the attacker is a formula (`Spec.keyFrom`) over answers, messages and public key; for the positive part other nonces are exhibited that explain the same share signatures with any other key share |
| C73 | `Remote`, `Proxy` and `System` put together; induction over the sequence of events | round trip of the messages (C47), blocks of the messages (C06, C63), passing on (C67), rounds (C21, C63) |
| C74 | invariant over the histories of a process: services stopped so far; potential of a stopped loop; projection on the histories of C36 | the loop in small steps refines the iterations of `Remote`; what an orderly end leads to, exactly: `C74_exact` |
| C75 | case analysis of the commands; the printed text is compared with a specification written with strings and `toString` | injectivity line by line |
| C76 | the checksum loop is division by the BCH polynomial over GF(32), which is linear; regrouping of bits by induction over the bytes; the output is read back with the JSON parser | the specification divides polynomials, the model shifts and masks |
| C77 | the JSON texts of a key file, with any white space, are an inductive relation; the parser is shown to read each of them; joined with C54 and C61 | the indented text a chain node writes is shown to be one of them |
| C78 | the protobuf wire format as an inductive relation (all wire types, nested groups, any varint encoding); the generated decode and skip loops are shown to step over unknown fields | general: for every message, every extension, every cosigner state |
| C79 | a grammar of JSON, base64, hexadecimal and decimal integers as inductive relations, independent of the reader; soundness and completeness of the reader by induction on its fuel and on derivations | general: `readState` accepts exactly the texts of the grammar, for every byte string and nesting depth |
| C80 | the grammar of C79, names equal up to case as an inductive relation; the fields of the struct are set independently; the public key by the grammar of C120 | exact for files without duplicate names (`C80_exact`); failures for every key |
| C81 | runs of the cluster model; `Mislabelled` blocks; the decoding of gRPC requests | refusal in every cluster whose participants hold nothing for the sign bytes; general failures |
| C82 | runs of the cluster model with repeated votes; an invariant over the records and nonce keys of all nodes (`TimesInv`) | one round with participants that sign anew over an older record of the same block (`signBlock_core`); blocks of votes (C05) |
| C83 | runs of the cluster model (C82), and the bytes of the chain node (C73) | the attacker is a formula (`Spec.privFrom`) over two signatures, messages and public key; for the positive part the origin of every nonce is followed through the rounds |
| C84 | runs of the cluster model with any events and no assumption on the cryptography | what a sign request can do (`Signed`), quorum intersection, and a set of known signatures that covers what all validators remember (`Passed`) |
| C85 | the bytes of one request (C73), then runs as in C84 | after the request a quorum has passed the block; C84's invariant does the rest |
| C86 | runs of the cluster model with any events and no assumption on the cryptography; `OnlyBrings` says what raft and the files bring | an invariant over the records of all validators and what they have sent to raft (`Knows`) |
| C87 | permission bits as nine-bit vectors; the contents come from C54 | bit by bit for any umask; the failure is joined with the recovery of the key from the files (C54) |
| C88 | the goroutines of the first half of a round as an event system on top of that of C31; rest means that no event changes anything | invariant (`GatherInv`) over any schedule; the second half from the invariant of C71 |
| C89, C90, C91 | the documented form `scheme://host:port` as a grammar, independent of the parser (`Names`, `NamesV6`, `Dialable`); and for all strings, a grammar of the URLs the library takes with the host each has (`Spec/UrlText`: `UrlText`, `Endpoint`, `NetworkAddress`) | the parser on that grammar, and equivalent to the full grammar (`urlHost_iff`, structural induction); an exact characterisation of `SplitHostPort`, C68 and C62 for clusters and `init`; witnesses for other forms |
| C92 | watermarks after `state set` and `start`, and the share signatures of all runs that follow | C41 and C39 on the file-system model, then C11; witnesses for a moved home directory and an early exit |
| C93 | schedules of both halves of a round with peers that answer, fail, or answer only the first call | C31 for the participants, C71 for the table, C63 for the result; counting the table for the negation, which holds for all sizes and thresholds |
| C94 | all runs of a process from its start, and any number of calls for secret parts from any state | step lemma on which records appear and disappear, induction on the run; counting keys per call; C63's lemmas on `getParts` for the negation |
| C95 | all interleavings of any number of processes | invariant on lock, ports and stages; simulation by the lives of one process (`AsOne`), then C36; `C95_needed` from the lemmas on honest rounds |
| C96 | all interleavings of the goroutines of all nodes, with requests arriving at any time | an order on the mutexes (`Mutex.rank`) that every program keeps to, an invariant relating owners and what is held, no circle by the order; the size of what is left decreases |
| C97 | the same executions; a race is a state in which two goroutines are about to access the same memory, one of them to write | each program accesses memory with a mutex that belongs to it, or is one of three kinds of reads (`Mem.Loose`); witnesses for those |
| C98 | all runs of `Timed`, any number of nodes and calls, all parameters | invariant per call: what it waits for, and its latest time relative to its start; time can always go on, by a rank of forced steps; runs that reach the limits |
| C99 | the same runs, calls that were passed on | invariant: why such a call has ended, and what the call it was passed on to has returned (with C35) |
| C100 | the same runs, calls that wait for another | one step of the waiting call, and the record stays (as in C29); witness |
| C101 | all encodings of a request (`Spec/Encodings.lean`: a grammar of fields with other fields anywhere), all streams | induction over the encoding: reading it is putting its fields one after the other; the encodings written by tendermint are among them (`C101_own`) |
| C102 | all runs of the cluster from bytes to bytes (`Sys.runNode`), constrained only by `Bears` (`Spec/NoConflict.lean`) | invariant (`Safe`): the messages for block `k` whose signatures exist are each held by `t` cosigners, minus the faulty ones; two quorums share one that is not faulty, so they differ only by time; lifted to what is read with facts about what the parser can return (`Lemmas/Received.lean`). `C102_lost_file_fails`: with `n + f = 2t` it is false |
| C103 | the methods of the gRPC service on bytes (`Server`); reachable cosigner states; a round of the cluster | exact condition for the cosigner's methods (`C103_served_partial`), also when calls overlap (`C103_overlapping_partial`); false: `C103_fails`, `C103_leader_fails` |
| C104 | the decoders of `Grpc` and `Server` on `Protowire`; all byte strings | equivalence with a specification of the wire format (`TakenFor`, `SaysBits`, …) for each message; the specification is functional and contains all encodings protobuf allows (`C104_fields`) |
| C105 | all runs of `Net` in which every step is `Granted` (`Spec/Overlap.lean`) | invariant (`NSafe`): every signature for block `k` that exists anywhere was made of `t` answers over its sign bytes; every such answer is by a faulty cosigner or is held by its cosigner; two quorums share a cosigner that is not faulty. `C105_covers`: requests served one after the other (`System`) are among these runs |
| C106 | all runs of `Net`, then all runs of allowed steps (`Allowed`, `Spec/Meanwhile.lean`) from a state in which the leader and the participants know nothing of the block nor of later ones | invariant (`MInv`): a step about a lower block leaves the nonce record of the block and its key alone (`lower_keeps`), so each participant holds the record of its own deal and of the parts it was sent; every answer of a participant over the sign bytes is the right share; the leader never holds a mark above the block. Progress: the missing steps of the round are allowed at every moment |
| C107 | one run of the program (`Program`) on any machine | case analysis of all commands against the table of what each checks first (`Spec/Program.lean`); exact condition for a crash (`C107_exact`); false: `C107_fails`, `C107_single_fails`, `C107_repair_fails` |
| C108 | sequences of runs of the program | `C108_partial`, `C108_sequence_partial` (induction over the commands, refines `runCmds` of C60) if no `config.json`/`config.toml` shadows `config.yaml`; `C108_fails` otherwise |
| C109 | calls of `ApplyLog` (`Admin`), then runs of the cluster (`System`) | `C109_partial`: entries without records above the blocks signed before do no harm; `C109_refused`: only the leader puts anything into the log; false: `C109_fails` (with the quorum argument of C84), `C109_junk_fails` (with C86) |
| C110 | runs of the raft stores of all nodes (`Replica`) | invariant: memory, the snapshot being written and all finished ones have the contents of a prefix of the log, and nothing above the newest snapshot is cut off |
| C111 | the same runs | invariant over runs for nodes that get no snapshot and whose files keep up (`C111_partial`); exactly which blocks a node knows (`C111_exact`); false: `C111_fails`, `C111_restart_fails` |
| C112 | sequences of calls of the administration service (`Admin`) | induction over the calls (`C112_partial`), over the members (`C112_fails`); the configurations that can be reached, exactly (`C112_exact`); what each call does, exactly (`C112_call`) |
| C113 | runs of the single signer from bytes to bytes (`Single`), any number of chain nodes | invariant (`Holds`): the sign state is that of a message with its signature; nothing is given below the last block, and for it only the bytes held. False with restarts: `C113_fails`, for every key and state file |
| C114 | runs of the loop with its connections counted (`Conns`) | invariant: open = the one it holds + failed handshakes (`C114_exact`). False with failed handshakes: `C114_fails`, any number of connections; `C114_partial` without them; `C114_reconnects` |
| C115 | the guide as a composition of the commands | C62 and C56 for the configurations, C77 for the shares, C79 for the state files, then C73; an invariant of `Disk` for what is never signed |
| C116 | requests at one height, round and step to one leader (`System`) | the leader's record answers, and the whole cluster stays as it is (`C116_partial`); false: `C116_fails`, by C82 for any number of requests |
| C117 | YAML trees and environments (`Env`) | viper looks for the Go names of the fields, which the tags in the file never are, so it finds nothing; yaml.v2 reads back every field (`C117_written`, `C117_sequence` by induction, `C117_file_only`). `C117_chainID`: when a variable does count |
| C118 | the whole round as an event system (`Whole`) on top of those of C88 and C71; the sequential round is the one of C21 | invariant over any schedule (`WholeInv`): what each cosigner has answered and its state are those of the sequential round so far (`C118_serial`); `C118_crash`, and with C21 `C118_signs`; the states in which no event but a timeout changes anything (`C118_rest`) |
| C119 | single accesses and locks (`RoundMem`) | refinement: each step is none or one step of `Gather` or `SignPhase` (`GetSim`, `SignSim`), which also gives who holds which lock and who has ended (`C119_atomic`, `C119_race`). With the cosigners (`WholeMem`) it is a refinement of `Whole` (`WholeSim`), so C118 carries over (`C119_serial`, `C119_crash`, `C119_signs`), and whoever holds a lock can go on, so nothing deadlocks (`C119_rest`). This justifies that C71, C88 and C118 take a critical section as one step |
| C120 | the decoder of `Wire` and `Remote` against a relational grammar (`Spec/Gogo.lean`) of what gogo's generated code accepts: varints of up to ten bytes with excess bits, unknown fields skipped without matching group numbers, last number counts, submessages merge | general equivalence by strong induction on the input (`decode_iff`), then one equivalence per message; it also makes C05 (`C05_bytes`) and C80 (`C80_exact`, files without duplicate names) statements about bytes |
| C121 | `elect` with its retries | fails (a retry after a lost answer moves the leadership away again; the result of the transfer is not read; own ID; errors): general witnesses; exact condition: parity of the number of handled attempts, by induction on the attempts; exactly which attempts are made and when success is reported |
| C122 | the timeout | the language of durations exactly, by induction on the terms of the text (both directions); fails for durations that are not positive (`raft.Apply` runs no timer then): general witness; exact condition: positive |
| C123 | calls of `Shutdown` (`Halt`), then requests on any way to the leader (`Proxy`) | fails: general witnesses; `C123_partial` and the exact condition by induction on the way of a request and on the events |
| C124 | `createSharesCmd`, `startCfg` and `signRound` with two thresholds (`Wired`) | fails for a smaller threshold in the configurations, and for different thresholds: general witnesses; `C124_partial` (quorums as large as the split and all their thresholds ask for), exact conditions for a round (`C124_round`, `C124_exact`, `C124_uneven`) and for all quorums (`C124_quorums`) by Lagrange interpolation |
| C125 | any run of one process (`KeyMem`) | invariant: every key's array has room for less than 32 bytes, so `append` always copies; induction on the run; length of base64 by induction on the text. `C125_needed`: with more room the second signature overwrites the first. Assumed of the library (`Tight`): `AddElements` returns a slice with room for less than 32 bytes (it returns a whole 32-byte array), `CombineShares` returns 32 bytes |
| C126 | any history of a process under systemd (`Unit`) | `C126_back`, `C126_exact`: without a signal since the start the trap goroutine waits, so the process can only have ended by a panic, status 2; down for good exactly after the orderly end. False in part: `C126_fails`, a chain node that sends a malformed request on every connection ends every life of the process within five steps of its loop (invariant on where that loop can be). `C126_partial`: without malformed requests and aborting cosigner requests the process never ends unasked |
| C57 | start-up as two threads | fails: witness schedule plus `_partial` |
| C59 | single signer start-up with empty state | fails: witness |

## Trusted base

1. Lean's kernel. No axioms are added and there is no `sorry`, `native_decide` or `bv_decide`. `Verif/Axioms.lean`
   prints the axioms of every property theorem; all use at most Lean's standard `propext`, `Classical.choice` and
   `Quot.sound`.
2. The correspondence between the definitions in `Model/` and the Go code, by reading. Every definition cites file and
   lines.
3. What the model says about code outside the repository. It was written from knowledge of these libraries, because the
   sandbox has no copy of them:
   * *gogo/protobuf* (tendermint types): the generated `Unmarshal` loop, unknown fields skipped, wrong wire types are
     errors, varints of at most ten bytes; `protoio.UnmarshalDelimited` ignores bytes after the message, the delimited
     reader refuses messages over 10240 bytes. *google protobuf* (the repository's own messages,
     v1.27.1): `Model/Protowire` is its decoding loop; fields of a wrong wire type count as unknown, groups are skipped to
     their end, `string` fields must be UTF-8. Its encoder also refuses such strings; in the model only the receiver does,
     with the same effect on the caller.
   * *tendermint v0.34*: canonical vote and proposal, `CanonicalizeBlockID` panics for hashes that are not of length 0 or
     32, invalid timestamps panic in `VoteSignBytes`; `FilePV` signing rules; `LoadFilePVEmptyState` ignores the state
     file; `tmjson` writes and reads as `Model/StateFile` says (C65 proves that nothing is lost; the parameter
     `om` covers both readings of `omitempty` for empty, non-nil slices); `tempfile.WriteFileAtomic` is atomic.
   * *threshold-ed25519, edwards25519, crypto/rsa*: total functions (`Crypto`), panics inside them are not modelled.
     Theorems that need more assume `Lawful` (dealing is Shamir sharing, combination is Lagrange interpolation, signing
     and verification are the Schnorr equations, `ScalarMultiplyBase` of a 32-byte string is the multiple of the base
     point), `LawfulRSA` (decryption inverts encryption, verification accepts signatures) and `RSACodec.Lawful` (PKCS#1
     encodings read back). `Lemmas/ToyField` builds an instance, so the assumptions are satisfiable. The digest signed
     with RSA is represented by the triple that goes into it.
   * *encoding/json* (Go 1.17): printing, parsing, case-insensitive field names, base64, hex, `null`, the limit of
     10000 nested values. `HexBytes` and tmjson's quoted integers are read from the text as written, where an escape is an error.
   * *net/url, net* (Go 1.17): `url.Parse` and `net.SplitHostPort` as `Model/Url` says (used by C89-C91; theorems about
     configurations before them hold for any parser). `tmnet.ProtocolAndAddress` splits at the first `://`.
   * *strconv, strings, path, yaml*: `ParseInt`, `Split`, `Join`; a truncated YAML file is unreadable, has no cosigner section
     or has the complete leading fields; `path.Join` may map different chain IDs to one file but never a state file of one kind
     to the other kind.
   * *hashicorp/raft*: committed entries are applied in order on every node; `RemoveServer`/`AddVoter`/`AddNonvoter`/`DemoteVoter` follow
     `nextConfiguration`/`checkConfiguration`; no concurrent membership change during a `Join`.
   * For C96: raft applies or refuses an entry that was handed to it, one call of the state machine at a time; a request is
     forwarded from node to node finitely often.
   * *grpc-go* does not recover panics. *sync.Mutex*, *sync.WaitGroup* as documented. Reads and writes of a pointer are not torn.

### Assumptions of single theorems

Hypotheses are stated in the theorems and explained in their comments. The ones that matter most:

* C24 speaks about signatures assembled from share signatures that honest cosigners released (`FullSignature`); that
  nobody else can make such shares is unforgeability and is not modelled.
* C26 assumes that the records in the loaded state file and in raft events carry valid signatures. A file that was written
  by overlapping goroutines need not (`C37_swapped_fails`, `C26_swapped_fails`).
* C13, C14, C58 partial theorems assume the order of calls that the threshold validator uses (get parts, then set and sign).
* C37 and the `_idle_` forms of C36 and C66 assume that no background write overwrites a newer file; `C36_covered_partial` and
  `C66_covered_partial` only assume that at each death the watermark in the file is not below anything released.
* The model behind C36, C37 and C66 (`Disk`, `DState`) takes marshalling as one step. What the unlocked marshalling adds is in
  `Torn`: `C38_mixed_fails`, `C36_mixed_fails`, `C37_swapped_fails`; `C38_covers_partial` says when C36 survives it.
* C21, C61: all participants answer, and none has a record at or above the block.

## Where the code violates a property

Each has a theorem `…_fails` with a concrete witness, and a `…_partial` theorem with what does hold.

| id | what goes wrong |
|----|-----------------|
| C04 | loaded states with one of the three lowest int64 heights (which no chain reaches): the eviction bound `height - 3` wraps around and the saved block itself is dropped from the cache |
| C06, C08 | the sign bytes of a nil precommit or prevote at exactly the Unix epoch decode as a proposal if the chain ID happens to parse |
| C09, C48 | an unknown vote type, a missing vote or proposal or a hash of a wrong size aborts the process |
| C12 | after a re-signed timestamp the recorded request is answered with the newer ephemeral key; a re-signed request gets another signature once parts for its block came in between (`C12_parts_fails`) |
| C13 | bytes after the delimited message are part of the signed message but not of the comparison: two messages with one nonce |
| C14 | set-parts without get-parts: the share does not contain the own nonce contribution |
| C16 | the source signature of a part does not cover height, round, step and time: parts can be replayed |
| C17 | a concurrent signature of a higher block between two parts of one call: parts of two deals |
| C20 | a configuration that lists only some cosigners: requests from higher IDs index out of range |
| C25 | thresholds up to n are accepted whatever n, also zero and negative ones |
| C26 | a re-timed vote can return success without a signature (exactly when: `C26_no_signature`); a different proposal gets the recorded signature; after a restart from a file that overlapping goroutines have left, a repeated request gets the signature of the block before (`C26_swapped_fails`) |
| C29 | a record brought by raft is not used by the leader's path |
| C36, C37 | the state file is written in the background: it can be lost or be overwritten by an older one; the ephemeral key of a re-sign is not written. Not only in the witnesses: `C36_every_fails`, `C37_resign_fails`. The state is marshalled without the lock: files that stay and are behind (`C36_mixed_fails`), or have the watermark and sign bytes of one block and the signature of the one before, which a restarted cosigner or leader then gives out (`C37_swapped_fails`, `C26_swapped_fails`). `C36_node_fails`: under the documented service a chain node can bring the crash about with one malformed request |
| C38 | the state is marshalled without the lock: a file can mix two states, and the mixture can stay after every goroutine has finished (`C38_mixed_fails`), below both blocks that were saved (`C38_below_fails`), so that a restart signs for the first again (`C36_mixed_fails`) |
| C40 | `chain-id set` uses `--home`, `start` the configured `home-dir` (exactly what is read then: `C40_home_exact`) |
| C41 | `state set` to a lower height reports success and does nothing; the write may not happen before the exit |
| C52 | only the last chain node address is validated |
| C54 | threshold and number of shares are cut to a byte: 257 shares make one file; threshold 257 hands the whole secret to everyone |
| C57 | gRPC registration or a raft event before `SetThresholdValidator` panics |
| C58 | the nonce record is kept under the nanosecond count of the time in an `int64`, which wraps outside 1678–2262: two valid votes 2^64 ns apart are signed with one nonce (`C58_wrap_fails`; C83 for what follows); the zero time aliases with another record (`C58_alias_fails`) |
| C59 | the single signer ignores its state file at start |
| C60 | `peers remove` can leave fewer cosigners than the threshold |
| C64 | after a failed attempt that one participant has signed, another quorum, or the same one after a restart of a participant, cannot sign the block; the same leader never tries again and times out |
| C66 | one cosigner killed once, between its answer and its background write, is enough for two valid full signatures over different blocks at one height, round and step. `C66_node_fails`: chain nodes of `f` cosigners that send one malformed request each are enough (every history of C36 is one of a process under the documented service: `C36_node_any`) |
| C68 | a node that lists its own ID or one address twice starts, and silently has no raft configuration (the result of `BootstrapCluster` is dropped); on a restart, changed peers never reach raft |
| C69 | an unknown ID, or the ID of the leader itself, is no error: the leadership is moved to an arbitrary other server |
| C70 | a cosigner that got the record through raft answers with the whole signature as its share: a new leader that did not take part in the first round cannot serve the block again |
| C71 | thresholds below one (accepted, C25) panic in `WaitGroup.Add`; an accepted configuration that lists only some peers makes the table too short for the ID of a peer, whose answer then panics with an index out of range |
| C72 | after a round, two calls of `SetEphemeralSecretPartsAndSign` without parts to each participant, for the signed bytes and for the same bytes with trailing bytes, give two share signatures with one nonce; their difference divided by the difference of the challenges is the key share, and the combined shares are the private key of the validator (`C72_fails`) |
| C74 | the cosigner answers its peers after `Stop` was called on every service, and the process exits without waiting for the write of the state file: after a new start it signs another block at the same height, round and step (`C74_fails`; for every history that leaves the file below a block, `C74_behind_fails`) |
| C74 | a loop that dials does not look at the flag: while the chain node cannot be reached it never returns (`C74_dial_fails`) |
| C75 | `state set` looks for running processes with `pgrep horcrux`, which finds the command itself: called by its own name it always refuses (`C75_self_fails`) |
| C75 | with `--home`, `state set` and `state show` refuse if the directory exists, and find nothing if it does not (`C75_home_fails`) |
| C76 | `cosigner address` refuses no argument: for the empty one the consensus key is JSON, for one with a capital letter the strings are in mixed case and no wallet reads them (`C76_fails`) |
| C76 | the argument that `docs/migrating.md` gives (`cosmosvalcons`) yields an address with another prefix (`cosmosvalconsvalcons`) (`C76_doc_fails`) |
| C76 | a key of a wrong length is accepted in the amino encoding and crashes the command (`C76_panics`) |
| C77 | `create-shares` accepts a file whose public key does not belong to its private key: every key file then carries a public key the shares do not sign for (`C77_mismatch_fails`, `C77_unchecked` for all such files) |
| C77 | a secp256k1 key is split as if it were an ed25519 key (`C77_kind`) |
| C77 | a file without `priv_key` makes the command panic (`C77_panics`) |
| C78 | unknown fields in sign bytes are signed but not compared: after signing a message a cosigner signs it again with the same nonce for any added field, so the fix for trailing bytes (C13) alone is not enough (`C78_extended_fails`) |
| C78 | a cosigner signs for any chain (`C78_chain_fails`); a chain node's request for another chain is answered as if it were for the configured one (`C78_request_chain_fails`) |
| C79 | a state file that does not say a height (`{}`, `null`, a misspelt name) is accepted as height 0 (`C79_silent_fails`); a validator state file with one wrong byte is overwritten by the empty state (`C79_damaged_fails`) |
| C80 | a share file without `secret_share` and `id` starts a cosigner with ID 0 and no share (`C80_silent_fails`); of two members with the same name the last counts (`C80_twice_fails`); the text `null` crashes the process (`C80_null_fails`) |
| C81 | a gRPC `SignBlock` request carries its height, round and step apart from the sign bytes, and nobody compares them. After any message was signed, its sign bytes under any later height, round and step (with the same participants) yield the old signature, recorded and spread as the signature of the new height: the cosigners never sign below again (`C81_replay_fails`, for every cluster), and a chain node asking for that proposal gets a signature of another message (`C81_answer_fails`, `C81_concrete_fails`). A refused block still bars the leader from everything lower (`C81_started_fails`) |
| C83 | nonces are kept under height, round, step and the nanosecond count of the time in an `int64`. A vote and the same vote 2^64 ns (584 years) later are both valid, differ only in the time, and have the same count; so a chain node that asks for both gets two signatures with one nonce, and their difference divided by the difference of the challenges is the private key of the validator (`C83_fails` after any run, `C83_node_fails` from the bytes of the requests, on any way to the leader) |
| C85 | the signer has no idea of the height of the chain: a request for the height 2^63 - 1 is signed like any other, and then, as C84 says, no block below it is ever signed again, by any leader and quorum and over restarts (`C85_fails`, from the bytes of the request, for any block the request is for). Blocks above it are signed (`C85_partial`) |
| C86 | nothing is checked: whatever bytes a raft event brings as the signature of a block above the node's watermark, the node gives them as the signature of that block from the second request on (`C86_fails`, for every cryptography and any bytes). Raft messages and the raft administration service, which `raft_store.go` registers on the same port, are not authenticated. If raft and the files bring only genuine records and what the nodes themselves have sent, every signature given is genuine (`C86_partial`, which closes the hypotheses of C26 over the whole cluster) |
| C87 | key share files are written with `0644`: under the usual umask 022 everybody on the machine can read all of them, and any threshold of them gives the private key, even if the key file it was made from was protected (`C87_fails`). Files that were there keep their permissions. Exact conditions in `C87_partial`; state files (`0600`, renamed into place) are always for their owner only (`C87_state_files`) |
| C88 | a peer that fails or answers too late for the map does not count down the wait group, so if fewer than t - 1 peers answer, the goroutine that `waitUntilCompleteOrTimeout` starts waits for ever: one more with every such request, without bound (`C88_fails`). Otherwise all goroutines end (`C88_partial`, an equivalence; `C88_sign_phase` for the second half) |
| C89 | addresses are not checked to have the documented form. Without a scheme, `node-2:2222` is taken for a URL with scheme `node-2`: everything for that cosigner goes to the empty address, and the node stays without raft configuration (`C89_no_scheme_fails`). An IP address without scheme works, but `elect` leaves it out (`C89_elect_fails`). `elect` drops the brackets of every IPv6 address, and what is left is no host and port (`C89_v6_fails`). A listen address without a port passes the validation of `start` and then makes the process panic (`C89_no_port_fails`) |
| C90 | `init` compares the host with `0.0.0.0` only: an empty host, `[::]`, `0`, an empty port and port 99999 are taken (`C90_fails`); `start` does not look at all (`C90_start_fails`) |
| C91 | `url.Parse` takes almost everything: the empty string, names without a port, a path after the port, other schemes; the signer then dials for ever (`C91_fails`). An IP address and port without scheme, which could be dialled, is refused (`C91_refused_fails`) |
| C92 | `state set` writes next to the configuration it reads, the start reads under the `home-dir` written in it; in a moved or copied home the set height is not used (`C92_home_fails`). Nobody waits for the writes (`C92_exit_fails`) |
| C93 | the participants are fixed by the first call: a peer that answers it first and then does not sign keeps a cluster of any size from signing any block, although enough others answer everything (`C93_needs_all`, `C93_fails`); who has to answer exactly: `C93_exact` |
| C94 | a call for secret parts makes a record for any block, however far ahead or behind the watermark, and only a share signature above that block removes it: the number of records is not bounded (`C94_fails`) |
| C95 | the state file is loaded before the port and the lock of the raft log are taken. A process started while another one runs has the state of then; when the other ends, in good order and with its file written, the new one takes over and signs conflicting blocks at heights the file says are signed (`C95_fails` on one host; `C95_needed` for any honest cosigner and any history, with the new process waiting for the lock, as on a rolling restart in containers) |
| C97 | three races: the goroutine that writes a state file marshals the state without the mutex while the next block may be saved (`C97_marshal_fails`; torn files: C38); the text of a refusal reads the started block without its mutex (`C97_refusal_fails`); `Restore` replaces the map of the store without the mutex that `Get` holds (`C97_restore_fails`; nothing but tests calls `Get`). There are no others, and none on a Go map (`C97_partial`, `C97_maps`, `C97_writes`) |
| C99 | the follower gives the leader four seconds for the whole call, the leader has four seconds for each half of a round: a round of between four and eight seconds gives a signature on the leader and an error for the chain node that asked (`C99_fails`; for every slow leader: `C99_late_fails`). Otherwise the answer is the leader's (`C99_partial`) |
| C100 | the second call looks a hundred times, for about a second, while the first may take more than eight: it gives up although the first gets a signature (`C100_fails`; for every slow first call: `C100_late_fails`; asked again, the block has its signature, C29). What it returns is determined by the record (`C100_waits`), and it is the signature once that is recorded (`C100_partial`) |
| C103 | `UnpackHRST` panics on a vote of unknown type, and gRPC does not recover: five bytes to `SetEphemeralSecretPartsAndSign` end any cosigner (`C103_fails`). A `SignBlock` message with such sign bytes makes the leader start a round that ends every participant, itself included (`C103_leader_fails`) |
| C107 | every command but `elect` dereferences the nil configuration (`C107_fails`); the commands for peers and shares dereference the missing section of a single signer's configuration (`C107_single_fails`); a configuration with a value of the wrong type ends every command, also `config init --overwrite` (`C107_repair_fails`) |
| C108 | without `--home` viper takes `config.json` or `config.toml` before `config.yaml`, and all commands write `config.yaml`: edits report success and are never read (`C108_fails`) |
| C109 | anyone who reaches the leader's gRPC port puts a record for the last height into the raft log with 131 bytes: the cluster never signs again (`C109_fails`), or any bytes as the signature of a block, which nodes then give to the chain nodes (`C109_junk_fails`) |
| C111 | records are not part of snapshots (`shouldRetain`): a node that catches up by a snapshot of another node (`C111_fails`), or that starts from its own snapshot with a file that was not written yet (`C111_restart_fails`), does not know the blocks that the log says were signed |
| C112 | anyone who reaches the leader's gRPC port makes a server of their own the only member of the raft cluster (`C112_fails`), or brings it to any configuration that raft accepts, and to no other (`C112_exact`); as the raft leader it is the one to which nodes pass on requests |
| C113 | a single signer that is started again after a malformed request has aborted it (C48) signs a conflicting vote for the same chain node: the state file is not read (`C113_fails`, for every key and state file) |
| C114 | a handshake that fails leaves its TCP connection open (`remote_signer.go:87-94` sets `conn = nil` without closing `netConn`): a peer that accepts and hangs up makes the signer collect one connection every three seconds, until the runtime happens to finalize them (`C114_fails`, for every number) |
| C116 | votes that differ only in the time are all signed: as many signing rounds and signed votes as chain nodes that ask with a time of their own (`C116_fails`, for every cluster and every number of requests). They are for the same block (`C82_votes`) |
| C121 | `elect` retries a call that is not idempotent: if the answer is lost, the second attempt goes to the new leader, which does not list itself and hands over to any other cosigner; success is reported (`C121_fails`, every cluster). The result of the transfer is not read (`C121_silent_fails`), the ID of the leader moves the leadership away (`C121_own_fails`), and an error may follow a transfer that came about (`C121_error_fails`) |
| C122 | A timeout of `0`, with a minus, or of less than a nanosecond is accepted, and means no limit: `raft.Apply` runs no timer for it, so that a sign request waits for ever if raft does not take the entry (`C122_fails`, all accepted flags). Exactly the positive ones are limits (`C122_exact`). Apart from that the flag, called rpc timeout, has no effect on calls between cosigners, which have a constant one of 4 seconds |
| C123 | Anyone who reaches the gRPC ports of half of the nodes stops the cluster with one empty request to each, until nodes are started again (`C123_fails`, every cluster and state); one request to a single node is enough for the chain nodes connected to it (`C123_node_fails`). Exact condition: `C123_exact` |
| C124 | The threshold of the shares is in no file: configurations that ask for fewer cosigners than the key was split for are accepted, all cosigners start, and there is a quorum (with a threshold one too small: every quorum, `C124_one_short`) that signs nothing, while the watermarks go on (`C124_fails`, every key, split and configuration). With different thresholds in the configurations, a round led by a cosigner that asks for one less than another participant gives no signature either, unless the drawn coefficients cancel (`C124_uneven_fails`; exact: `C124_uneven`) |
| C126 | a malformed request ends the process (C48), and the service of the documentation starts it again: a chain node that sends one on every connection ends every life of the process (`C126_fails`), and can choose the moment, before the state file is written (`C36_node_fails`) |

Other observations, without a property of their own: an error of `Emit` is only logged; reading a missing key from the raft store gives the
empty string; raft events are not part of snapshots; `handleLSSEvent` ignores save errors; the unwrapping of `RPCError`
never matches with gRPC; stale slots of an earlier attempt stay in the tables; a raft event stores the combined signature
next to the ephemeral key of another signature; `state set` and `state show` with an existing `--home` always fail;
`isRunning` can match its own `pgrep`; values that are not UTF-8 are altered by the JSON of the raft commands; a failed
`Join` can leave members removed; `SignVote` fills in signature and timestamp even when it returns an error; `SignBlock`
over gRPC bypasses the `PvGuard`; a failed secret connection handshake does not close the TCP connection; the chain ID in a request is ignored; `create-shares` does not
check that the public key in the file matches the private key nor that it is an ed25519 key, and writes the files world-readable; a key
file with the text `null` crashes the loader.

## Testing the theorems

Wrong programs were made by editing definitions of the model in a copy outside this directory, by hand (one or more per
property) and by a script (comparison operators, boundaries, negated conditions, dropped updates, changed constants), and
the project was rebuilt. `seeded/LOG.jsonl` has one line per attempt. A surviving edit was either found to be harmless for
every stated property, or a theorem was added or tightened.
