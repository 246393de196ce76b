/-
What the goroutines of all nodes wait for: mutexes, and calls that must return; and which memory of the node they read and
write. Only the order of these operations is modelled; what is done between them takes a finite time and waits for nothing.
Code: every `Lock` and `Unlock` in `signer/`, what is accessed between them, the remote calls of `signer/remote_cosigner.go` and `signer/raft_events.go`, and the future of `raft.Apply`
(`signer/raft_store.go:229-230`).

Simplified: a remote call may be given up at any time (its context ends after 4 s, `remote_cosigner.go:29-35`), and the waits
for enough answers (`threshold_validator.go:389`, `:420`), which end after 4 s, are no waits here: the goroutine that collects
answers may go on at any time. The variables of a signing round are not among the memory (C31 and C71 are about them), and
neither are the pointers that are set once while a node starts (C57). That raft commits or refuses an entry that has been handed to it is an assumption: the wait for the entry is the wait for
the state machine to apply it.
-/
namespace Horcrux

/-- The mutexes. The first ones are those of node `n`, the last two the local variables of signing round `r`. The goroutine
of raft that calls the state machine of node `n` makes one call at a time; that is `fsm n`. -/
inductive Mutex where
  /-- `PvGuard.go:15` `pvMutex` -/
  | pv (n : Nat)
  /-- `hashicorp/raft` `runFSM` -/
  | fsm (n : Nat)
  /-- `threshold_validator.go:32` `lastSignStateInitiatedMutex` -/
  | initiated (n : Nat)
  /-- `threshold_validator.go:28` `lastSignStateMutex` -/
  | lss (n : Nat)
  /-- `local_cosigner.go:102` `lastSignStateMutex` -/
  | cosigner (n : Nat)
  /-- `raft_store.go:54` `mu` -/
  | store (n : Nat)
  /-- `threshold_validator.go:374` `thresholdPeersMutex` -/
  | peers (r : Nat)
  /-- `threshold_validator.go:408` `shareSignaturesMutex` -/
  | shares (r : Nat)
  deriving DecidableEq

/-- The memory that goroutines of node `n` share. A `SignState` is two places, its fields and its map. -/
inductive Mem where
  /-- `threshold_validator.go:30` `lastSignStateInitiated`: height, round, step, signature and sign bytes, and its map -/
  | started (n : Nat)
  | startedCache (n : Nat)
  /-- `threshold_validator.go:26` `lastSignState` -/
  | lss (n : Nat)
  | lssCache (n : Nat)
  /-- `local_cosigner.go:99` `lastSignState` -/
  | share (n : Nat)
  | shareCache (n : Nat)
  /-- `local_cosigner.go:105` `hrsMeta`, with what it refers to -/
  | nonces (n : Nat)
  /-- `raft_store.go:55` `m`: the variable, and the map it refers to -/
  | store (n : Nat)
  | kv (n : Nat)
  deriving DecidableEq

/-- The places that are Go maps. The runtime ends a process that it finds accessing a map while another goroutine writes it. -/
def Mem.isMap : Mem → Bool
  | .startedCache _ | .lssCache _ | .shareCache _ | .nonces _ | .kv _ => true
  | _ => false

/-- What a goroutine has still to do. `acc` reads or (if the flag is set) writes memory, `go` starts another one, `call` one whose end is waited for (a function call, or the
future of raft), `rpc` is a `call` that may be given up. -/
inductive Prog where
  | done
  | lock (m : Mutex) (p : Prog)
  | unlock (m : Mutex) (p : Prog)
  | acc (v : Mem) (w : Bool) (p : Prog)
  | go (c p : Prog)
  | call (c p : Prog)
  | rpc (c p : Prog)

/-- A goroutine: what is left to do after the call it waits for, if any, has returned; the flag says whether the call may
be given up. -/
structure Goroutine where
  rest : Prog
  waits : Option (Nat × Bool)

/-- All goroutines of all nodes that were ever started, and for each mutex the one that holds it. -/
structure Waits where
  all : List Goroutine
  owner : Mutex → Option Nat

/-- The map with one entry changed. -/
def setOwner (o : Mutex → Option Nat) (m : Mutex) (x : Option Nat) : Mutex → Option Nat := fun m' => if m' = m then x else o m'

/-- One step of one goroutine. -/
inductive Waits.Step : Waits → Waits → Prop where
  /-- `sync.Mutex.Lock` -/
  | lock {s : Waits} {i : Nat} {m : Mutex} {p : Prog} (h : s.all[i]? = some ⟨.lock m p, none⟩) (ho : s.owner m = none) :
      Step s ⟨s.all.set i ⟨p, none⟩, setOwner s.owner m (some i)⟩
  /-- `sync.Mutex.Unlock` (which does not look at who holds the mutex) -/
  | unlock {s : Waits} {i : Nat} {m : Mutex} {p : Prog} (h : s.all[i]? = some ⟨.unlock m p, none⟩) :
      Step s ⟨s.all.set i ⟨p, none⟩, setOwner s.owner m none⟩
  /-- A read or write -/
  | acc {s : Waits} {i : Nat} {v : Mem} {w : Bool} {p : Prog} (h : s.all[i]? = some ⟨.acc v w p, none⟩) :
      Step s ⟨s.all.set i ⟨p, none⟩, s.owner⟩
  /-- The `go` statement -/
  | go {s : Waits} {i : Nat} {c p : Prog} (h : s.all[i]? = some ⟨.go c p, none⟩) :
      Step s ⟨s.all.set i ⟨p, none⟩ ++ [⟨c, none⟩], s.owner⟩
  | call {s : Waits} {i : Nat} {c p : Prog} (h : s.all[i]? = some ⟨.call c p, none⟩) :
      Step s ⟨s.all.set i ⟨p, some (s.all.length, false)⟩ ++ [⟨c, none⟩], s.owner⟩
  | rpc {s : Waits} {i : Nat} {c p : Prog} (h : s.all[i]? = some ⟨.rpc c p, none⟩) :
      Step s ⟨s.all.set i ⟨p, some (s.all.length, true)⟩ ++ [⟨c, none⟩], s.owner⟩
  /-- The call returns. -/
  | ret {s : Waits} {i j : Nat} {b : Bool} {p : Prog} (h : s.all[i]? = some ⟨p, some (j, b)⟩)
      (hj : s.all[j]? = some ⟨.done, none⟩) : Step s ⟨s.all.set i ⟨p, none⟩, s.owner⟩

/-- The context of a remote call ends before the call returns. What is done at the other side goes on. -/
inductive Waits.GivesUp : Waits → Waits → Prop where
  | mk {s : Waits} {i j : Nat} {p : Prog} (h : s.all[i]? = some ⟨p, some (j, true)⟩) :
      GivesUp s ⟨s.all.set i ⟨p, none⟩, s.owner⟩

/-- A data race: two goroutines are about to access the same memory, and one of them to write it. -/
def Waits.Race (s : Waits) (v : Mem) : Prop :=
  ∃ (i j : Nat) (w : Bool) (p q : Prog), i ≠ j ∧ s.all[i]? = some ⟨.acc v true p, none⟩ ∧ s.all[j]? = some ⟨.acc v w q, none⟩

/-! ### The programs -/

/-- Accesses one after the other. -/
def accs : List (Mem × Bool) → Prog → Prog
  | [], p => p
  | a :: l, p => .acc a.1 a.2 (accs l p)

/-- A function that holds `m` from its beginning (or from some point) to its end, and calls nothing that waits. -/
def crit (m : Mutex) (l : List (Mem × Bool)) (p : Prog) : Prog := .lock m (accs l (.unlock m p))

/-- `k` of them one after the other. -/
def crits (m : Mutex) (l : List (Mem × Bool)) : Nat → Prog → Prog
  | 0, p => p
  | k + 1, p => crit m l (crits m l k p)

/-- Start goroutines. -/
def goAll : List Prog → Prog → Prog
  | [], p => p
  | c :: l, p => .go c (goAll l p)

/-- `sign_state.go:144-160` `save`: the fields are read to be marshalled. -/
def lkMarshal (fields : Mem) : Prog := .acc fields false .done

/-- `sign_state.go:109-141` `Save` with a lock: the comparison, and if it allows it the update and the goroutine that writes the
file. Without file (`threshold_validator.go:67`) that goroutine does nothing (`sign_state.go:146-148`). -/
def lkSave (m : Mutex) (fields cache : Mem) (file ok : Bool) (p : Prog) : Prog :=
  .lock m (.acc fields false
    (if ok then .acc cache true (.acc fields true (if file then .go (lkMarshal fields) (.unlock m p) else .unlock m p))
      else .unlock m p))

/-- The reads and writes of the nonce records by `getEphemeralSecretPart` and `setEphemeralSecretPart`. -/
def lkNonces (n : Nat) : List (Mem × Bool) := [(.nonces n, false), (.nonces n, true)]

/-- `local_cosigner.go:287-313` `GetEphemeralSecretParts`: `getEphemeralSecretPart`, which holds the mutex (`:320-321`), for one
peer after the other, up to the first error. -/
def lkGetParts (n k : Nat) : Prog := crits (.cosigner n) (lkNonces n) k .done

/-- How `sign` can end: with an error of `UnpackHRST`, with an error or the recorded signature after looking at the sign state
only, without a usable nonce record, with a signature for another time of the recorded block, with a signature. -/
inductive LkSignEnd where
  | bad | fromState | noNonce | resigned | signed

/-- `local_cosigner.go:158-239` `sign`. Its `Save` is called with a nil mutex. -/
def lkSign (n : Nat) (e : LkSignEnd) : Prog :=
  let stop := Prog.unlock (.cosigner n) .done
  .lock (.cosigner n) (match e with
    | .bad => stop
    | .fromState => accs [(.share n, false)] stop
    | .noNonce => accs [(.share n, false), (.nonces n, false)] stop
    | .resigned => accs [(.share n, false), (.nonces n, false), (.share n, true), (.share n, false), (.nonces n, true)] stop
    | .signed => accs [(.share n, false), (.nonces n, false), (.share n, true), (.share n, false), (.shareCache n, true),
        (.share n, true)] (.go (lkMarshal (.share n)) (accs [(.nonces n, true)] stop)))

/-- `local_cosigner.go:468-488` `SetEphemeralSecretPartsAndSign`: `setEphemeralSecretPart` (mutex at `:429-430`) for one part
after the other up to the first error, then `sign`. -/
def lkSetAndSign (n k : Nat) (e : Option LkSignEnd) : Prog :=
  crits (.cosigner n) (lkNonces n) k (match e with | none => .done | some e => lkSign n e)

/-- `threshold_validator.go:172-191` `waitForPeerEphemeralShares` in round `r`, for peer `i`: the remote call, and the table if
there was no error. -/
def lkAskParts (r i k : Nat) (ok : Bool) : Prog := .rpc (lkGetParts i k) (if ok then crit (.peers r) [] .done else .done)

/-- One peer that is asked to sign: its ID, the parts it stores, how that ends, and whether there is an answer. -/
structure LkAsk where
  peer : Nat
  parts : Nat
  ends : Option LkSignEnd
  ok : Bool

/-- `threshold_validator.go:193-247` `waitForPeerSetEphemeralSharesAndSign` for a peer. -/
def lkAskSign (r : Nat) (a : LkAsk) : Prog :=
  .rpc (lkSetAndSign a.peer a.parts a.ends) (if a.ok then crit (.shares r) [] .done else .done)

/-- The same for the cosigner of the leader itself. -/
def lkOwnSign (r : Nat) (a : LkAsk) : Prog :=
  .call (lkSetAndSign a.peer a.parts a.ends) (if a.ok then crit (.shares r) [] .done else .done)

/-- `raft_store.go:294-310` `Apply` of a sign state event at node `n`: `applySet` (`:338-345`, nothing retained) with
`handleLSSEvent` (`raft_events.go:28-37`), that is `Save` of the validator and then of the cosigner. -/
def lkApplyLSS (n : Nat) (ok ok' : Bool) : Prog :=
  .lock (.fsm n) (lkSave (.lss n) (.lss n) (.lssCache n) true ok
    (lkSave (.cosigner n) (.share n) (.shareCache n) true ok' (.unlock (.fsm n) .done)))

/-- An event that is not understood (`raft_store.go:296-299`, `:306-309`, `raft_events.go:31-34`). -/
def lkApplyNothing (n : Nat) : Prog := .lock (.fsm n) (.unlock (.fsm n) .done)

/-- `Apply` of any other command (`raft_store.go:346-347`, `:353-354`). -/
def lkApplyStore (n : Nat) : Prog :=
  .lock (.fsm n) (crit (.store n) [(.store n, false), (.kv n, true)] (.unlock (.fsm n) .done))

/-- `raft_store.go:313-323` `Snapshot`. -/
def lkSnapshot (n : Nat) : Prog :=
  .lock (.fsm n) (crit (.store n) [(.store n, false), (.kv n, false)] (.unlock (.fsm n) .done))

/-- `raft_store.go:326-336` `Restore`: the new map is made first, then the variable is set, without the mutex. -/
def lkRestore (n : Nat) : Prog := .lock (.fsm n) (.acc (.store n) true (.unlock (.fsm n) .done))

/-- `threshold_validator.go:151-157` `newBeyondBlockError`: the text of the error names the block that was started. -/
def lkRefuse (n : Nat) (p : Prog) : Prog := .acc (.started n) false p

/-- `threshold_validator.go:316-361`: `SaveLastSignedStateInitiated`, and `k` times `getExistingBlockSignature` (`:270`). -/
def lkBegin (n : Nat) (ok : Bool) (k : Nat) (p : Prog) : Prog :=
  lkSave (.initiated n) (.started n) (.startedCache n) false ok (crits (.lss n) [(.lss n, false), (.lssCache n, false)] k p)

/-- `threshold_validator.go:376-389`: the peers are asked for secret parts, and the own cosigner. -/
def lkCollect (r n : Nat) (asks : List (Nat × Nat × Bool)) (k : Nat) (p : Prog) : Prog :=
  goAll (asks.map fun a => lkAskParts r a.1 a.2.1 a.2.2) (.call (lkGetParts n k) p)

/-- `threshold_validator.go:393-420`: the own parts go into the table, then all in the table are asked to sign. -/
def lkSignAll (r : Nat) (own : LkAsk) (asks : List LkAsk) (p : Prog) : Prog :=
  crit (.peers r) [] (goAll (lkOwnSign r own :: asks.map (lkAskSign r)) p)

/-- `threshold_validator.go:463` `Save`. -/
def lkSaveLSS (n : Nat) (ok : Bool) (p : Prog) : Prog := lkSave (.lss n) (.lss n) (.lssCache n) true ok p

/-- `threshold_validator.go:470-474` `Emit` and `raft_store.go:205-231`: the event is applied at other nodes, and at this one, where
the end of that is waited for. -/
def lkEmit (n : Nat) (others : List (Nat × Bool × Bool)) (ok ok' : Bool) : Prog :=
  goAll (others.map fun o => lkApplyLSS o.1 o.2.1 o.2.2) (.call (lkApplyLSS n ok ok') .done)

/-- The runs of `ThresholdValidator.SignBlock` at node `n` (`threshold_validator.go:290-477`). -/
inductive LkSignBlock : Nat → Prog → Prop where
  /-- No raft yet (`:295-297`), or no leader (`raft_events.go:49-51`). -/
  | unled (n : Nat) : LkSignBlock n .done
  /-- Not the leader: `raft_events.go:58-76` and `grpc_server.go:19-35` at node `m`. -/
  | proxied (n : Nat) {m : Nat} {p : Prog} (h : LkSignBlock m p) : LkSignBlock n (.rpc p .done)
  /-- Answered or refused without a round (`:316-361`). -/
  | answered (n k : Nat) : LkSignBlock n (lkBegin n false k .done)
  /-- Refused as beyond the block (`:285`; `:355`, where the first error is replaced by a second one). -/
  | refused (n k : Nat) : LkSignBlock n (lkBegin n false k (lkRefuse n .done))
  | refusedTwice (n k : Nat) : LkSignBlock n (lkBegin n false k (lkRefuse n (lkRefuse n .done)))
  /-- No secret parts (`:381-391`). The block may have been started before, then it is signed again. -/
  | noParts (r n : Nat) (ok : Bool) (k : Nat) (asks : List (Nat × Nat × Bool)) (k' : Nat) :
      LkSignBlock n (lkBegin n ok k (lkCollect r n asks k' .done))
  /-- No signature (`:420-453`). -/
  | noShares (r n : Nat) (ok : Bool) (k : Nat) (asks : List (Nat × Nat × Bool)) (k' : Nat) (own : LkAsk) (ho : own.peer = n)
      (signs : List LkAsk) : LkSignBlock n (lkBegin n ok k (lkCollect r n asks k' (lkSignAll r own signs .done)))
  /-- A signature that is not saved (`:463-468`) or not emitted (`raft_store.go:214-216`). -/
  | signed (r n : Nat) (ok : Bool) (k : Nat) (asks : List (Nat × Nat × Bool)) (k' : Nat) (own : LkAsk) (ho : own.peer = n)
      (signs : List LkAsk) (saved : Bool) :
      LkSignBlock n (lkBegin n ok k (lkCollect r n asks k' (lkSignAll r own signs (lkSaveLSS n saved .done))))
  /-- A signature (`:455-476`). -/
  | emitted (r n : Nat) (ok : Bool) (k : Nat) (asks : List (Nat × Nat × Bool)) (k' : Nat) (own : LkAsk) (ho : own.peer = n)
      (signs : List LkAsk) (saved : Bool) (others : List (Nat × Bool × Bool)) (a a' : Bool) :
      LkSignBlock n (lkBegin n ok k (lkCollect r n asks k' (lkSignAll r own signs (lkSaveLSS n saved (lkEmit n others a a')))))

/-- What a node can be asked to do. -/
inductive LkRequest : Prog → Prop where
  /-- `PvGuard.go:19-23` (`threshold_validator.go:87-89`), and all calls of a single signer, whose `FilePV` has no mutex. -/
  | pubKey (n : Nat) : LkRequest (crit (.pv n) [] .done)
  /-- `PvGuard.go:26-37` with `threshold_validator.go:93-127`. -/
  | sign (n : Nat) {p : Prog} (h : LkSignBlock n p) : LkRequest (.lock (.pv n) (.call p (.unlock (.pv n) .done)))
  /-- `grpc_server.go:19-35`: the validator itself is called, without the guard. -/
  | signBlock (n : Nat) {p : Prog} (h : LkSignBlock n p) : LkRequest p
  /-- `grpc_server.go:56-67`. -/
  | getParts (n k : Nat) : LkRequest (lkGetParts n k)
  /-- `grpc_server.go:37-54`. -/
  | setAndSign (n k : Nat) (e : Option LkSignEnd) : LkRequest (lkSetAndSign n k e)
  /-- An entry of the log of raft. -/
  | applyLSS (n : Nat) (ok ok' : Bool) : LkRequest (lkApplyLSS n ok ok')
  | applyNothing (n : Nat) : LkRequest (lkApplyNothing n)
  | applyStore (n : Nat) : LkRequest (lkApplyStore n)
  /-- A snapshot, made or received. -/
  | snapshot (n : Nat) : LkRequest (lkSnapshot n)
  | restore (n : Nat) : LkRequest (lkRestore n)
  /-- `raft_store.go:199-203` `Get`, which only tests call. -/
  | get (n : Nat) : LkRequest (crit (.store n) [(.store n, false), (.kv n, false)] .done)

/-- A request arrives. -/
inductive Waits.Arrives : Waits → Waits → Prop where
  | mk {s : Waits} {p : Prog} (h : LkRequest p) : Arrives s ⟨s.all ++ [⟨p, none⟩], s.owner⟩

/-- All nodes idle. -/
def Waits.idle : Waits := ⟨[], fun _ => none⟩

/-- Requests arrive, are worked on in any order, and are given up. -/
inductive Waits.Run : Waits → Prop where
  | idle : Run .idle
  | arrives {s s' : Waits} (h : Run s) (a : s.Arrives s') : Run s'
  | step {s s' : Waits} (h : Run s) (a : s.Step s') : Run s'
  | givesUp {s s' : Waits} (h : Run s) (a : s.GivesUp s') : Run s'

/-- A number of steps with no requests arriving. -/
inductive Waits.Steps : Waits → Nat → Waits → Prop where
  | nil (s : Waits) : Steps s 0 s
  | step {s s' s'' : Waits} {k : Nat} (h : s.Step s') (t : Steps s' k s'') : Steps s (k + 1) s''
  | givesUp {s s' s'' : Waits} {k : Nat} (h : s.GivesUp s') (t : Steps s' k s'') : Steps s (k + 1) s''

/-- The same with no calls given up. -/
inductive Waits.Patient : Waits → Nat → Waits → Prop where
  | nil (s : Waits) : Patient s 0 s
  | step {s s' s'' : Waits} {k : Nat} (h : s.Step s') (t : Patient s' k s'') : Patient s (k + 1) s''

end Horcrux
