import Verif.Model.Json
import Verif.Model.SignState
/-
`signer/raft_store.go` and `signer/raft_events.go`: the replicated key-value store, its events and its membership
command. Log entries, event values and snapshots are the JSON bytes the code writes and reads.

The raft library (which entries get committed, elections) is not modelled: a node applies a given list of entries.
The state machine's validator is the configured one here; a missing one is `Verif.Model.Startup`.
-/
namespace Horcrux

/-! ### JSON of commands, events and snapshots -/

/-- `raft_store.go:38-42` `command`. -/
structure Command where
  op : Bytes
  key : Bytes
  value : Bytes
  deriving DecidableEq, Repr

/-- `"op"`, `"key"`, `"value"`. -/
def nOp : Bytes := [111, 112]
def nKey : Bytes := [107, 101, 121]
def nValue : Bytes := [118, 97, 108, 117, 101]

/-- `"set"`, `"delete"`. -/
def opSet : Bytes := [115, 101, 116]
def opDelete : Bytes := [100, 101, 108, 101, 116, 101]

/-- `raft_events.go:14` `raftEventLSS`, `"LSS"`. -/
def keyLSS : Bytes := [76, 83, 83]

/-- A string member with `omitempty`. -/
def JObj.consStr (k v : Bytes) (l : JObj) : JObj := if v = [] then l else .cons k (.str v false) l

/-- `json.Marshal` of a command (`raft_store.go:38-42, 221, 241`). -/
def encodeCommand (c : Command) : Bytes :=
  (JVal.obj (.consStr nOp c.op (.consStr nKey c.key (.consStr nValue c.value .nil)))).print

def Command.zero : Command := ⟨[], [], []⟩

/-- Store one member of a command. -/
def setCommand (c : Command) (k : Bytes) (v : JVal) : Option Command :=
  if k = nOp then (setString c.op v).map fun s => { c with op := s }
  else if k = nKey then (setString c.key v).map fun s => { c with key := s }
  else if k = nValue then (setString c.value v).map fun s => { c with value := s }
  else some c

/-- `raft_store.go:292-296`: `json.Unmarshal` into a fresh command; `none` is an error. -/
def decodeCommand (bs : Bytes) : Option Command :=
  match parseJson bs with
  | some (.obj l) => decodeFields setCommand .zero l
  | some .null => some .zero
  | _ => none

/-- Field names of `SignStateConsensus` (`sign_state.go:65-71`), as written and in lower case. -/
def nHeight : Bytes := [72, 101, 105, 103, 104, 116]
def nRound : Bytes := [82, 111, 117, 110, 100]
def nStep : Bytes := [83, 116, 101, 112]
def nSignature : Bytes := [83, 105, 103, 110, 97, 116, 117, 114, 101]
def nSignBytes : Bytes := [83, 105, 103, 110, 66, 121, 116, 101, 115]

/-- A `[]byte` value: `null` for nil. -/
def bytesJson : Slice → JVal
  | none => .null
  | some bs => .str (b64Enc bs) false

/-- `raft_store.go:206` `json.Marshal` of a sign state record: no tags, so the field names; `HexBytes` writes upper-case
hex, and `""` for nil. -/
def encodeSSC (r : SSC) : Bytes :=
  (JVal.obj (.cons nHeight (.num (decInt r.height)) (.cons nRound (.num (decInt r.round))
    (.cons nStep (.num (decInt r.step)) (.cons nSignature (bytesJson r.signature)
      (.cons nSignBytes (.str (hexEnc r.signBytes.bytes) false) .nil)))))).print

/-- Store one member of a sign state record. -/
def setSSC (r : SSC) (k : Bytes) (v : JVal) : Option SSC :=
  if k = foldKey nHeight then (setInt (-(2 ^ 63)) (2 ^ 63 - 1) r.height v).map fun x => { r with height := x }
  else if k = foldKey nRound then (setInt (-(2 ^ 63)) (2 ^ 63 - 1) r.round v).map fun x => { r with round := x }
  else if k = foldKey nStep then (setInt (-128) 127 r.step v).map fun x => { r with step := x }
  else if k = foldKey nSignature then (setBytes v).map fun x => { r with signature := x }
  else if k = foldKey nSignBytes then (setHex v).map fun x => { r with signBytes := x }
  else some r

/-- `raft_events.go:29-34`: `json.Unmarshal` into a fresh record. -/
def decodeSSC (bs : Bytes) : Option SSC :=
  match parseJson bs with
  | some (.obj l) => decodeFields setSSC (SSC.new 0 0 0) l
  | some .null => some (SSC.new 0 0 0)
  | _ => none

/-! ### The map -/

/-- `raft_store.go:53` the Go map, as an association list without repeated keys (the order is not observable). -/
abbrev KV := List (Bytes × Bytes)

/-- The value of a key, if it is there. -/
def KV.lookup : KV → Bytes → Option Bytes
  | [], _ => none
  | (k', v) :: m, k => if k' = k then some v else KV.lookup m k

/-- `raft_store.go:198-203` `Get`: indexing a map with a missing key gives `""`. -/
def KV.get (m : KV) (k : Bytes) : Bytes := (m.lookup k).getD []

def KV.del (m : KV) (k : Bytes) : KV := m.filter fun e => e.1 ≠ k

def KV.set (m : KV) (k v : Bytes) : KV := (k, v) :: m.del k

/-- Insert into a list sorted by key. -/
def insertSorted (e : Bytes × Bytes) : KV → KV
  | [] => [e]
  | e' :: m => if e.1 ≤ e'.1 then e :: e' :: m else e' :: insertSorted e m

/-- `json.Marshal` of a map writes it sorted by key. -/
def sortKV : KV → KV
  | [] => []
  | e :: m => insertSorted e (sortKV m)

def objOfKV : KV → JObj
  | [] => .nil
  | (k, v) :: m => .cons k (.str v false) (objOfKV m)

/-- `raft_store.go:311-321, 365-372` `Snapshot` and `Persist`: the bytes written to the sink. -/
def snapshotKV (m : KV) : Bytes := (JVal.obj (objOfKV (sortKV m))).print

/-- Decode the members of an object into a map of strings (a `null` gives `""`). -/
def kvOfObj : KV → JObj → Option KV
  | m, .nil => some m
  | m, .cons k v l =>
    match setString [] v with
    | none => none
    | some s => kvOfObj (m.set k s) l

/-- `raft_store.go:324-334` `Restore`; `none` is an error. (For the input `null` the code ends up with a nil map; no
snapshot contains it. It is an error here.) -/
def restoreKV (bs : Bytes) : Option KV :=
  match parseFirst bs with
  | some (.obj l) => kvOfObj [] l
  | _ => none

/-! ### The state machine -/

/-- What a node's state machine can change: the map, and the sign states of its validator and its cosigner. -/
structure Fsm where
  m : KV
  val : SignState
  cos : SignState

/-- `raft_events.go:28-37` `handleLSSEvent`, with `threshold_validator.go:77-79` and `local_cosigner.go`
`SaveLastSignedState`; errors of the saves are ignored. -/
def Fsm.handleLSS (s : Fsm) (value : Bytes) : Fsm :=
  match decodeSSC value with
  | none => s
  | some r => { s with val := (s.val.save r).2, cos := (s.cos.save r).2 }

/-- `raft_store.go:336-348` `applySet`, with `raft_events.go:17-26` `getEventHandler` and `shouldRetain`. -/
def Fsm.applySet (s : Fsm) (key value : Bytes) : Fsm :=
  let s' := if key = keyLSS then s.handleLSS value else s
  if key ≠ keyLSS then { s' with m := s'.m.set key value } else s'

/-- `raft_store.go:350-355` `applyDelete`. -/
def Fsm.applyDelete (s : Fsm) (key : Bytes) : Fsm := { s with m := s.m.del key }

/-- `raft_store.go:291-308` `Apply`. -/
def Fsm.apply (s : Fsm) (entry : Bytes) : Fsm :=
  match decodeCommand entry with
  | none => s
  | some c =>
    if c.op = opSet then s.applySet c.key c.value
    else if c.op = opDelete then s.applyDelete c.key
    else s

/-- Apply a log. -/
def Fsm.run (s : Fsm) : List Bytes → Fsm
  | [] => s
  | e :: es => (s.apply e).run es

/-! ### Writing -/

/-- `raft.RaftState`. -/
inductive RaftState where
  | follower
  | candidate
  | leader
  | shutdown
  deriving DecidableEq, Repr

inductive RaftErr where
  | notLeader   -- raft_store.go:216, 236
  | raft        -- an error of the raft library
  deriving DecidableEq, Repr

/-- `raft_store.go:214-230` `Set`: the error and the proposals made. `res` is what the future returns. -/
def storeSet (st : RaftState) (res : Option RaftErr) (key value : Bytes) : Option RaftErr × List Bytes :=
  if st ≠ .leader then (some .notLeader, [])
  else (res, [encodeCommand ⟨opSet, key, value⟩])

/-- `raft_store.go:233-248` `Delete`. -/
def storeDelete (st : RaftState) (res : Option RaftErr) (key : Bytes) : Option RaftErr × List Bytes :=
  if st ≠ .leader then (some .notLeader, [])
  else (res, [encodeCommand ⟨opDelete, key, []⟩])

/-- `raft_store.go:205-211` `Emit` of a sign state record. -/
def storeEmit (st : RaftState) (res : Option RaftErr) (key : Bytes) (r : SSC) : Option RaftErr × List Bytes :=
  storeSet st res key (encodeSSC r)

/-! ### Membership -/

/-- `raft.Server`. -/
structure Server where
  voter : Bool
  id : Bytes
  addr : Bytes
  deriving DecidableEq, Repr

/-- hashicorp/raft `checkConfiguration`: IDs and addresses are non-empty and without repetitions, and there is a
voter. -/
def configOk (cfg : List Server) : Bool :=
  cfg.all (fun s => s.id ≠ [] && s.addr ≠ []) && decide (cfg.map (·.id)).Nodup &&
    decide (cfg.map (·.addr)).Nodup && cfg.any (·.voter)

/-- hashicorp/raft `nextConfiguration` for `RemoveServer`: the first server with the ID goes. -/
def cfgRemove (id : Bytes) : List Server → List Server
  | [] => []
  | s :: cfg => if s.id = id then cfg else s :: cfgRemove id cfg

/-- hashicorp/raft `nextConfiguration` for `AddVoter`: an existing voter with the ID gets the address, an existing
non-voter is replaced, otherwise the server is appended. -/
def cfgAddVoter (id addr : Bytes) : List Server → List Server
  | [] => [⟨true, id, addr⟩]
  | s :: cfg => if s.id = id then ⟨true, id, addr⟩ :: cfg else s :: cfgAddVoter id addr cfg

/-- A change of the configuration through raft: it fails for reasons of its own (`ok` false: not the leader, leadership
lost) or because the new configuration is not valid; then nothing changes. -/
def cfgChange (ok : Bool) (new : List Server) : Option (List Server) :=
  if ok && configOk new then some new else none

/-- The loop of `raft_store.go:259-276`: over the servers read at the beginning, with the configuration as it is now and
the fates of the raft calls to come. `Sum.inl` is a return (with the error flag and the configuration). -/
def joinLoop (id addr : Bytes) : List Server → List Server → List Bool → (Bool × List Server) ⊕ (List Server × List Bool)
  | [], cur, oks => .inr (cur, oks)
  | s :: ss, cur, oks =>
    if s.id = id ∨ s.addr = addr then
      -- 264-269
      if s.addr = addr ∧ s.id = id then .inl (false, cur)
      else
        -- 271-274
        match cfgChange (oks.headD false) (cfgRemove s.id cur) with
        | none => .inl (true, cur)
        | some cur' => joinLoop id addr ss cur' oks.tail
    else joinLoop id addr ss cur oks

/-- `raft_store.go:252-284` `Join`: whether it fails, and the configuration afterwards. `oks` are the fates of its raft
calls, the first one being `GetConfiguration`. Other changes of the configuration in between are not modelled. -/
def join (id addr : Bytes) (cfg : List Server) (oks : List Bool) : Bool × List Server :=
  if oks.headD false then
    match joinLoop id addr cfg cfg oks.tail with
    | .inl r => r
    | .inr (cur, oks') =>
      match cfgChange (oks'.headD false) (cfgAddVoter id addr cur) with
      | none => (true, cur)
      | some cur' => (false, cur')
  else (true, cfg)

end Horcrux
