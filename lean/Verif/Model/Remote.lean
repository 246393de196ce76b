import Verif.Model.Grpc
import Verif.Model.FilePV
/-
`signer/remote_signer.go`: the connection to a chain node. Requests and replies are the bytes on the (decrypted)
connection: `signer/Serialization.go:12-25` with tendermint's `privval.Message` and its generated code, third-party as in
`Wire.lean`.

What the validator does with a request is an argument, a different one at each request: this covers any validator, with
any state, used by any number of other connections at the same time. `PV.threshold` and `PV.single` are the two
validators of this repository.

Not modelled: the secret connection, the waiting times, logging.
-/
namespace Horcrux

/-! ### Messages -/

/-- tendermint `crypto.PublicKey` (a oneof; nil possible). -/
inductive PPubKey where
  | unset
  | ed25519 (k : Bytes)
  | secp256k1 (k : Bytes)
  deriving DecidableEq, Repr

/-- `privval.RemoteSignerError`. -/
structure RSErr where
  code : Int
  description : Bytes
  deriving DecidableEq, Repr

/-- `privval.Message`: its oneof. The pointers to the contained messages are never nil after decoding; those to a vote or
proposal may be. -/
inductive PMsg where
  | empty
  | pubKeyRequest (chainID : Bytes)
  | pubKeyResponse (key : PPubKey) (error : Option RSErr)
  | signVoteRequest (vote : Option Vote) (chainID : Bytes)
  | signedVoteResponse (vote : Vote) (error : Option RSErr)
  | signProposalRequest (proposal : Option Proposal) (chainID : Bytes)
  | signedProposalResponse (proposal : Proposal) (error : Option RSErr)
  | pingRequest
  | pingResponse
  deriving DecidableEq, Repr

/-- `tmProto.Vote{}`, `tmProto.Proposal{}`. -/
def Vote.zero : Vote := ⟨0, 0, 0, ⟨[], 0, []⟩, .zero, [], 0, none⟩
def Proposal.zero : Proposal := ⟨0, 0, 0, 0, ⟨[], 0, []⟩, .zero, none⟩

/-! ### Encoding -/

/-- `tmproto.BlockID` has the fields of the canonical block ID. -/
def BlockID.toC (b : BlockID) : CBlockID := ⟨b.hash, ⟨b.pshTotal, b.pshHash⟩⟩
def BlockID.ofC (b : CBlockID) : BlockID := ⟨b.hash, b.psh.total, b.psh.hash⟩

/-- `tmproto.Vote.Marshal`. -/
def encPVote (v : Vote) : Bytes :=
  encVarintField 0x08 v.type ++ (encVarintField 0x10 v.height ++ (encVarintField 0x18 v.round ++
    (encLen 0x22 (encBlockID v.blockID.toC) ++ (encLen 0x2a (encTime v.timestamp) ++
      (encBytesField 0x32 v.validatorAddress ++ (encVarintField 0x38 v.validatorIndex ++
        (encBytesField 0x42 v.signature.bytes ++ [])))))))

/-- `tmproto.Proposal.Marshal`. -/
def encPProposal (p : Proposal) : Bytes :=
  encVarintField 0x08 p.type ++ (encVarintField 0x10 p.height ++ (encVarintField 0x18 p.round ++
    (encVarintField 0x20 p.polRound ++ (encLen 0x2a (encBlockID p.blockID.toC) ++ (encLen 0x32 (encTime p.timestamp) ++
      (encBytesField 0x3a p.signature.bytes ++ []))))))

/-- `RemoteSignerError.Marshal`. -/
def encRSErr (e : RSErr) : Bytes := encVarintField 0x08 e.code ++ (encBytesField 0x12 e.description ++ [])

/-- `crypto.PublicKey.Marshal`: the oneof is written even if empty. -/
def encPPubKey : PPubKey → Bytes
  | .unset => []
  | .ed25519 k => encLen 0x0a k
  | .secp256k1 k => encLen 0x12 k

/-- `privval.Message.Marshal`. -/
def encPMsg : PMsg → Bytes
  | .empty => []
  | .pubKeyRequest c => encLen 0x0a (encBytesField 0x0a c)
  | .pubKeyResponse k e => encLen 0x12 (encLen 0x0a (encPPubKey k) ++ (encMsgField 0x12 (e.map encRSErr) ++ []))
  | .signVoteRequest v c => encLen 0x1a (encMsgField 0x0a (v.map encPVote) ++ (encBytesField 0x12 c ++ []))
  | .signedVoteResponse v e => encLen 0x22 (encLen 0x0a (encPVote v) ++ (encMsgField 0x12 (e.map encRSErr) ++ []))
  | .signProposalRequest p c => encLen 0x2a (encMsgField 0x0a (p.map encPProposal) ++ (encBytesField 0x12 c ++ []))
  | .signedProposalResponse p e => encLen 0x32 (encLen 0x0a (encPProposal p) ++ (encMsgField 0x12 (e.map encRSErr) ++ []))
  | .pingRequest => encLen 0x3a []
  | .pingResponse => encLen 0x42 []

/-- `Serialization.go:20-25` `WriteMsg`: the bytes written. -/
def writeMsg (m : PMsg) : Bytes := delimit (encPMsg m)

/-! ### Decoding -/

/-- Decode into a block ID that is not a pointer. -/
def setPBlockID (old : BlockID) (bs : Bytes) : Option BlockID := (decodeMsg blockIDHandler old.toC bs).map .ofC

/-- `tmproto.Vote.Unmarshal`. -/
def pvoteHandler : Handler Vote where
  wireType n := if n = 1 ∨ n = 2 ∨ n = 3 ∨ n = 7 then some 0 else if n = 4 ∨ n = 5 ∨ n = 6 ∨ n = 8 then some 2 else none
  set m n v := match n, v with
    | 1, .varint x => some { m with type := i32 x }
    | 2, .varint x => some { m with height := i64 x }
    | 3, .varint x => some { m with round := i32 x }
    | 4, .len bs => (setPBlockID m.blockID bs).map fun b => { m with blockID := b }
    | 5, .len bs => (decodeTime bs).map fun t => { m with timestamp := t }
    | 6, .len bs => some { m with validatorAddress := bs }
    | 7, .varint x => some { m with validatorIndex := i32 x }
    | 8, .len bs => some { m with signature := some bs }
    | _, _ => none

/-- `tmproto.Proposal.Unmarshal`. -/
def pproposalHandler : Handler Proposal where
  wireType n := if n = 1 ∨ n = 2 ∨ n = 3 ∨ n = 4 then some 0 else if n = 5 ∨ n = 6 ∨ n = 7 then some 2 else none
  set m n v := match n, v with
    | 1, .varint x => some { m with type := i32 x }
    | 2, .varint x => some { m with height := i64 x }
    | 3, .varint x => some { m with round := i32 x }
    | 4, .varint x => some { m with polRound := i32 x }
    | 5, .len bs => (setPBlockID m.blockID bs).map fun b => { m with blockID := b }
    | 6, .len bs => (decodeTime bs).map fun t => { m with timestamp := t }
    | 7, .len bs => some { m with signature := some bs }
    | _, _ => none

/-- `RemoteSignerError.Unmarshal`. -/
def rsErrHandler : Handler RSErr where
  wireType n := if n = 1 then some 0 else if n = 2 then some 2 else none
  set m n v := match n, v with
    | 1, .varint x => some { m with code := i32 x }
    | 2, .len bs => some { m with description := bs }
    | _, _ => none

/-- `crypto.PublicKey.Unmarshal`. -/
def ppubKeyHandler : Handler PPubKey where
  wireType n := if n = 1 ∨ n = 2 then some 2 else none
  set _ n v := match n, v with
    | 1, .len bs => some (.ed25519 bs)
    | 2, .len bs => some (.secp256k1 bs)
    | _, _ => none

/-- `PubKeyRequest`, the two sign requests: a nullable message and a string. -/
def pubKeyReqHandler : Handler Bytes where
  wireType n := if n = 1 then some 2 else none
  set _ n v := match n, v with
    | 1, .len bs => some bs
    | _, _ => none

def signReqHandler {α : Type} (h : Handler α) (zero : α) : Handler (Option α × Bytes) where
  wireType n := if n = 1 ∨ n = 2 then some 2 else none
  set m n v := match n, v with
    | 1, .len bs => (decodeMsg h (m.1.getD zero) bs).map fun x => (some x, m.2)
    | 2, .len bs => some (m.1, bs)
    | _, _ => none

/-- The three responses with an error: a message that is not a pointer, and a nullable error. -/
def respHandler {α : Type} (h : Handler α) : Handler (α × Option RSErr) where
  wireType n := if n = 1 ∨ n = 2 then some 2 else none
  set m n v := match n, v with
    | 1, .len bs => (decodeMsg h m.1 bs).map fun x => (x, m.2)
    | 2, .len bs => (decodeMsg rsErrHandler (m.2.getD ⟨0, []⟩) bs).map fun e => (m.1, some e)
    | _, _ => none

/-- Messages without fields. -/
def noFieldsHandler : Handler Unit where
  wireType _ := none
  set _ _ _ := none

/-- `privval.Message.Unmarshal`: a later member of the oneof replaces an earlier one. -/
def pmsgHandler : Handler PMsg where
  wireType n := if 1 ≤ n ∧ n ≤ 8 then some 2 else none
  set _ n v := match n, v with
    | 1, .len bs => (decodeMsg pubKeyReqHandler [] bs).map .pubKeyRequest
    | 2, .len bs => (decodeMsg (respHandler ppubKeyHandler) (.unset, none) bs).map fun x => .pubKeyResponse x.1 x.2
    | 3, .len bs => (decodeMsg (signReqHandler pvoteHandler .zero) (none, []) bs).map fun x => .signVoteRequest x.1 x.2
    | 4, .len bs => (decodeMsg (respHandler pvoteHandler) (.zero, none) bs).map fun x => .signedVoteResponse x.1 x.2
    | 5, .len bs =>
      (decodeMsg (signReqHandler pproposalHandler .zero) (none, []) bs).map fun x => .signProposalRequest x.1 x.2
    | 6, .len bs =>
      (decodeMsg (respHandler pproposalHandler) (.zero, none) bs).map fun x => .signedProposalResponse x.1 x.2
    | 7, .len bs => (decodeMsg noFieldsHandler () bs).map fun _ => .pingRequest
    | 8, .len bs => (decodeMsg noFieldsHandler () bs).map fun _ => .pingResponse
    | _, _ => none

/-- `Serialization.go:14`. -/
def maxRemoteSignerMsgSize : Nat := 1024 * 10

/-- `Serialization.go:12-18` `ReadMsg` with `protoio`'s delimited reader: the message and what is left of the stream;
`none` is an error (bad or too long length, end of the stream, undecodable message). -/
def readMsg (stream : Bytes) : Option (PMsg × Bytes) :=
  match readUvarint stream with
  | none => none
  | some (n, rest) =>
    if n > maxRemoteSignerMsgSize then none
    else if rest.length < n then none
    else (decodeMsg pmsgHandler .empty (rest.take n)).map fun m => (m, rest.drop n)

/-! ### Handling a request -/

/-- How a call that takes a pointer ends: what the pointer then points to and the error, or a panic. -/
inductive Ret (α : Type) where
  | ret (a : α) (e : Option Err)
  | panic
  deriving DecidableEq

/-- What the validator does when it is called now: `GetPubKey` with `PubKeyToProto`, `SignVote`, `SignProposal`. -/
structure PV where
  pubKey : Except Err PPubKey
  signVote : Option Vote → Ret Vote
  signProposal : Option Proposal → Ret Proposal

/-- `remote_signer.go:209-217` `getRemoteSignerError`; `text` is `Error()`. -/
def remoteSignerError (text : Err → Bytes) (e : Err) : RSErr := ⟨0, text e⟩

/-- `remote_signer.go:141-160` `handleSignVoteRequest`; `none` is a panic. -/
def handleSignVote (text : Err → Bytes) (pv : PV) (vote : Option Vote) : Option PMsg :=
  match pv.signVote vote with
  | .panic => none
  | .ret _ (some e) => some (.signedVoteResponse .zero (some (remoteSignerError text e)))
  | .ret v none => some (.signedVoteResponse v none)

/-- `remote_signer.go:162-182` `handleSignProposalRequest`. -/
def handleSignProposal (text : Err → Bytes) (pv : PV) (proposal : Option Proposal) : Option PMsg :=
  match pv.signProposal proposal with
  | .panic => none
  | .ret _ (some e) => some (.signedProposalResponse .zero (some (remoteSignerError text e)))
  | .ret p none => some (.signedProposalResponse p none)

/-- `remote_signer.go:184-203` `handlePubKeyRequest`. -/
def handlePubKey (text : Err → Bytes) (pv : PV) : PMsg :=
  match pv.pubKey with
  | .error e => .pubKeyResponse .unset (some (remoteSignerError text e))
  | .ok k => .pubKeyResponse k none

/-- `remote_signer.go:125-139` `handleRequest`; `none` is a panic. The request's chain ID is not used. -/
def handleRequest (text : Err → Bytes) (pv : PV) : PMsg → Option PMsg
  | .signVoteRequest v _ => handleSignVote text pv v
  | .signProposalRequest p _ => handleSignProposal text pv p
  | .pubKeyRequest _ => some (handlePubKey text pv)
  | .pingRequest => some .pingResponse
  | _ => some .empty

/-! ### The loop -/

/-- What one iteration of the loop meets: whether the service is running at line 67; how often dialling fails and then
all that the node will send on the new connection (if there is none at line 76); whether the service is running at
line 98; what the validator does; whether writing succeeds. -/
structure Iter where
  running : Bool
  dialFailures : Nat
  stream : Bytes
  stillRunning : Bool
  pv : PV
  writeOk : Bool

/-- What an iteration does. -/
inductive Act where
  | dialFailed
  | connect
  | close
  | read (m : PMsg)
  | write (bs : Bytes)
  | crash
  deriving DecidableEq, Repr

/-- The loop is running, with a connection (what is left of its stream) or without; or it has returned; or the process has
crashed. -/
inductive Loop where
  | live (conn : Option Bytes)
  | stopped
  | crashed
  deriving DecidableEq, Repr

/-- Close the connection if there is one. -/
def closeConn : Option Bytes → List Act
  | none => []
  | some _ => [.close]

/-- `remote_signer.go:76-95`: dial until there is a connection. -/
def dialPhase (i : Iter) : Option Bytes → List Act × Bytes
  | some s => ([], s)
  | none => (List.replicate i.dialFailures .dialFailed ++ [.connect], i.stream)

/-- `remote_signer.go:105-121` -/
def servePhase (text : Err → Bytes) (i : Iter) (stream : Bytes) : List Act × Loop :=
  match readMsg stream with
  | none => ([.close], .live none)
  | some (m, rest) =>
    match handleRequest text i.pv m with
    | none => ([.read m, .crash], .crashed)
    | some r =>
      if i.writeOk then ([.read m, .write (writeMsg r)], .live (some rest))
      else ([.read m, .write (writeMsg r), .close], .live none)

/-- `remote_signer.go:64-123` one iteration of `loop`. -/
def loopIter (text : Err → Bytes) (i : Iter) : Loop → List Act × Loop
  | .live conn =>
    if i.running then
      let (acts, stream) := dialPhase i conn
      if i.stillRunning then
        let (acts', l) := servePhase text i stream
        (acts ++ acts', l)
      else (acts ++ [.close], .stopped)
    else (closeConn conn, .stopped)
  | l => ([], l)

/-- The actions of a number of iterations, each with what it met. -/
def loopRun (text : Err → Bytes) : Loop → List Iter → List (Iter × List Act) × Loop
  | l, [] => ([], l)
  | l, i :: is =>
    let (acts, l') := loopIter text i l
    let (tr, l'') := loopRun text l' is
    ((i, acts) :: tr, l'')

/-! ### The two validators -/

/-- `threshold_validator.go:89-125`: `SignVote` and `SignProposal`, given what `SignBlock` returns for the block. A nil
pointer is dereferenced at once. -/
def PV.threshold (chainID : Bytes) (key : Bytes) (signBlock : Block → Slice × GoTime × Option Err) : PV where
  pubKey := .ok (.ed25519 key)
  signVote v? :=
    match v? with
    | none => .panic
    | some v =>
      match voteBlock chainID v with
      | .ok b => .ret (finishVote v (signBlock b).1 (signBlock b).2.1) (signBlock b).2.2
      | _ => .panic
  signProposal p? :=
    match p? with
    | none => .panic
    | some p =>
      match proposalBlock chainID p with
      | .ok b => .ret (finishProposal p (signBlock b).1 (signBlock b).2.1) (signBlock b).2.2
      | _ => .panic

/-- `privval.FilePV.signVote`, up to the block to sign: the step, `CheckHRS`, then the sign bytes. -/
def singleBlock (s : FilePV) (height round : Int) (step : Out Int) (signBytes : Out Bytes) (t : GoTime) : Out Block :=
  match step with
  | .ok st =>
    match s.lss.checkHRS ⟨height, round, st, 0⟩ with
    | .ok _ =>
      match signBytes with
      | .ok bs => .ok ⟨height, round, st, bs, t⟩
      | .err e => .err e
      | .panic => .panic
    | .err e => .err e
    | .panic => .panic
  | .err e => .err e
  | .panic => .panic

/-- `privval.FilePV.SignVote` and `SignProposal`: the message gets the signature, and the timestamp that was signed. -/
def PV.single (chainID : Bytes) (key : Bytes) (sigOf : Bytes → Bytes) (s : FilePV) : PV where
  pubKey := .ok (.ed25519 key)
  signVote v? :=
    match v? with
    | none => .panic
    | some v =>
      match singleBlock s v.height v.round (voteTypeToStep v.type) (voteSignBytes chainID v) v.timestamp with
      | .panic => .panic
      | .err e => .ret v (some e)
      | .ok b =>
        match (s.sign sigOf b).1 with
        | .panic => .panic
        | .err e => .ret v (some e)
        | .ok (bs, sig) =>
          .ret (finishVote v sig (((decodeVote bs).map (·.timestamp)).getD v.timestamp)) none
  signProposal p? :=
    match p? with
    | none => .panic
    | some p =>
      match singleBlock s p.height p.round (.ok stepPropose) (proposalSignBytes chainID p) p.timestamp with
      | .panic => .panic
      | .err e => .ret p (some e)
      | .ok b =>
        match (s.sign sigOf b).1 with
        | .panic => .panic
        | .err e => .ret p (some e)
        | .ok (bs, sig) =>
          .ret (finishProposal p sig (((decodeProposal bs).map (·.timestamp)).getD p.timestamp)) none

end Horcrux
