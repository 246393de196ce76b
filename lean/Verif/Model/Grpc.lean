import Verif.Model.Validator
import Verif.Model.Cosigner
import Verif.Model.Protowire
/-
The gRPC messages between cosigners (`signer/proto/cosigner_grpc_server.proto`), byte by byte, with the conversions at
both ends: `signer/Cosigner.go:22-37,60-95`, `signer/threshold_validator.go:135-143`, `signer/raft_events.go:58-76`,
`signer/grpc_server.go:18-70`, `signer/remote_cosigner.go:64-107`.

The encoder/decoder (google.golang.org/protobuf) is third-party: the encoding is proto3 in field order with zero fields
omitted, the decoder is that of `Protowire.lean`. Strings must be UTF-8 for both; the encoders here do not check that, and
what they make of another string is refused by the decoder, with the same result for the caller (an error).
-/
namespace Horcrux

/-- Proto3 does not tell an empty bytes field from an absent one: what arrives is nil. -/
def Slice.ofWire (bs : Bytes) : Slice := if bs = [] then none else some bs

/-! ### Messages -/

/-- `message Block`. -/
structure PBlock where
  height : Int
  round : Int
  step : Int
  signBytes : Bytes
  timestamp : Int
  deriving DecidableEq, Repr

/-- `message EphemeralSecretPart`. -/
structure PPart where
  sourceID : Int
  destinationID : Int
  publicKey : Bytes
  encrypted : Bytes
  sourceSig : Bytes
  deriving DecidableEq, Repr

/-- `message HRST`. -/
structure PHRST where
  height : Int
  round : Int
  step : Int
  timestamp : Int
  deriving DecidableEq, Repr

/-- `message CosignerGRPCSignBlockRequest`. -/
structure PSignBlockReq where
  chainID : Bytes
  block : Option PBlock
  deriving DecidableEq, Repr

/-- `message CosignerGRPCSetEphemeralSecretPartsAndSignRequest`. -/
structure PSetSignReq where
  parts : List PPart
  hrst : Option PHRST
  signBytes : Bytes
  deriving DecidableEq, Repr

/-- `message CosignerGRPCSetEphemeralSecretPartsAndSignResponse`. -/
structure PSetSignRes where
  ephemeralPublic : Bytes
  timestamp : Int
  signature : Bytes
  deriving DecidableEq, Repr

/-! ### Encoders -/

def encPBlock (b : PBlock) : Bytes :=
  encVarintField 0x08 b.height ++ (encVarintField 0x10 b.round ++ (encVarintField 0x18 b.step ++
    (encBytesField 0x22 b.signBytes ++ (encVarintField 0x28 b.timestamp ++ []))))

def encPPart (p : PPart) : Bytes :=
  encVarintField 0x08 p.sourceID ++ (encVarintField 0x10 p.destinationID ++ (encBytesField 0x1a p.publicKey ++
    (encBytesField 0x22 p.encrypted ++ (encBytesField 0x2a p.sourceSig ++ []))))

def encPHRST (k : PHRST) : Bytes :=
  encVarintField 0x08 k.height ++ (encVarintField 0x10 k.round ++ (encVarintField 0x18 k.step ++
    (encVarintField 0x20 k.timestamp ++ [])))

/-- A message field: absent if nil. -/
def encMsgField (tag : UInt8) : Option Bytes → Bytes
  | none => []
  | some bs => encLen tag bs

def encSignBlockReq (r : PSignBlockReq) : Bytes :=
  encBytesField 0x0a r.chainID ++ (encMsgField 0x12 (r.block.map encPBlock) ++ [])

/-- A repeated message field. -/
def encParts (tag : UInt8) : List PPart → Bytes
  | [] => []
  | p :: ps => encLen tag (encPPart p) ++ encParts tag ps

def encSetSignReq (r : PSetSignReq) : Bytes :=
  encParts 0x0a r.parts ++ (encMsgField 0x12 (r.hrst.map encPHRST) ++ (encBytesField 0x1a r.signBytes ++ []))

def encSetSignRes (r : PSetSignRes) : Bytes :=
  encBytesField 0x0a r.ephemeralPublic ++ (encVarintField 0x10 r.timestamp ++ (encBytesField 0x1a r.signature ++ []))

/-- `message CosignerGRPCGetEphemeralSecretPartsRequest`. -/
def encGetReq (k : Option PHRST) : Bytes := encMsgField 0x0a (k.map encPHRST) ++ []

/-- `message CosignerGRPCGetEphemeralSecretPartsResponse`. -/
def encGetRes (ps : List PPart) : Bytes := encParts 0x0a ps ++ []

/-! ### Decoders -/

def PBlock.zero : PBlock := ⟨0, 0, 0, [], 0⟩
def PPart.zero : PPart := ⟨0, 0, [], [], []⟩
def PHRST.zero : PHRST := ⟨0, 0, 0, 0⟩

def pblockHandler : Handler PBlock where
  wireType n := if n = 1 ∨ n = 2 ∨ n = 3 ∨ n = 5 then some 0 else if n = 4 then some 2 else none
  set m n v := match n, v with
    | 1, .varint x => some { m with height := i64 x }
    | 2, .varint x => some { m with round := i64 x }
    | 3, .varint x => some { m with step := i32 x }
    | 4, .len bs => some { m with signBytes := bs }
    | 5, .varint x => some { m with timestamp := i64 x }
    | _, _ => none

def ppartHandler : Handler PPart where
  wireType n := if n = 1 ∨ n = 2 then some 0 else if n = 3 ∨ n = 4 ∨ n = 5 then some 2 else none
  set m n v := match n, v with
    | 1, .varint x => some { m with sourceID := i32 x }
    | 2, .varint x => some { m with destinationID := i32 x }
    | 3, .len bs => some { m with publicKey := bs }
    | 4, .len bs => some { m with encrypted := bs }
    | 5, .len bs => some { m with sourceSig := bs }
    | _, _ => none

def phrstHandler : Handler PHRST where
  wireType n := if n = 1 ∨ n = 2 ∨ n = 3 ∨ n = 4 then some 0 else none
  set m n v := match n, v with
    | 1, .varint x => some { m with height := i64 x }
    | 2, .varint x => some { m with round := i64 x }
    | 3, .varint x => some { m with step := i32 x }
    | 4, .varint x => some { m with timestamp := i64 x }
    | _, _ => none

def signBlockReqHandler : Handler PSignBlockReq where
  wireType n := if n = 1 ∨ n = 2 then some 2 else none
  set m n v := match n, v with
    | 1, .len bs => if utf8Valid bs then some { m with chainID := bs } else none
    | 2, .len bs => (gDecode pblockHandler (m.block.getD .zero) bs).map fun b => { m with block := some b }
    | _, _ => none

def setSignReqHandler : Handler PSetSignReq where
  wireType n := if n = 1 ∨ n = 2 ∨ n = 3 then some 2 else none
  set m n v := match n, v with
    | 1, .len bs => (gDecode ppartHandler .zero bs).map fun p => { m with parts := m.parts ++ [p] }
    | 2, .len bs => (gDecode phrstHandler (m.hrst.getD .zero) bs).map fun k => { m with hrst := some k }
    | 3, .len bs => some { m with signBytes := bs }
    | _, _ => none

def setSignResHandler : Handler PSetSignRes where
  wireType n := if n = 1 ∨ n = 3 then some 2 else if n = 2 then some 0 else none
  set m n v := match n, v with
    | 1, .len bs => some { m with ephemeralPublic := bs }
    | 2, .varint x => some { m with timestamp := i64 x }
    | 3, .len bs => some { m with signature := bs }
    | _, _ => none

def getReqHandler : Handler (Option PHRST) where
  wireType n := if n = 1 then some 2 else none
  set m n v := match n, v with
    | 1, .len bs => (gDecode phrstHandler (m.getD .zero) bs).map some
    | _, _ => none

def getResHandler : Handler (List PPart) where
  wireType n := if n = 1 then some 2 else none
  set m n v := match n, v with
    | 1, .len bs => (gDecode ppartHandler .zero bs).map fun p => m ++ [p]
    | _, _ => none

/-- `message CosignerGRPCSignBlockResponse`. -/
def signBlockResHandler : Handler Bytes where
  wireType n := if n = 1 then some 2 else none
  set _ n v := match n, v with
    | 1, .len bs => some bs
    | _, _ => none

/-! ### Conversions -/

/-- `threshold_validator.go:135-143` `Block.toProto`. -/
def Block.toProto (b : Block) : PBlock := ⟨b.height, b.round, b.step, b.signBytes, b.timestamp.unixNano⟩

/-- `grpc_server.go:20-26`. -/
def blockFromProto (p : PBlock) : Block :=
  ⟨p.height, p.round, i8 p.step, p.signBytes, GoTime.ofUnixNano p.timestamp⟩

/-- `Cosigner.go:31-38`. -/
def HRST.toProto (k : HRST) : PHRST := ⟨k.height, k.round, k.step, k.timestamp⟩

/-- `Cosigner.go:22-29`. -/
def hrstFromProto (p : PHRST) : HRST := ⟨p.height, p.round, i8 p.step, p.timestamp⟩

/-- `Cosigner.go:60-68`. -/
def SecretPart.toProto (p : SecretPart) : PPart :=
  ⟨i32 p.sourceID, i32 p.destinationID, p.ephemeralPublic.bytes, p.encrypted.bytes, p.sourceSig.bytes⟩

/-- `Cosigner.go:79-87`. -/
def partFromProto (p : PPart) : SecretPart :=
  ⟨p.sourceID, p.destinationID, .ofWire p.publicKey, .ofWire p.encrypted, .ofWire p.sourceSig⟩

/-! ### Both ends -/

/-- `raft_events.go:65-68`: the bytes a follower sends. -/
def sendSignBlock (chainID : Bytes) (b : Block) : Bytes := encSignBlockReq ⟨chainID, some b.toProto⟩

/-- `grpc_server.go:18-27`: the chain ID and block the leader's `SignBlock` is called with. -/
def recvSignBlock (bs : Bytes) : Option (Bytes × Block) :=
  (gDecode signBlockReqHandler ⟨[], none⟩ bs).map fun r => (r.chainID, blockFromProto (r.block.getD .zero))

/-- `grpc_server.go:31-33`. -/
def sendSignBlockRes (sig : Slice) : Bytes := encBytesField 0x0a sig.bytes ++ []

/-- `raft_events.go:72-74`. -/
def recvSignBlockRes (bs : Bytes) : Option Slice := (gDecode signBlockResHandler [] bs).map Slice.ofWire

/-- `remote_cosigner.go:73-75`. -/
def sendGet (k : HRST) : Bytes := encGetReq (some k.toProto)

/-- `grpc_server.go:58-62`. -/
def recvGet (bs : Bytes) : Option HRST :=
  (gDecode getReqHandler none bs).map fun k => hrstFromProto (k.getD .zero)

/-- `grpc_server.go:66-68`. -/
def sendGetRes (ps : List SecretPart) : Bytes := encGetRes (ps.map SecretPart.toProto)

/-- `remote_cosigner.go:79-81`. -/
def recvGetRes (bs : Bytes) : Option (List SecretPart) :=
  (gDecode getResHandler [] bs).map (List.map partFromProto)

/-- `remote_cosigner.go:94-98`. -/
def sendSetSign (ps : List SecretPart) (k : HRST) (signBytes : Bytes) : Bytes :=
  encSetSignReq ⟨ps.map SecretPart.toProto, some k.toProto, signBytes⟩

/-- `grpc_server.go:36-44`. -/
def recvSetSign (bs : Bytes) : Option (List SecretPart × HRST × Bytes) :=
  (gDecode setSignReqHandler ⟨[], none, []⟩ bs).map fun r =>
    (r.parts.map partFromProto, hrstFromProto (r.hrst.getD .zero), r.signBytes)

/-- `grpc_server.go:48-52`. -/
def sendSetSignRes (eph : Slice) (t : GoTime) (sig : Slice) : Bytes :=
  encSetSignRes ⟨eph.bytes, t.unixNano, sig.bytes⟩

/-- `remote_cosigner.go:102-106`. -/
def recvSetSignRes (bs : Bytes) : Option (Slice × GoTime × Slice) :=
  (gDecode setSignResHandler ⟨[], 0, []⟩ bs).map fun r =>
    (.ofWire r.ephemeralPublic, GoTime.ofUnixNano r.timestamp, .ofWire r.signature)

end Horcrux
