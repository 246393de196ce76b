import Verif.Model.Prim
import Verif.Model.Time
import Verif.Model.SignState
/-
Byte-level model of the canonical sign bytes: the protobuf encoding tendermint produces for votes and proposals
(`types.VoteSignBytes`, `types.ProposalSignBytes`, called from `signer/threshold_validator.go:99,117`), the
generated protobuf decoder used by `protoio.UnmarshalDelimited`, and the functions of the repository built on
them: `UnpackHRST` (`signer/Serialization.go:27-44`) and `onlyDifferByTimestamp`
(`signer/sign_state.go:296-358`).

The encoder/decoder live in third-party code (tendermint v0.34.14 `proto/tendermint/types/canonical.pb.go`,
`libs/protoio/{reader,writer}.go`; gogo/protobuf 1.3.3 `types/timestamp*.go`), which is part of the trusted base:
it was modelled from knowledge of that code, it is not in `/repo`.
-/
namespace Horcrux

/-! ### Varints and little-endian words -/

/-- Conversion of an `int64`/`int32` to `uint64` (sign extension), as done before varint encoding. -/
def toU64 (x : Int) : Nat := (x % 2 ^ 64).toNat

/-- gogo's generated `encodeVarint…`/`binary.PutUvarint`, with a bound on the number of continuation bytes
(a `uint64` needs at most nine). -/
def encodeVarintAux : Nat → Nat → Bytes
  | 0, v => [UInt8.ofNat v]
  | f + 1, v => if v < 128 then [UInt8.ofNat v] else UInt8.ofNat (v % 128 + 128) :: encodeVarintAux f (v / 128)

/-- Varint encoding of a `uint64`. -/
def encodeVarint (v : Nat) : Bytes := encodeVarintAux 9 v

/-- The generated decoder's varint loop
(`for shift := uint(0); ; shift += 7 { if shift >= 64 {overflow}; if iNdEx >= l {EOF}; … wire |= uint64(b&0x7F) << shift; if b < 0x80 {break} }`).
Bits above 63 are dropped. Returns the value and the remaining bytes. `n` counts the bytes read so far. -/
def readVarintAux : (n : Nat) → (acc : Nat) → Bytes → Option (Nat × Bytes)
  | _, _, [] => none
  | n, acc, b :: rest =>
    if n ≥ 10 then none else
    let acc' := (acc + (b.toNat % 128) * 2 ^ (7 * n)) % 2 ^ 64
    if b.toNat < 128 then some (acc', rest) else readVarintAux (n + 1) acc' rest

/-- See `readVarintAux`. -/
def readVarint (bs : Bytes) : Option (Nat × Bytes) := readVarintAux 0 0 bs

/-- Go's `binary.ReadUvarint` (used for the length prefix): like the generated loop but the tenth byte
must be 0 or 1. -/
def readUvarintAux : (n : Nat) → (acc : Nat) → Bytes → Option (Nat × Bytes)
  | _, _, [] => none
  | n, acc, b :: rest =>
    if n ≥ 10 then none else
    if b.toNat < 128 then
      if n = 9 ∧ b.toNat > 1 then none else some (acc + b.toNat * 2 ^ (7 * n), rest)
    else readUvarintAux (n + 1) (acc + (b.toNat % 128) * 2 ^ (7 * n)) rest

/-- See `readUvarintAux`. -/
def readUvarint (bs : Bytes) : Option (Nat × Bytes) := readUvarintAux 0 0 bs

/-- Little-endian encoding of the low `k` bytes of `v` (`encoding/binary.LittleEndian.PutUint64` for `k = 8`). -/
def leBytes : (k : Nat) → (v : Nat) → Bytes
  | 0, _ => []
  | k + 1, v => UInt8.ofNat (v % 256) :: leBytes k (v / 256)

/-- Little-endian value of a byte string (`binary.LittleEndian.Uint64`). -/
def leNat : Bytes → Nat
  | [] => 0
  | b :: bs => b.toNat + 256 * leNat bs

/-! ### The generated decode loop -/

/-- The payload of one field on the wire. -/
inductive WireVal where
  | varint (n : Nat)
  | fixed64 (n : Nat)
  | len (bs : Bytes)
  deriving DecidableEq, Repr

/-- Read the payload of a *known* field with wire type 0 (varint), 1 (fixed64) or 2 (length-delimited).
Lengths that are negative as `int`, overflow, or reach past the end are errors; since a Go slice is shorter than
`2^63` all three amount to "length greater than what is left". -/
def readVal (wt : Nat) (bs : Bytes) : Option (WireVal × Bytes) :=
  if wt = 0 then
    match readVarint bs with
    | none => none
    | some (n, rest) => some (.varint n, rest)
  else if wt = 1 then
    if bs.length < 8 then none else some (.fixed64 (leNat (bs.take 8)), bs.drop 8)
  else if wt = 2 then
    match readVarint bs with
    | none => none
    | some (n, rest) => if rest.length < n then none else some (.len (rest.take n), rest.drop n)
  else none

/-- gogo's generated `skip…` function: skip one (possibly group-nested) unknown field, starting at its tag.
`fuel` bounds the number of tags; `skipField` starts it at the number of bytes, and every iteration consumes at
least one byte. -/
def skipAux : (fuel : Nat) → (depth : Nat) → Bytes → Option Bytes
  | 0, _, _ => none
  | _, _, [] => none
  | f + 1, depth, bs =>
    match readVarint bs with
    | none => none
    | some (wire, rest) =>
      let wt := wire % 8
      if wt = 0 then
        match readVarint rest with
        | none => none
        | some (_, rest') => if depth = 0 then some rest' else skipAux f depth rest'
      else if wt = 1 then
        if rest.length < 8 then none else
        if depth = 0 then some (rest.drop 8) else skipAux f depth (rest.drop 8)
      else if wt = 2 then
        match readVarint rest with
        | none => none
        | some (n, rest') =>
          if rest'.length < n then none else
          if depth = 0 then some (rest'.drop n) else skipAux f depth (rest'.drop n)
      else if wt = 3 then skipAux f (depth + 1) rest
      else if wt = 4 then
        if depth = 0 then none
        else if depth = 1 then some rest else skipAux f (depth - 1) rest
      else if wt = 5 then
        if rest.length < 4 then none else
        if depth = 0 then some (rest.drop 4) else skipAux f depth (rest.drop 4)
      else none

/-- See `skipAux`. -/
def skipField (bs : Bytes) : Option Bytes := skipAux bs.length 0 bs

/-- A message type for the generated decoder: the wire type of each known field number, and how a decoded payload
is stored (`none` = decode error). -/
structure Handler (α : Type) where
  wireType : Nat → Option Nat
  set : α → Nat → WireVal → Option α

/-- The generated `Unmarshal` loop (`for iNdEx < l { read tag; fieldNum := int32(wire >> 3); wireType := wire & 7;
if wireType == 4 {err}; if fieldNum <= 0 {err}; switch fieldNum { case known: if wireType != expected {err}; …
default: skip } }`). `fuel` as in `skipAux`. -/
def decodeLoop {α : Type} (h : Handler α) : (fuel : Nat) → α → Bytes → Option α
  | _, m, [] => some m
  | 0, _, _ :: _ => none
  | f + 1, m, b :: bs =>
    match readVarint (b :: bs) with
    | none => none
    | some (wire, rest) =>
      let fieldNum : Int := i32 (wire / 8 : Nat)
      if wire % 8 = 4 then none
      else if fieldNum ≤ 0 then none
      else match h.wireType fieldNum.toNat with
        | some wt =>
          if wire % 8 ≠ wt then none
          else match readVal wt rest with
            | none => none
            | some (v, rest') =>
              match h.set m fieldNum.toNat v with
              | none => none
              | some m' => decodeLoop h f m' rest'
        | none =>
          match skipField (b :: bs) with
          | none => none
          | some rest' => decodeLoop h f m rest'

/-- `Unmarshal` of a message with initial value `m` (merging into it). -/
def decodeMsg {α : Type} (h : Handler α) (m : α) (bs : Bytes) : Option α := decodeLoop h bs.length m bs

/-! ### The messages -/

/-- tendermint `CanonicalPartSetHeader`. -/
structure CPSH where
  total : Nat
  hash : Bytes
  deriving DecidableEq, Repr

/-- tendermint `CanonicalBlockID`. -/
structure CBlockID where
  hash : Bytes
  psh : CPSH
  deriving DecidableEq, Repr

/-- tendermint `CanonicalVote`. -/
structure CVote where
  type : Int
  height : Int
  round : Int
  blockID : Option CBlockID
  timestamp : GoTime
  chainID : Bytes
  deriving DecidableEq, Repr

/-- tendermint `CanonicalProposal`. -/
structure CProposal where
  type : Int
  height : Int
  round : Int
  polRound : Int
  blockID : Option CBlockID
  timestamp : GoTime
  chainID : Bytes
  deriving DecidableEq, Repr

/-- A decoded `google.protobuf.Timestamp`. -/
structure PTimestamp where
  seconds : Int
  nanos : Int
  deriving DecidableEq, Repr

/-! ### Decoders -/

/-- gogo `types.Timestamp.Unmarshal`. -/
def timestampHandler : Handler PTimestamp where
  wireType n := if n = 1 ∨ n = 2 then some 0 else none
  set m n v := match n, v with
    | 1, .varint x => some { m with seconds := i64 x }
    | 2, .varint x => some { m with nanos := i32 x }
    | _, _ => none

/-- gogo `validateTimestamp`. -/
def timestampValid (t : PTimestamp) : Bool :=
  decide (-62135596800 ≤ t.seconds) && decide (t.seconds < 253402300800) &&
  decide (0 ≤ t.nanos) && decide (t.nanos < 1000000000)

/-- gogo `StdTimeUnmarshal`: decode a fresh `Timestamp`, convert, validate. -/
def decodeTime (bs : Bytes) : Option GoTime :=
  match decodeMsg timestampHandler ⟨0, 0⟩ bs with
  | none => none
  | some t => if timestampValid t then some ⟨t.seconds, t.nanos⟩ else none

/-- `CanonicalPartSetHeader.Unmarshal`. -/
def pshHandler : Handler CPSH where
  wireType n := if n = 1 then some 0 else if n = 2 then some 2 else none
  set m n v := match n, v with
    | 1, .varint x => some { m with total := x % 2 ^ 32 }
    | 2, .len bs => some { m with hash := bs }
    | _, _ => none

/-- `CanonicalBlockID.Unmarshal`. -/
def blockIDHandler : Handler CBlockID where
  wireType n := if n = 1 ∨ n = 2 then some 2 else none
  set m n v := match n, v with
    | 1, .len bs => some { m with hash := bs }
    | 2, .len bs => (decodeMsg pshHandler m.psh bs).map fun p => { m with psh := p }
    | _, _ => none

/-- Decode a nullable `*CanonicalBlockID` field: allocate on first occurrence, merge afterwards. -/
def setBlockID (old : Option CBlockID) (bs : Bytes) : Option (Option CBlockID) :=
  (decodeMsg blockIDHandler (old.getD ⟨[], ⟨0, []⟩⟩) bs).map some

/-- `CanonicalVote.Unmarshal`. -/
def voteHandler : Handler CVote where
  wireType n := if n = 1 then some 0 else if n = 2 ∨ n = 3 then some 1
    else if n = 4 ∨ n = 5 ∨ n = 6 then some 2 else none
  set m n v := match n, v with
    | 1, .varint x => some { m with type := i32 x }
    | 2, .fixed64 x => some { m with height := i64 x }
    | 3, .fixed64 x => some { m with round := i64 x }
    | 4, .len bs => (setBlockID m.blockID bs).map fun b => { m with blockID := b }
    | 5, .len bs => (decodeTime bs).map fun t => { m with timestamp := t }
    | 6, .len bs => some { m with chainID := bs }
    | _, _ => none

/-- `CanonicalProposal.Unmarshal`. -/
def proposalHandler : Handler CProposal where
  wireType n := if n = 1 ∨ n = 4 then some 0 else if n = 2 ∨ n = 3 then some 1
    else if n = 5 ∨ n = 6 ∨ n = 7 then some 2 else none
  set m n v := match n, v with
    | 1, .varint x => some { m with type := i32 x }
    | 2, .fixed64 x => some { m with height := i64 x }
    | 3, .fixed64 x => some { m with round := i64 x }
    | 4, .varint x => some { m with polRound := i64 x }
    | 5, .len bs => (setBlockID m.blockID bs).map fun b => { m with blockID := b }
    | 6, .len bs => (decodeTime bs).map fun t => { m with timestamp := t }
    | 7, .len bs => some { m with chainID := bs }
    | _, _ => none

/-- The zero messages `proto.Unmarshal` starts from (`Reset`); the timestamp is Go's zero time. -/
def CVote.zero : CVote := ⟨0, 0, 0, none, GoTime.zero, []⟩
def CProposal.zero : CProposal := ⟨0, 0, 0, 0, none, GoTime.zero, []⟩

/-- `protoio.UnmarshalDelimited`'s framing (`libs/protoio/reader.go`): read the length, refuse `length ≥ 2^63-1`
and `length > len(data)`, read exactly that many bytes. Bytes after the message are ignored. -/
def undelimit (bs : Bytes) : Option Bytes :=
  match readUvarint bs with
  | none => none
  | some (n, rest) =>
    if n ≥ 2 ^ 63 - 1 then none
    else if n > bs.length then none
    else if rest.length < n then none
    else some (rest.take n)

/-- `protoio.UnmarshalDelimited(bs, &vote)`. -/
def decodeVote (bs : Bytes) : Option CVote :=
  (undelimit bs).bind (decodeMsg voteHandler CVote.zero)

/-- `protoio.UnmarshalDelimited(bs, &proposal)`. -/
def decodeProposal (bs : Bytes) : Option CProposal :=
  (undelimit bs).bind (decodeMsg proposalHandler CProposal.zero)

/-! ### Encoders -/

/-- A length-delimited field with a one-byte tag. -/
def encLen (tag : UInt8) (bs : Bytes) : Bytes := tag :: (encodeVarint bs.length ++ bs)

/-- A varint field, omitted when zero. -/
def encVarintField (tag : UInt8) (x : Int) : Bytes := if x = 0 then [] else tag :: encodeVarint (toU64 x)

/-- An `sfixed64` field, omitted when zero. -/
def encFixedField (tag : UInt8) (x : Int) : Bytes := if x = 0 then [] else tag :: leBytes 8 (toU64 x)

/-- A bytes/string field, omitted when empty. -/
def encBytesField (tag : UInt8) (bs : Bytes) : Bytes := if bs = [] then [] else encLen tag bs

/-- gogo `StdTimeMarshalTo` on a valid time. -/
def encTime (t : GoTime) : Bytes := encVarintField 0x08 t.sec ++ encVarintField 0x10 t.nsec

/-- `CanonicalPartSetHeader.Marshal`. -/
def encPSH (p : CPSH) : Bytes := encVarintField 0x08 p.total ++ encBytesField 0x12 p.hash

/-- `CanonicalBlockID.Marshal`. -/
def encBlockID (b : CBlockID) : Bytes := encBytesField 0x0a b.hash ++ encLen 0x12 (encPSH b.psh)

/-- A nullable block ID field. -/
def encBlockIDField (tag : UInt8) : Option CBlockID → Bytes
  | none => []
  | some b => encLen tag (encBlockID b)

/-- `CanonicalVote.Marshal`. -/
def encVote (v : CVote) : Bytes :=
  encVarintField 0x08 v.type ++ encFixedField 0x11 v.height ++ encFixedField 0x19 v.round ++
  encBlockIDField 0x22 v.blockID ++ encLen 0x2a (encTime v.timestamp) ++ encBytesField 0x32 v.chainID

/-- `CanonicalProposal.Marshal`. -/
def encProposal (p : CProposal) : Bytes :=
  encVarintField 0x08 p.type ++ encFixedField 0x11 p.height ++ encFixedField 0x19 p.round ++
  encVarintField 0x20 p.polRound ++
  encBlockIDField 0x2a p.blockID ++ encLen 0x32 (encTime p.timestamp) ++ encBytesField 0x3a p.chainID

/-- `protoio.MarshalDelimited`: length prefix and message. -/
def delimit (bs : Bytes) : Bytes := encodeVarint bs.length ++ bs

/-! ### The messages a chain node asks to sign -/

/-- tendermint `tmproto.BlockID` (with its `PartSetHeader`). -/
structure BlockID where
  hash : Bytes
  pshTotal : Nat
  pshHash : Bytes
  deriving DecidableEq, Repr

/-- tendermint `tmproto.Vote`, the fields that matter for signing; `rest` stands for the fields that signing
must not touch (validator address and index). -/
structure Vote where
  type : Int
  height : Int
  round : Int
  blockID : BlockID
  timestamp : GoTime
  validatorAddress : Bytes
  validatorIndex : Int
  signature : Slice
  deriving DecidableEq, Repr

/-- tendermint `tmproto.Proposal`. -/
structure Proposal where
  type : Int
  height : Int
  round : Int
  polRound : Int
  blockID : BlockID
  timestamp : GoTime
  signature : Slice
  deriving DecidableEq, Repr

/-- `types.BlockIDFromProto` validation: both hashes are empty or 32 bytes. -/
def BlockID.valid (b : BlockID) : Bool :=
  (b.hash.length = 0 || b.hash.length = 32) && (b.pshHash.length = 0 || b.pshHash.length = 32)

/-- `types.CanonicalizeBlockID`: panics on an invalid block ID; `nil` for the zero block ID. -/
def canonicalizeBlockID (b : BlockID) : Out (Option CBlockID) :=
  if ¬ b.valid then .panic
  else if b.hash = [] ∧ b.pshTotal = 0 ∧ b.pshHash = [] then .ok none
  else .ok (some ⟨b.hash, ⟨b.pshTotal, b.pshHash⟩⟩)

/-- A time that protobuf can encode (`validateTimestamp`). -/
def GoTime.valid (t : GoTime) : Bool := timestampValid ⟨t.sec, t.nsec⟩

/-- `types.VoteSignBytes(chainID, vote)`: panics if the block ID or the time is invalid. -/
def voteSignBytes (chainID : Bytes) (v : Vote) : Out Bytes :=
  match canonicalizeBlockID v.blockID with
  | .panic => .panic
  | .err e => .err e
  | .ok b => if v.timestamp.valid
      then .ok (delimit (encVote ⟨v.type, v.height, v.round, b, v.timestamp, chainID⟩))
      else .panic

/-- `types.ProposalSignBytes(chainID, proposal)`; `CanonicalizeProposal` sets the type to 32. -/
def proposalSignBytes (chainID : Bytes) (p : Proposal) : Out Bytes :=
  match canonicalizeBlockID p.blockID with
  | .panic => .panic
  | .err e => .err e
  | .ok b => if p.timestamp.valid
      then .ok (delimit (encProposal ⟨32, p.height, p.round, p.polRound, b, p.timestamp, chainID⟩))
      else .panic

/-! ### Functions of the repository -/

/-- `sign_state.go:26-35` `CanonicalVoteToStep` and `sign_state.go:37-46` `VoteToStep` (same switch on the type:
`PrevoteType` is 1, `PrecommitType` is 2). -/
def voteTypeToStep (type : Int) : Out Int :=
  if type = 1 then .ok stepPrevote
  else if type = 2 then .ok stepPrecommit
  else .panic

/-- `Serialization.go:28-44` `UnpackHRST`. -/
def unpackHRST (bs : Bytes) : Out HRST :=
  match decodeProposal bs with
  | some p => .ok ⟨p.height, p.round, stepPropose, p.timestamp.unixNano⟩
  | none =>
    match decodeVote bs with
    | some v =>
      match voteTypeToStep v.type with
      | .ok st => .ok ⟨v.height, v.round, st, v.timestamp.unixNano⟩
      | .err e => .err e
      | .panic => .panic
    | none => .err .couldNotUnpack

/-- `sign_state.go:306-337` `checkVoteOnlyDifferByTimestamp` (`none` = nil error). `proto.Equal` on the decoded
messages is field-wise equality (empty and absent byte fields are equal, as in proto3). -/
def checkVoteOnlyDifferByTimestamp (last new : Bytes) : Option Err :=
  match decodeVote last with
  | none => some .lastUndecodable
  | some lastVote =>
    match decodeVote new with
    | none => some .newUndecodable
    | some newVote0 =>
      let newVote := { newVote0 with timestamp := lastVote.timestamp }
      if newVote = lastVote then none
      else if newVote.blockID = none ∧ lastVote.blockID ≠ none then some .nilAfterNonNil
      else if newVote.blockID ≠ none ∧ lastVote.blockID = none then some .nonNilAfterNil
      else if (lastVote.blockID.map (·.hash)).getD [] ≠ (newVote.blockID.map (·.hash)).getD []
        then some .differingBlockIDs
      else some .conflictingData

/-- `sign_state.go:339-358` `checkProposalOnlyDifferByTimestamp`. -/
def checkProposalOnlyDifferByTimestamp (last new : Bytes) : Option Err :=
  match decodeProposal last with
  | none => some .lastUndecodable
  | some lastProposal =>
    match decodeProposal new with
    | none => some .newUndecodable
    | some newProposal0 =>
      let newProposal := { newProposal0 with timestamp := lastProposal.timestamp }
      if newProposal = lastProposal then none else some .conflictingData

/-- `sign_state.go:296-304` `onlyDifferByTimestamp` (and the two methods at 288-294). -/
def onlyDifferByTimestamp (step : Int) (last new : Bytes) : Option Err :=
  if step = stepPropose then checkProposalOnlyDifferByTimestamp last new
  else if step = stepPrevote ∨ step = stepPrecommit then checkVoteOnlyDifferByTimestamp last new
  else some .unexpectedStep

end Horcrux
