import Verif.Spec.Encodings
import Verif.Model.KeyFile
/-
Specification: what the generated protobuf code of tendermint takes for an encoding of a message, and what it then says. All
encodings that protobuf allows are among them (`Encodes`), and some more: of numbers only the lower 64 bits count, of field
numbers the lower 32; within the fields that are skipped, numbers of fields are not looked at, not even at the end of a group.
On the other hand a known field must be of its type.
-/
namespace Horcrux.Spec
open Horcrux

/-- A number of which only the lower 64 bits count, in at most ten bytes. -/
def LooseVarint (v : Nat) (bs : Bytes) : Prop := ∃ w, Varint w bs ∧ bs.length ≤ 10 ∧ v = w % 2 ^ 64

/-- The tag of a field with this wire type, whatever its number. -/
def SomeTag (wt : Nat) (bs : Bytes) : Prop := ∃ v, LooseVarint v bs ∧ v % 8 = wt

/-- The tag of a field: its wire type, and its number, of which only the lower 32 bits count, not zero and not negative. -/
def LooseTag (num wt : Nat) (bs : Bytes) : Prop :=
  1 ≤ num ∧ num < 2 ^ 31 ∧ ∃ v, LooseVarint v bs ∧ v % 8 = wt ∧ v / 8 % 2 ^ 32 = num

mutual
/-- What follows the tag of a field of this wire type that is skipped. -/
inductive Skipped : Nat → Bytes → Prop where
  | varint {v : Nat} {x : Bytes} (hx : LooseVarint v x) : Skipped 0 x
  | fixed64 {x : Bytes} (hx : x.length = 8) : Skipped 1 x
  | bytes {l x : Bytes} (hl : LooseVarint x.length l) : Skipped 2 (l ++ x)
  | group {x t : Bytes} (hx : SkippedFields x) (ht : SomeTag 4 t) : Skipped 3 (x ++ t)
  | fixed32 {x : Bytes} (hx : x.length = 4) : Skipped 5 x
/-- The fields of a group that is skipped. -/
inductive SkippedFields : Bytes → Prop where
  | nil : SkippedFields []
  | cons {wt : Nat} {t v fs : Bytes} (ht : SomeTag wt t) (hv : Skipped wt v) (hfs : SkippedFields fs) :
      SkippedFields (t ++ v ++ fs)
end

/-- The number with the given bytes, least significant first. -/
inductive LittleEndian : Nat → Bytes → Prop where
  | nil : LittleEndian 0 []
  | cons (b : UInt8) {v : Nat} {bs : Bytes} (h : LittleEndian v bs) : LittleEndian (b.toNat + 256 * v) (b :: bs)

/-- A field with its number: a number, a number of eight bytes, or bytes. -/
inductive GVal where
  | num (n v : Nat)
  | fix (n v : Nat)
  | bytes (n : Nat) (bs : Bytes)

/-- The numbers of the fields of a message type that are numbers, numbers of eight bytes, and bytes. -/
structure Kinds where
  nums : List Nat
  fixs : List Nat
  lens : List Nat

/-- `bs` is taken for an encoding of these fields, in this order. -/
inductive FieldsRead (k : Kinds) : List GVal → Bytes → Prop where
  | nil : FieldsRead k [] []
  | num {n v : Nat} {t x bs : Bytes} {fs : List GVal} (hn : n ∈ k.nums) (ht : LooseTag n 0 t) (hx : LooseVarint v x)
      (h : FieldsRead k fs bs) : FieldsRead k (.num n v :: fs) (t ++ x ++ bs)
  | fix {n v : Nat} {t x bs : Bytes} {fs : List GVal} (hn : n ∈ k.fixs) (ht : LooseTag n 1 t) (hx : LittleEndian v x)
      (h8 : x.length = 8) (h : FieldsRead k fs bs) : FieldsRead k (.fix n v :: fs) (t ++ x ++ bs)
  | bytes {n : Nat} {t l x bs : Bytes} {fs : List GVal} (hn : n ∈ k.lens) (ht : LooseTag n 2 t) (hl : LooseVarint x.length l)
      (h : FieldsRead k fs bs) : FieldsRead k (.bytes n x :: fs) (t ++ (l ++ x) ++ bs)
  | other {n wt : Nat} {t v bs : Bytes} {fs : List GVal} (hn : n ∉ k.nums ∧ n ∉ k.fixs ∧ n ∉ k.lens)
      (ht : LooseTag n wt t) (hv : Skipped wt v) (h : FieldsRead k fs bs) : FieldsRead k fs (t ++ v ++ bs)

/-! ### Values -/

/-- All values of a field. -/
def numsOf (n : Nat) (fs : List GVal) : List Nat := fs.filterMap fun
  | .num k v => if k = n then some v else none
  | _ => none

def fixsOf (n : Nat) (fs : List GVal) : List Nat := fs.filterMap fun
  | .fix k v => if k = n then some v else none
  | _ => none

def bytesOf (n : Nat) (fs : List GVal) : List Bytes := fs.filterMap fun
  | .bytes k x => if k = n then some x else none
  | _ => none

/-- The integer of 32 or 64 bits, in two's complement, that the last number gives; zero if there is none. -/
def Says32 (l : List Nat) (x : Int) : Prop := IsI32 x ∧ (((l.getLast?.getD 0 : Nat) : Int) - x) % 2 ^ 32 = 0
def Says64 (l : List Nat) (x : Int) : Prop := IsI64 x ∧ (((l.getLast?.getD 0 : Nat) : Int) - x) % 2 ^ 64 = 0

/-- The last bytes, none if there are none. -/
def SaysLast (l : List Bytes) (x : Bytes) : Prop := l.getLast?.getD [] = x

/-- The fields of a message that comes in pieces. -/
inductive Chunks (k : Kinds) : List Bytes → List GVal → Prop where
  | nil : Chunks k [] []
  | cons {x : Bytes} {xs : List Bytes} {fs gs : List GVal} (hx : FieldsRead k fs x) (h : Chunks k xs gs) : Chunks k (x :: xs) (fs ++ gs)

/-! ### The messages of tendermint -/

/-- A time from year 1 to year 9999. -/
def TimeRead (t : GoTime) (bs : Bytes) : Prop :=
  -62135596800 ≤ t.sec ∧ t.sec < 253402300800 ∧ 0 ≤ t.nsec ∧ t.nsec < 1000000000 ∧
  ∃ fs, FieldsRead ⟨[1, 2], [], []⟩ fs bs ∧ Says64 (numsOf 1 fs) t.sec ∧ Says32 (numsOf 2 fs) t.nsec

/-- The last time; all of them are times. Without any it is midnight at the beginning of year 1. -/
def SaysLastTime (l : List Bytes) (t : GoTime) : Prop :=
  (∀ x ∈ l, ∃ t', TimeRead t' x) ∧ ((l = [] ∧ t = ⟨-62135596800, 0⟩) ∨ ∃ x, l.getLast? = some x ∧ TimeRead t x)

/-- A block ID, with its hash and its part set header. -/
def SaysBlockID (l : List Bytes) (hash : Bytes) (total : Nat) (phash : Bytes) : Prop :=
  ∃ fs, Chunks ⟨[], [], [1, 2]⟩ l fs ∧ SaysLast (bytesOf 1 fs) hash ∧
    ∃ gs, Chunks ⟨[1], [], [2]⟩ (bytesOf 2 fs) gs ∧ total = (numsOf 1 gs).getLast?.getD 0 % 2 ^ 32 ∧
      SaysLast (bytesOf 2 gs) phash

/-- A block ID that may be left out. -/
def SaysBlockID? (l : List Bytes) : Option CBlockID → Prop
  | none => l = []
  | some b => l ≠ [] ∧ SaysBlockID l b.hash b.psh.total b.psh.hash

/-- A canonical vote: what cosigners are asked to sign. -/
def CVoteRead (v : CVote) (bs : Bytes) : Prop :=
  ∃ fs, FieldsRead ⟨[1], [2, 3], [4, 5, 6]⟩ fs bs ∧ Says32 (numsOf 1 fs) v.type ∧ Says64 (fixsOf 2 fs) v.height ∧
    Says64 (fixsOf 3 fs) v.round ∧ SaysBlockID? (bytesOf 4 fs) v.blockID ∧ SaysLastTime (bytesOf 5 fs) v.timestamp ∧
    SaysLast (bytesOf 6 fs) v.chainID

/-- A canonical proposal. -/
def CProposalRead (p : CProposal) (bs : Bytes) : Prop :=
  ∃ fs, FieldsRead ⟨[1, 4], [2, 3], [5, 6, 7]⟩ fs bs ∧ Says32 (numsOf 1 fs) p.type ∧ Says64 (fixsOf 2 fs) p.height ∧
    Says64 (fixsOf 3 fs) p.round ∧ Says64 (numsOf 4 fs) p.polRound ∧ SaysBlockID? (bytesOf 5 fs) p.blockID ∧
    SaysLastTime (bytesOf 6 fs) p.timestamp ∧ SaysLast (bytesOf 7 fs) p.chainID

/-- A message after its length; what comes after the message does not matter. -/
def Delimited (read : Bytes → Prop) (bs : Bytes) : Prop :=
  ∃ l body rest : Bytes, bs = l ++ body ++ rest ∧ Varint64 body.length l ∧ body.length < 2 ^ 63 - 1 ∧ read body

/-- A vote, as the fields of a message. -/
def SaysVote (fs : List GVal) (v : Vote) : Prop :=
  Says32 (numsOf 1 fs) v.type ∧ Says64 (numsOf 2 fs) v.height ∧ Says32 (numsOf 3 fs) v.round ∧
  SaysBlockID (bytesOf 4 fs) v.blockID.hash v.blockID.pshTotal v.blockID.pshHash ∧ SaysLastTime (bytesOf 5 fs) v.timestamp ∧
  SaysLast (bytesOf 6 fs) v.validatorAddress ∧ Says32 (numsOf 7 fs) v.validatorIndex ∧ (bytesOf 8 fs).getLast? = v.signature

/-- A proposal, as the fields of a message. -/
def SaysProposal (fs : List GVal) (p : Proposal) : Prop :=
  Says32 (numsOf 1 fs) p.type ∧ Says64 (numsOf 2 fs) p.height ∧ Says32 (numsOf 3 fs) p.round ∧ Says32 (numsOf 4 fs) p.polRound ∧
  SaysBlockID (bytesOf 5 fs) p.blockID.hash p.blockID.pshTotal p.blockID.pshHash ∧ SaysLastTime (bytesOf 6 fs) p.timestamp ∧
  (bytesOf 7 fs).getLast? = p.signature

/-- The kinds of the fields of votes, proposals, public keys and errors. -/
def voteKinds : Kinds := ⟨[1, 2, 3, 7], [], [4, 5, 6, 8]⟩
def proposalKinds : Kinds := ⟨[1, 2, 3, 4], [], [5, 6, 7]⟩
def pubKeyKinds : Kinds := ⟨[], [], [1, 2]⟩
def errorKinds : Kinds := ⟨[1], [], [2]⟩

/-- A public key: the last of its kinds counts. -/
def SaysPubKey (fs : List GVal) : PPubKey → Prop
  | .unset => fs = []
  | .ed25519 k => ∃ before, fs = before ++ [.bytes 1 k]
  | .secp256k1 k => ∃ before, fs = before ++ [.bytes 2 k]

/-- An error that may be left out. -/
def SaysError? (l : List Bytes) : Option RSErr → Prop
  | none => l = []
  | some e => l ≠ [] ∧ ∃ fs, Chunks errorKinds l fs ∧ Says32 (numsOf 1 fs) e.code ∧ SaysLast (bytesOf 2 fs) e.description

/-- A request to sign: what to sign, which may be left out, and the chain ID. -/
def RequestRead {α : Type} (k : Kinds) (says : List GVal → α → Prop) (a? : Option α) (chainID bs : Bytes) : Prop :=
  ∃ fs, FieldsRead ⟨[], [], [1, 2]⟩ fs bs ∧ SaysLast (bytesOf 2 fs) chainID ∧
    match a? with
    | none => bytesOf 1 fs = []
    | some a => bytesOf 1 fs ≠ [] ∧ ∃ gs, Chunks k (bytesOf 1 fs) gs ∧ says gs a

/-- A response: what it holds, and an error that may be left out. -/
def ResponseRead {α : Type} (k : Kinds) (says : List GVal → α → Prop) (a : α) (e? : Option RSErr) (bs : Bytes) : Prop :=
  ∃ fs, FieldsRead ⟨[], [], [1, 2]⟩ fs bs ∧ (∃ gs, Chunks k (bytesOf 1 fs) gs ∧ says gs a) ∧ SaysError? (bytesOf 2 fs) e?

/-- One member of the oneof of a `privval.Message`. -/
def MemberRead (n : Nat) (bs : Bytes) : PMsg → Prop
  | .empty => False
  | .pubKeyRequest c => n = 1 ∧ ∃ fs, FieldsRead ⟨[], [], [1]⟩ fs bs ∧ SaysLast (bytesOf 1 fs) c
  | .pubKeyResponse k e? => n = 2 ∧ ResponseRead pubKeyKinds SaysPubKey k e? bs
  | .signVoteRequest v? c => n = 3 ∧ RequestRead voteKinds SaysVote v? c bs
  | .signedVoteResponse v e? => n = 4 ∧ ResponseRead voteKinds SaysVote v e? bs
  | .signProposalRequest p? c => n = 5 ∧ RequestRead proposalKinds SaysProposal p? c bs
  | .signedProposalResponse p e? => n = 6 ∧ ResponseRead proposalKinds SaysProposal p e? bs
  | .pingRequest => n = 7 ∧ FieldsRead ⟨[], [], []⟩ [] bs
  | .pingResponse => n = 8 ∧ FieldsRead ⟨[], [], []⟩ [] bs

/-- A `privval.Message`: all its members are messages, the last one counts. -/
def MessageRead (m : PMsg) (bs : Bytes) : Prop :=
  ∃ fs, FieldsRead ⟨[], [], [1, 2, 3, 4, 5, 6, 7, 8]⟩ fs bs ∧
    (∀ n x, GVal.bytes n x ∈ fs → ∃ m', MemberRead n x m') ∧
    ((fs = [] ∧ m = .empty) ∨ ∃ before n x, fs = before ++ [.bytes n x] ∧ MemberRead n x m)

/-! ### Sign bytes and keys -/

/-- The time in nanoseconds since 1970, in 64 bits. -/
def NanosOf (t : GoTime) (x : Int) : Prop := IsI64 x ∧ (t.sec * 1000000000 + t.nsec - x) % 2 ^ 64 = 0

/-- What sign bytes are for: those that can be read as a proposal are one, whatever they say their type is. -/
def SignBytesRead (k : HRST) (bs : Bytes) : Prop :=
  (k.step = 1 ∧ ∃ p : CProposal, Delimited (CProposalRead p) bs ∧ k.height = p.height ∧ k.round = p.round ∧
    NanosOf p.timestamp k.timestamp) ∨
  ((¬ ∃ p, Delimited (CProposalRead p) bs) ∧ ∃ v : CVote, Delimited (CVoteRead v) bs ∧
    ((v.type = 1 ∧ k.step = 2) ∨ (v.type = 2 ∧ k.step = 3)) ∧ k.height = v.height ∧ k.round = v.round ∧
    NanosOf v.timestamp k.timestamp)

/-- A public key in a key file: a protobuf message with the key, of the right length, as its last field; or the older amino
encoding, with a key of any length. -/
def PubKeyRead (p : PPubKey) (bs : Bytes) : Prop :=
  (∃ fs, FieldsRead pubKeyKinds fs bs ∧ SaysPubKey fs p ∧ ((∃ k, p = .ed25519 k ∧ k.length = 32) ∨ ∃ k, p = .secp256k1 k ∧ k.length = 33)) ∨
  ∃ l k, p = .ed25519 k ∧ bs = [0x16, 0x24, 0xDE, 0x64] ++ l ++ k ∧ LooseVarint k.length l

end Horcrux.Spec
