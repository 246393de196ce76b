import Verif.Spec.Protowire
import Verif.Model.Cosigner
import Verif.Model.Validator
/-
Specification: what the bytes of a gRPC message between cosigners say. The numbers and types of the fields are those of
`signer/proto/cosigner_grpc_server.proto`. As everywhere in protobuf, the last value of a field counts, what is left out is
zero, a message within a message may come in pieces, and unknown fields are stepped over.
-/
namespace Horcrux.Spec
open Horcrux

/-- An integer of `w` bits: the low bits of the last number, in two's complement. -/
def SaysBits (w n : Nat) (fs : List FVal) (x : Int) : Prop :=
  -(2 ^ (w - 1)) ≤ x ∧ x < 2 ^ (w - 1) ∧ ∃ q : Int, (((nums n fs).getLast?.getD 0 : Nat) : Int) = x + 2 ^ w * q

/-- Bytes which are nil if there are none. -/
def SaysSlice (n : Nat) (fs : List FVal) (x : Slice) : Prop :=
  (x = none ∧ SaysBytes n fs []) ∨ ∃ bs, x = some bs ∧ bs ≠ [] ∧ SaysBytes n fs bs

/-- A string: all of them are text, and the last one counts. -/
def SaysString (n : Nat) (fs : List FVal) (x : Bytes) : Prop := (∀ y ∈ lens n fs, IsText y) ∧ SaysBytes n fs x

/-- A moment: the nanoseconds since 1970. -/
def SaysMoment (n : Nat) (fs : List FVal) (t : GoTime) : Prop :=
  0 ≤ t.nsec ∧ t.nsec < 1000000000 ∧ SaysBits 64 n fs (t.sec * 1000000000 + t.nsec)

/-- The fields of a message that comes in pieces are those of the pieces, one after the other. -/
inductive Pieces (ns ls : List Nat) : List Bytes → List FVal → Prop where
  | nil : Pieces ns ls [] []
  | cons {x : Bytes} {xs : List Bytes} {fs gs : List FVal} (h : TakenFor ns ls fs x) (hs : Pieces ns ls xs gs) :
      Pieces ns ls (x :: xs) (fs ++ gs)

/-- `message Block`. -/
def SaysBlock (n : Nat) (fs : List FVal) (b : Block) : Prop :=
  ∃ gs, Pieces [1, 2, 3, 5] [4] (lens n fs) gs ∧ SaysBits 64 1 gs b.height ∧ SaysBits 64 2 gs b.round ∧
    SaysBits 8 3 gs b.step ∧ SaysBytes 4 gs b.signBytes ∧ SaysMoment 5 gs b.timestamp

/-- `message HRST`. -/
def SaysHRST (n : Nat) (fs : List FVal) (k : HRST) : Prop :=
  ∃ gs, Pieces [1, 2, 3, 4] [] (lens n fs) gs ∧ SaysBits 64 1 gs k.height ∧ SaysBits 64 2 gs k.round ∧
    SaysBits 8 3 gs k.step ∧ SaysBits 64 4 gs k.timestamp

/-- `message EphemeralSecretPart`. -/
def PartText (p : SecretPart) (bs : Bytes) : Prop :=
  ∃ fs, TakenFor [1, 2] [3, 4, 5] fs bs ∧ SaysBits 32 1 fs p.sourceID ∧ SaysBits 32 2 fs p.destinationID ∧
    SaysSlice 3 fs p.ephemeralPublic ∧ SaysSlice 4 fs p.encrypted ∧ SaysSlice 5 fs p.sourceSig

/-- `repeated EphemeralSecretPart`: in the order of the message, none of them merged. -/
inductive PartsText : List SecretPart → List Bytes → Prop where
  | nil : PartsText [] []
  | cons {p : SecretPart} {x : Bytes} {ps : List SecretPart} {xs : List Bytes} (h : PartText p x) (hs : PartsText ps xs) :
      PartsText (p :: ps) (x :: xs)

def SaysParts (n : Nat) (fs : List FVal) (ps : List SecretPart) : Prop := PartsText ps (lens n fs)

/-- `message CosignerGRPCSignBlockRequest`. -/
def SignBlockText (chainID : Bytes) (b : Block) (bs : Bytes) : Prop :=
  ∃ fs, TakenFor [] [1, 2] fs bs ∧ SaysString 1 fs chainID ∧ SaysBlock 2 fs b

/-- `message CosignerGRPCSignBlockResponse`. -/
def SignBlockResText (sig : Slice) (bs : Bytes) : Prop := ∃ fs, TakenFor [] [1] fs bs ∧ SaysSlice 1 fs sig

/-- `message CosignerGRPCGetEphemeralSecretPartsRequest`. -/
def GetText (k : HRST) (bs : Bytes) : Prop := ∃ fs, TakenFor [] [1] fs bs ∧ SaysHRST 1 fs k

/-- `message CosignerGRPCGetEphemeralSecretPartsResponse`. -/
def GetResText (ps : List SecretPart) (bs : Bytes) : Prop := ∃ fs, TakenFor [] [1] fs bs ∧ SaysParts 1 fs ps

/-- `message CosignerGRPCSetEphemeralSecretPartsAndSignRequest`. -/
def SetSignText (ps : List SecretPart) (k : HRST) (signBytes bs : Bytes) : Prop :=
  ∃ fs, TakenFor [] [1, 2, 3] fs bs ∧ SaysParts 1 fs ps ∧ SaysHRST 2 fs k ∧ SaysBytes 3 fs signBytes

/-- `message CosignerGRPCSetEphemeralSecretPartsAndSignResponse`. -/
def SetSignResText (eph : Slice) (t : GoTime) (sig : Slice) (bs : Bytes) : Prop :=
  ∃ fs, TakenFor [2] [1, 3] fs bs ∧ SaysSlice 1 fs eph ∧ SaysMoment 2 fs t ∧ SaysSlice 3 fs sig

/-- `message CosignerGRPCTransferLeadershipRequest`. -/
def TransferText (leaderID bs : Bytes) : Prop := ∃ fs, TakenFor [] [1] fs bs ∧ SaysString 1 fs leaderID

/-- `message CosignerGRPCTransferLeadershipResponse`. -/
def TransferResText (leaderID leaderAddress bs : Bytes) : Prop :=
  ∃ fs, TakenFor [] [1, 2] fs bs ∧ SaysBytes 1 fs leaderID ∧ SaysBytes 2 fs leaderAddress

end Horcrux.Spec
