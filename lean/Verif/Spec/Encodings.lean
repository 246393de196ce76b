import Verif.Spec.Fields
import Verif.Model.Remote
/-
Specification: the encodings that protobuf allows for the requests of a chain node. The numbers and types of the fields are
those of tendermint's `privval/types.proto` and `types/types.proto`.
-/
namespace Horcrux.Spec
open Horcrux

/-- A field with its number: a number or bytes. -/
inductive FVal where
  | num (n v : Nat)
  | bytes (n : Nat) (bs : Bytes)

/-- `bs` is an encoding of these fields, in this order, for a message type that has numbers with the field numbers `nums` and
bytes with the field numbers `lens`. There may be other fields anywhere. -/
inductive Encodes (nums lens : List Nat) : List FVal → Bytes → Prop where
  | nil : Encodes nums lens [] []
  | num {n v : Nat} {t x bs : Bytes} {fs : List FVal} (hn : n ∈ nums) (ht : Tag n 0 t) (hx : Varint64 v x)
      (h : Encodes nums lens fs bs) : Encodes nums lens (.num n v :: fs) (t ++ x ++ bs)
  | bytes {n : Nat} {t l x bs : Bytes} {fs : List FVal} (hn : n ∈ lens) (ht : Tag n 2 t) (hl : Varint64 x.length l)
      (h : Encodes nums lens fs bs) : Encodes nums lens (.bytes n x :: fs) (t ++ l ++ x ++ bs)
  | other {n : Nat} {f bs : Bytes} {fs : List FVal} (hn : n ∉ nums ∧ n ∉ lens) (hf : Field n f)
      (h : Encodes nums lens fs bs) : Encodes nums lens fs (f ++ bs)

/-- All numbers with a field number, and all bytes. -/
def nums (n : Nat) (fs : List FVal) : List Nat := fs.filterMap fun
  | .num k v => if k = n then some v else none
  | .bytes _ _ => none

def lens (n : Nat) (fs : List FVal) : List Bytes := fs.filterMap fun
  | .num _ _ => none
  | .bytes k x => if k = n then some x else none

/-- An integer, as 64 bits of two's complement: the last one counts, and it is zero if there is none. -/
def SaysInt (n : Nat) (fs : List FVal) (x : Int) : Prop := (((nums n fs).getLast?.getD 0 : Nat) : Int) = x % 2 ^ 64

/-- Bytes: the last ones count, and none are no bytes. -/
def SaysBytes (n : Nat) (fs : List FVal) (x : Bytes) : Prop := (lens n fs).getLast?.getD [] = x

/-- A message within the message, which may come in pieces. -/
def SaysMsg (n : Nat) (fs : List FVal) (text : Bytes → Prop) : Prop :=
  (∀ x ∈ lens n fs, Fields x) ∧ text (lens n fs).flatten

/-- A part set header. -/
def PSHText (total : Nat) (hash bs : Bytes) : Prop :=
  total < 2 ^ 32 ∧ ∃ fs, Encodes [1] [2] fs bs ∧ SaysInt 1 fs total ∧ SaysBytes 2 fs hash

/-- A block ID. -/
def BlockIDText (b : BlockID) (bs : Bytes) : Prop :=
  ∃ fs, Encodes [] [1, 2] fs bs ∧ SaysBytes 1 fs b.hash ∧ SaysMsg 2 fs (PSHText b.pshTotal b.pshHash)

/-- A time from year 1 to year 9999. -/
def TimeText (t : GoTime) (bs : Bytes) : Prop :=
  -62135596800 ≤ t.sec ∧ t.sec < 253402300800 ∧ 0 ≤ t.nsec ∧ t.nsec < 1000000000 ∧
  ∃ fs, Encodes [1, 2] [] fs bs ∧ SaysInt 1 fs t.sec ∧ SaysInt 2 fs t.nsec

/-- A time that is not left out; if there are several, the last one counts (they are not merged). -/
def SaysTime (n : Nat) (fs : List FVal) (t : GoTime) : Prop :=
  ∃ before x, lens n fs = before ++ [x] ∧ TimeText t x ∧ ∀ y ∈ before, ∃ t', TimeText t' y

/-- A vote. -/
def VoteText (v : Vote) (bs : Bytes) : Prop :=
  IsI32 v.type ∧ IsI64 v.height ∧ IsI32 v.round ∧ IsI32 v.validatorIndex ∧
  ∃ fs, Encodes [1, 2, 3, 7] [4, 5, 6, 8] fs bs ∧ SaysInt 1 fs v.type ∧ SaysInt 2 fs v.height ∧ SaysInt 3 fs v.round ∧
    SaysMsg 4 fs (BlockIDText v.blockID) ∧ SaysTime 5 fs v.timestamp ∧ SaysBytes 6 fs v.validatorAddress ∧
    SaysInt 7 fs v.validatorIndex ∧ (lens 8 fs).getLast? = v.signature

/-- A proposal. -/
def ProposalText (p : Proposal) (bs : Bytes) : Prop :=
  IsI32 p.type ∧ IsI64 p.height ∧ IsI32 p.round ∧ IsI32 p.polRound ∧
  ∃ fs, Encodes [1, 2, 3, 4] [5, 6, 7] fs bs ∧ SaysInt 1 fs p.type ∧ SaysInt 2 fs p.height ∧ SaysInt 3 fs p.round ∧
    SaysInt 4 fs p.polRound ∧ SaysMsg 5 fs (BlockIDText p.blockID) ∧ SaysTime 6 fs p.timestamp ∧
    (lens 7 fs).getLast? = p.signature

/-- A request to sign a vote or a proposal. -/
def SignText (text : Bytes → Prop) (chainID bs : Bytes) : Prop :=
  ∃ fs, Encodes [] [1, 2] fs bs ∧ lens 1 fs ≠ [] ∧ SaysMsg 1 fs text ∧ SaysBytes 2 fs chainID

/-- What a message of a chain node says. -/
inductive RequestText : PMsg → Bytes → Prop where
  | pubKey {c x bs : Bytes} {fs : List FVal} (h : Encodes [] [1, 2, 3, 4, 5, 6, 7, 8] [.bytes 1 x] bs) (hx : Encodes [] [1] fs x)
      (hc : SaysBytes 1 fs c) : RequestText (.pubKeyRequest c) bs
  | vote {v : Vote} {c x bs : Bytes} (h : Encodes [] [1, 2, 3, 4, 5, 6, 7, 8] [.bytes 3 x] bs) (hx : SignText (VoteText v) c x) :
      RequestText (.signVoteRequest (some v) c) bs
  | proposal {p : Proposal} {c x bs : Bytes} (h : Encodes [] [1, 2, 3, 4, 5, 6, 7, 8] [.bytes 5 x] bs)
      (hx : SignText (ProposalText p) c x) : RequestText (.signProposalRequest (some p) c) bs
  | ping {x bs : Bytes} (h : Encodes [] [1, 2, 3, 4, 5, 6, 7, 8] [.bytes 7 x] bs) (hx : Fields x) : RequestText .pingRequest bs

end Horcrux.Spec
