import Verif.Spec.Encodings
import Verif.Spec.JsonText
/-
Specification: what the gRPC library takes for an encoding of a message. All encodings that protobuf allows are among them
(`Encodes`), and some more: a field with the number of a known one but of another wire type counts as unknown, and the
numbers of fields within a group go up to 2^31-1.
-/
namespace Horcrux.Spec
open Horcrux

/-- The tag of a field of a group. -/
def InnerTag (num wt : Nat) (bs : Bytes) : Prop := 1 ≤ num ∧ num < 2 ^ 31 ∧ Varint64 (8 * num + wt) bs

mutual
/-- What follows the tag of a field with the given number and wire type. -/
inductive Value : Nat → Nat → Bytes → Prop where
  | varint {num v : Nat} {x : Bytes} (hx : Varint64 v x) : Value num 0 x
  | fixed64 {num : Nat} {x : Bytes} (hx : x.length = 8) : Value num 1 x
  | bytes {num : Nat} {l x : Bytes} (hl : Varint64 x.length l) : Value num 2 (l ++ x)
  | group {num : Nat} {x t : Bytes} (hx : GroupFields x) (ht : InnerTag num 4 t) : Value num 3 (x ++ t)
  | fixed32 {num : Nat} {x : Bytes} (hx : x.length = 4) : Value num 5 x
/-- The fields of a group. -/
inductive GroupFields : Bytes → Prop where
  | nil : GroupFields []
  | cons {num wt : Nat} {t v fs : Bytes} (ht : InnerTag num wt t) (hv : Value num wt v) (hfs : GroupFields fs) :
      GroupFields (t ++ v ++ fs)
end

/-- `bs` is taken for an encoding of these fields, in this order, of a message type that has numbers with the field numbers
`nums` and bytes with the field numbers `lens`. -/
inductive TakenFor (nums lens : List Nat) : List FVal → Bytes → Prop where
  | nil : TakenFor nums lens [] []
  | num {n v : Nat} {t x bs : Bytes} {fs : List FVal} (hn : n ∈ nums) (ht : Tag n 0 t) (hx : Varint64 v x)
      (h : TakenFor nums lens fs bs) : TakenFor nums lens (.num n v :: fs) (t ++ x ++ bs)
  | bytes {n : Nat} {t l x bs : Bytes} {fs : List FVal} (hn : n ∈ lens) (ht : Tag n 2 t) (hl : Varint64 x.length l)
      (h : TakenFor nums lens fs bs) : TakenFor nums lens (.bytes n x :: fs) (t ++ (l ++ x) ++ bs)
  | other {n wt : Nat} {t v bs : Bytes} {fs : List FVal} (hn : ¬ (n ∈ nums ∧ wt = 0) ∧ ¬ (n ∈ lens ∧ wt = 2))
      (ht : Tag n wt t) (hv : Value n wt v) (h : TakenFor nums lens fs bs) : TakenFor nums lens fs (t ++ v ++ bs)

/-- UTF-8 encoded text. -/
def IsText (bs : Bytes) : Prop := ∃ cs : List Char, bs = cs.flatMap utf8

/-- A string that protobuf takes. -/
def Sent (bs : Bytes) : Prop := bs.length < 2 ^ 63 ∧ IsText bs

end Horcrux.Spec
