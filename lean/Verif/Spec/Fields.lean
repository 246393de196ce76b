import Verif.Model.Wire
/-
Specification: the protobuf wire format, and sign bytes with more in them than a message of this version has.
-/
namespace Horcrux.Spec
open Horcrux

/-- Base-128 digits, least significant first; all but the last have the top bit set. Leading zeros are allowed. -/
inductive Varint : Nat → Bytes → Prop where
  | last (b : UInt8) (h : b.toNat < 128) : Varint b.toNat [b]
  | more (b : UInt8) (h : 128 ≤ b.toNat) {v : Nat} {bs : Bytes} (hv : Varint v bs) :
      Varint (b.toNat - 128 + 128 * v) (b :: bs)

/-- A varint of a 64-bit number, in at most ten bytes. -/
def Varint64 (v : Nat) (bs : Bytes) : Prop := Varint v bs ∧ v < 2 ^ 64 ∧ bs.length ≤ 10

/-- The tag of a field: its number and its wire type. -/
def Tag (num wt : Nat) (bs : Bytes) : Prop := 1 ≤ num ∧ num < 2 ^ 29 ∧ Varint64 (8 * num + wt) bs

mutual
/-- The encodings of one field with the given number, of any type. -/
inductive Field : Nat → Bytes → Prop where
  | varint {num v : Nat} {t x : Bytes} (ht : Tag num 0 t) (hx : Varint64 v x) : Field num (t ++ x)
  | fixed64 {num : Nat} {t x : Bytes} (ht : Tag num 1 t) (hx : x.length = 8) : Field num (t ++ x)
  | bytes {num : Nat} {t l x : Bytes} (ht : Tag num 2 t) (hl : Varint64 x.length l) : Field num (t ++ l ++ x)
  | group {num : Nat} {t x t' : Bytes} (ht : Tag num 3 t) (hx : Fields x) (ht' : Tag num 4 t') : Field num (t ++ x ++ t')
  | fixed32 {num : Nat} {t x : Bytes} (ht : Tag num 5 t) (hx : x.length = 4) : Field num (t ++ x)
/-- Fields one after the other. -/
inductive Fields : Bytes → Prop where
  | nil : Fields []
  | cons {num : Nat} {f fs : Bytes} (hf : Field num f) (hfs : Fields fs) : Fields (f ++ fs)
end

/-- Fields that neither a vote nor a proposal has. -/
inductive NewFields : Bytes → Prop where
  | nil : NewFields []
  | cons {num : Nat} {f fs : Bytes} (hn : 8 ≤ num) (hf : Field num f) (hfs : NewFields fs) : NewFields (f ++ fs)

/-- `bs'` holds the message of `bs`, with further fields at one place between the fields, and anything after the end. -/
def Extended (bs bs' : Bytes) : Prop :=
  ∃ a u b trail : Bytes, Fields a ∧ NewFields u ∧ (a ++ u ++ b).length < 2 ^ 63 - 1 ∧ bs = delimit (a ++ b) ∧
    bs' = delimit (a ++ u ++ b) ++ trail

end Horcrux.Spec
