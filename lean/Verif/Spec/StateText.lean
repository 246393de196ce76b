import Verif.Spec.JsonText
/-
Specification: which texts are sign state files, and what they say.
-/
namespace Horcrux.Spec
open Horcrux

/-- The members of an object, in order. -/
def membersOf : JObj → List (Bytes × JVal)
  | .nil => []
  | .cons k v l => (k, v) :: membersOf l

/-- The last member with a name. -/
def lastNamed (l : JObj) (name : String) : Option JVal :=
  (((membersOf l).filter fun m => m.1 = text name).getLast?).map Prod.snd

/-- No such member, or `null`. -/
def Absent (m : Option JVal) : Prop := m = none ∨ m = some .null

/-- A 64-bit integer: in quotes, without escape sequences. -/
inductive Int64Member : Option JVal → Int → Prop where
  | absent {m : Option JVal} (h : Absent m) : Int64Member m 0
  | quoted {s raw : Bytes} {n : Int} (h : JsonText (.num raw) s) (hn : Decimal raw n) (hr : IsI64 n) :
      Int64Member (some (.str s false)) n
  | quotedNull {s : Bytes} (h : JsonText .null s) : Int64Member (some (.str s false)) 0

/-- An 8-bit integer: without quotes. -/
inductive Int8Member : Option JVal → Int → Prop where
  | absent {m : Option JVal} (h : Absent m) : Int8Member m 0
  | plain {raw : Bytes} {n : Int} (hn : Decimal raw n) (hr : IsI8 n) : Int8Member (some (.num raw)) n

/-- Numbers below 256 in an array; `null` counts as 0. -/
inductive ByteList : JArr → Bytes → Prop where
  | nil : ByteList .nil []
  | num {raw : Bytes} {c : UInt8} {l : JArr} {b : Bytes} (h : IntText raw) (hc : intValue raw = c.toNat) (hl : ByteList l b) :
      ByteList (.cons (.num raw) l) (c :: b)
  | null {l : JArr} {b : Bytes} (hl : ByteList l b) : ByteList (.cons .null l) (0 :: b)

/-- Bytes in base64 or as an array of numbers; no bytes are nil. -/
inductive BytesMember : Option JVal → Slice → Prop where
  | absent {m : Option JVal} (h : Absent m) : BytesMember m none
  | empty {s : Bytes} {e : Bool} (h : B64Text s []) : BytesMember (some (.str s e)) none
  | base64 {s b : Bytes} {e : Bool} (h : B64Text s b) (hb : b ≠ []) : BytesMember (some (.str s e)) (some b)
  | emptyList {l : JArr} (h : ByteList l []) : BytesMember (some (.arr l)) none
  | list {l : JArr} {b : Bytes} (h : ByteList l b) (hb : b ≠ []) : BytesMember (some (.arr l)) (some b)

/-- Bytes in hexadecimal, without escape sequences. -/
inductive HexMember : Option JVal → Slice → Prop where
  | absent {m : Option JVal} (h : Absent m) : HexMember m none
  | hex {s b : Bytes} (h : HexText s b) : HexMember (some (.str s false)) (some b)

/-- The text of a sign state file. -/
inductive StateText : PFile → Bytes → Prop where
  | null {bs : Bytes} (h : JsonText .null bs) : StateText ⟨0, 0, 0, none, none, none⟩ bs
  | obj {f : PFile} {l : JObj} {bs : Bytes} (h : JsonText (.obj l) bs) (hh : Int64Member (lastNamed l "height") f.height)
      (hr : Int64Member (lastNamed l "round") f.round) (hs : Int8Member (lastNamed l "step") f.step)
      (he : BytesMember (lastNamed l "ephemeral_public") f.ephemeralPublic)
      (hg : BytesMember (lastNamed l "signature") f.signature) (hb : HexMember (lastNamed l "signbytes") f.signBytes) :
      StateText f bs

end Horcrux.Spec
