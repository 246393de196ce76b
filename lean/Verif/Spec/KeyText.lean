import Verif.Spec.StateText
/-
Specification: which texts are the JSON of a key share, and what they say.
-/
namespace Horcrux.Spec
open Horcrux

/-- The same name but for the case of letters. To the letters `k` and `s` there is a second capital each: the Kelvin sign
(U+212A) and the long s (U+017F). -/
inductive SameName : Bytes → Bytes → Prop where
  | nil : SameName [] []
  | same (c : UInt8) {k n : Bytes} (h : SameName k n) : SameName (c :: k) (c :: n)
  | capital {c : UInt8} {k n : Bytes} (hc : 97 ≤ c ∧ c ≤ 122) (h : SameName k n) : SameName ((c - 32) :: k) (c :: n)
  | kelvin {k n : Bytes} (h : SameName k n) : SameName (utf8 '\u212a' ++ k) (107 :: n)
  | longS {k n : Bytes} (h : SameName k n) : SameName (utf8 '\u017f' ++ k) (115 :: n)

/-- The values of the members with a name, in any case. -/
inductive Named (name : String) : JObj → List JVal → Prop where
  | nil : Named name .nil []
  | hit {k : Bytes} {v : JVal} {l : JObj} {vs : List JVal} (hk : SameName k (text name)) (h : Named name l vs) :
      Named name (.cons k v l) (v :: vs)
  | miss {k : Bytes} {v : JVal} {l : JObj} {vs : List JVal} (hk : ¬ SameName k (text name)) (h : Named name l vs) :
      Named name (.cons k v l) vs

/-- The one value a name has in an object, if any. -/
def OneMember (l : JObj) (name : String) (m : Option JVal) : Prop := Named name l m.toList

/-- Bytes, in base64 or as an array of numbers. -/
inductive KeyBytes : Option JVal → Slice → Prop where
  | absent {m : Option JVal} (h : Absent m) : KeyBytes m none
  | base64 {s b : Bytes} {e : Bool} (h : B64Text s b) : KeyBytes (some (.str s e)) (some b)
  | list {l : JArr} {b : Bytes} (h : ByteList l b) : KeyBytes (some (.arr l)) (some b)

/-- A list of those. -/
inductive KeyElems : JArr → List Slice → Prop where
  | nil : KeyElems .nil []
  | cons {v : JVal} {x : Slice} {l : JArr} {xs : List Slice} (hv : KeyBytes (some v) x) (hl : KeyElems l xs) :
      KeyElems (.cons v l) (x :: xs)

inductive KeyList : Option JVal → List Slice → Prop where
  | absent {m : Option JVal} (h : Absent m) : KeyList m []
  | arr {l : JArr} {xs : List Slice} (h : KeyElems l xs) : KeyList (some (.arr l)) xs

/-- An integer. -/
inductive KeyInt : Option JVal → Int → Prop where
  | absent {m : Option JVal} (h : Absent m) : KeyInt m 0
  | plain {raw : Bytes} {n : Int} (hn : Decimal raw n) (hr : IsI64 n) : KeyInt (some (.num raw)) n

/-- What a key share file says. -/
structure RawKey where
  rsaKey : Slice
  pubKey : Slice
  rsaPubs : List Slice
  share : Slice
  id : Int

/-- The text of a key share, no name twice. -/
inductive KeyText (r : RawKey) (bs : Bytes) : Prop where
  | mk {l : JObj} {m1 m2 m3 m4 m5 : Option JVal} (h : JsonText (.obj l) bs)
      (n1 : OneMember l "rsa_key" m1) (h1 : KeyBytes m1 r.rsaKey)
      (n2 : OneMember l "pub_key" m2) (h2 : KeyBytes m2 r.pubKey)
      (n3 : OneMember l "rsa_pubs" m3) (h3 : KeyList m3 r.rsaPubs)
      (n4 : OneMember l "secret_share" m4) (h4 : KeyBytes m4 r.share)
      (n5 : OneMember l "id" m5) (h5 : KeyInt m5 r.id)

/-- No two members of an object have the same name among those of a key share. -/
def NoneTwice (bs : Bytes) : Prop :=
  ∀ l, JsonText (.obj l) bs → ∀ name ∈ ["rsa_key", "pub_key", "rsa_pubs", "secret_share", "id"],
    ∀ vs, Named name l vs → vs.length ≤ 1

/-- The encodings of public keys: protobuf, and the older amino for ed25519. -/
inductive PubKeyText : PPubKey → Bytes → Prop where
  | ed25519 {k : Bytes} (h : k.length = 32) : PubKeyText (.ed25519 k) ([0x0a, 0x20] ++ k)
  | secp256k1 {k : Bytes} (h : k.length = 33) : PubKeyText (.secp256k1 k) ([0x12, 0x21] ++ k)
  | amino {k : Bytes} (h : k.length = 32) : PubKeyText (.ed25519 k) ([0x16, 0x24, 0xDE, 0x64, 0x20] ++ k)

end Horcrux.Spec
