import Verif.Spec.PrivFile
/-
Specification: which texts are JSON, and what they say (RFC 8259), with the two liberties that Go's decoder takes with
strings: a byte that is not part of a UTF-8 encoding, and an escaped surrogate without its partner, stand for U+FFFD.
Base64 (RFC 4648) and hexadecimal.
-/
namespace Horcrux.Spec
open Horcrux

/-! ### Strings -/

/-- The UTF-8 encoding of a character (a Unicode scalar value), as Lean's own library defines it. -/
abbrev utf8 (c : Char) : Bytes := String.utf8EncodeChar c

/-- A hexadecimal digit and its value. -/
def HexDigit (c : UInt8) (n : Nat) : Prop :=
  (text "0123456789abcdef")[n]? = some c ∨ (text "0123456789ABCDEF")[n]? = some c

/-- Four hexadecimal digits and their value. -/
inductive Hex4 : Bytes → Nat → Prop where
  | mk {a b c d : UInt8} {x y z w : Nat} (ha : HexDigit a x) (hb : HexDigit b y) (hc : HexDigit c z) (hd : HexDigit d w) :
      Hex4 [a, b, c, d] (x * 16 ^ 3 + y * 16 ^ 2 + z * 16 + w)

/-- The letters after a backslash, and what they stand for. -/
def escapes : List (Char × Char) :=
  [('"', '"'), ('\\', '\\'), ('/', '/'), ('b', '\x08'), ('f', '\x0c'), ('n', '\n'), ('r', '\r'), ('t', '\t')]

def HighSurrogate (r : Nat) : Prop := 0xd800 ≤ r ∧ r ≤ 0xdbff
def LowSurrogate (r : Nat) : Prop := 0xdc00 ≤ r ∧ r ≤ 0xdfff

/-- The text begins with an escaped low surrogate. -/
def StartsLow (t : Bytes) : Prop := ∃ d r t', t = text "\\u" ++ d ++ t' ∧ Hex4 d r ∧ LowSurrogate r

/-- The text between the quotes of a string, and the string. -/
inductive Chars : Bytes → Bytes → Prop where
  | nil : Chars [] []
  | char {t s : Bytes} (c : Char) (h : ' ' ≤ c) (hq : c ≠ '"') (hb : c ≠ '\\') (hs : Chars t s) :
      Chars (utf8 c ++ t) (utf8 c ++ s)
  | escape {t s : Bytes} {e c : Char} (h : (e, c) ∈ escapes) (hs : Chars t s) :
      Chars (text "\\" ++ utf8 e ++ t) (utf8 c ++ s)
  | unicode {t s d : Bytes} {c : Char} (h : Hex4 d c.toNat) (hs : Chars t s) :
      Chars (text "\\u" ++ d ++ t) (utf8 c ++ s)
  | pair {t s d d' : Bytes} {hi lo : Nat} {c : Char} (hd : Hex4 d hi) (hd' : Hex4 d' lo) (hh : HighSurrogate hi)
      (hl : LowSurrogate lo) (hc : c.toNat = 0x10000 + (hi - 0xd800) * 2 ^ 10 + (lo - 0xdc00)) (hs : Chars t s) :
      Chars (text "\\u" ++ d ++ text "\\u" ++ d' ++ t) (utf8 c ++ s)
  | alone {t s d : Bytes} {r : Nat} (hd : Hex4 d r) (hr : HighSurrogate r ∧ ¬ StartsLow t ∨ LowSurrogate r)
      (hs : Chars t s) : Chars (text "\\u" ++ d ++ t) (utf8 '�' ++ s)
  | invalid {t s : Bytes} {b : UInt8} (hb : 0x80 ≤ b) (h : ¬ ∃ c t', b :: t = utf8 c ++ t') (hs : Chars t s) :
      Chars (b :: t) (utf8 '�' ++ s)

/-! ### Numbers -/

def Digits (s : Bytes) : Prop := ∀ c ∈ s, c ∈ text "0123456789"

inductive IntText : Bytes → Prop where
  | zero : IntText (text "0")
  | pos {c : UInt8} {s : Bytes} (hc : c ∈ text "123456789") (hs : Digits s) : IntText (c :: s)

inductive FracText : Bytes → Prop where
  | none : FracText []
  | some {s : Bytes} (h : s ≠ []) (hs : Digits s) : FracText (text "." ++ s)

inductive ExpText : Bytes → Prop where
  | none : ExpText []
  | some {e sign s : Bytes} (he : e = text "e" ∨ e = text "E") (hsign : sign = [] ∨ sign = text "+" ∨ sign = text "-")
      (h : s ≠ []) (hs : Digits s) : ExpText (e ++ sign ++ s)

inductive NumText : Bytes → Prop where
  | mk {m i f e : Bytes} (hm : m = [] ∨ m = text "-") (hi : IntText i) (hf : FracText f) (he : ExpText e) :
      NumText (m ++ i ++ f ++ e)

/-! ### Values -/

mutual
/-- The texts of a value. -/
inductive Json : JVal → Bytes → Prop where
  | null : Json .null (text "null")
  | true : Json (.bool true) (text "true")
  | false : Json (.bool false) (text "false")
  | num {s : Bytes} (h : NumText s) : Json (.num s) s
  | str {t s : Bytes} {e : Bool} (h : Chars t s) (he : e = true ↔ 92 ∈ t) : Json (.str s e) (text "\"" ++ t ++ text "\"")
  | noElems {w : Bytes} (hw : Blank w) : Json (.arr .nil) (text "[" ++ w ++ text "]")
  | arr {l : JArr} {t : Bytes} (h : JsonElems l t) : Json (.arr l) (text "[" ++ t ++ text "]")
  | noMembers {w : Bytes} (hw : Blank w) : Json (.obj .nil) (text "{" ++ w ++ text "}")
  | obj {l : JObj} {t : Bytes} (h : JsonMembers l t) : Json (.obj l) (text "{" ++ t ++ text "}")
/-- Elements, separated by commas. -/
inductive JsonElems : JArr → Bytes → Prop where
  | one {v : JVal} {w t w' : Bytes} (hw : Blank w) (hw' : Blank w') (hv : Json v t) :
      JsonElems (.cons v .nil) (w ++ t ++ w')
  | cons {v : JVal} {l : JArr} {w t w' t' : Bytes} (hw : Blank w) (hw' : Blank w') (hv : Json v t)
      (hl : JsonElems l t') : JsonElems (.cons v l) (w ++ t ++ w' ++ text "," ++ t')
/-- Members, separated by commas. -/
inductive JsonMembers : JObj → Bytes → Prop where
  | one {k : Bytes} {v : JVal} {kt t w1 w2 w3 w4 : Bytes} (h1 : Blank w1) (h2 : Blank w2) (h3 : Blank w3) (h4 : Blank w4)
      (hk : Chars kt k) (hv : Json v t) :
      JsonMembers (.cons k v .nil) (w1 ++ text "\"" ++ kt ++ text "\"" ++ w2 ++ text ":" ++ w3 ++ t ++ w4)
  | cons {k : Bytes} {v : JVal} {l : JObj} {kt t t' w1 w2 w3 w4 : Bytes} (h1 : Blank w1) (h2 : Blank w2)
      (h3 : Blank w3) (h4 : Blank w4) (hk : Chars kt k) (hv : Json v t) (hl : JsonMembers l t') :
      JsonMembers (.cons k v l)
        (w1 ++ text "\"" ++ kt ++ text "\"" ++ w2 ++ text ":" ++ w3 ++ t ++ w4 ++ text "," ++ t')
end

mutual
/-- A value in which arrays and objects are nested at most `n` deep. -/
inductive Nested : Nat → JVal → Prop where
  | null (n : Nat) : Nested n .null
  | bool (n : Nat) (b : Bool) : Nested n (.bool b)
  | num (n : Nat) (raw : Bytes) : Nested n (.num raw)
  | str (n : Nat) (s : Bytes) (e : Bool) : Nested n (.str s e)
  | arr {n : Nat} {l : JArr} (h : NestedArr n l) : Nested (n + 1) (.arr l)
  | obj {n : Nat} {l : JObj} (h : NestedObj n l) : Nested (n + 1) (.obj l)
inductive NestedArr : Nat → JArr → Prop where
  | nil (n : Nat) : NestedArr n .nil
  | cons {n : Nat} {v : JVal} {l : JArr} (h : Nested n v) (hl : NestedArr n l) : NestedArr n (.cons v l)
inductive NestedObj : Nat → JObj → Prop where
  | nil (n : Nat) : NestedObj n .nil
  | cons {n : Nat} {k : Bytes} {v : JVal} {l : JObj} (h : Nested n v) (hl : NestedObj n l) : NestedObj n (.cons k v l)
end

/-- A file that holds one value, nested at most 10000 deep. -/
def JsonText (v : JVal) (bs : Bytes) : Prop :=
  (∃ w t w', Blank w ∧ Blank w' ∧ bs = w ++ t ++ w' ∧ Json v t) ∧ Nested 10000 v

/-! ### Integers, hexadecimal and base64 -/

/-- The decimal value of digits. -/
def intValue (s : Bytes) : Nat := s.foldl (fun n c => 10 * n + (c.toNat - 48)) 0

/-- An integer and its text: digits, perhaps with a minus sign. -/
def Decimal (s : Bytes) (n : Int) : Prop :=
  (IntText s ∧ n = intValue s) ∨ ∃ d, IntText d ∧ s = text "-" ++ d ∧ n = -(intValue d : Int)

/-- Hexadecimal text, in capitals or not, and the bytes. -/
inductive HexText : Bytes → Bytes → Prop where
  | nil : HexText [] []
  | cons {a b : UInt8} {x y : Nat} {t s : Bytes} (ha : HexDigit a x) (hb : HexDigit b y) (hs : HexText t s) :
      HexText (a :: b :: t) (UInt8.ofNat (16 * x + y) :: s)

/-- A digit of base64 and its value. -/
def B64Digit (c : UInt8) (n : Nat) : Prop :=
  (text "ABCDEFGHIJKLMNOPQRSTUVWXYZabcdefghijklmnopqrstuvwxyz0123456789+/")[n]? = some c

/-- Groups of four digits stand for three bytes; the last group may be padded. (The bits of a padded group that belong to no
byte are not looked at.) -/
inductive B64Groups : Bytes → Bytes → Prop where
  | nil : B64Groups [] []
  | four {p q r s a b c : UInt8} {x y z w : Nat} {t u : Bytes} (hp : B64Digit p x) (hq : B64Digit q y) (hr : B64Digit r z)
      (hs : B64Digit s w)
      (h : x * 2 ^ 18 + y * 2 ^ 12 + z * 2 ^ 6 + w = a.toNat * 2 ^ 16 + b.toNat * 2 ^ 8 + c.toNat) (ht : B64Groups t u) :
      B64Groups (p :: q :: r :: s :: t) (a :: b :: c :: u)
  | three {p q r a b : UInt8} {x y z : Nat} (hp : B64Digit p x) (hq : B64Digit q y) (hr : B64Digit r z)
      (h : (x * 2 ^ 12 + y * 2 ^ 6 + z) / 2 ^ 2 = a.toNat * 2 ^ 8 + b.toNat) :
      B64Groups ([p, q, r] ++ text "=") [a, b]
  | two {p q a : UInt8} {x y : Nat} (hp : B64Digit p x) (hq : B64Digit q y) (h : (x * 2 ^ 6 + y) / 2 ^ 4 = a.toNat) :
      B64Groups ([p, q] ++ text "==") [a]

/-- Base64, with line breaks anywhere. -/
def B64Text (t s : Bytes) : Prop := B64Groups (t.filter fun c => !(text "\r\n").contains c) s

end Horcrux.Spec
