import Verif.Model.Config
/-
JSON as Go's `encoding/json` writes and reads it (standard library, part of the trusted base; modelled from knowledge
of that code, Go 1.17). It is used for raft log entries, raft events and snapshots (`signer/raft_store.go`,
`signer/raft_events.go`) and for key files (`signer/cosigner_key.go`).
-/
namespace Horcrux

/-! ### Values -/

mutual
/-- A JSON value. Numbers are kept as written; strings are the decoded byte strings, with whether an escape sequence was used
to write them (some readers work on the text as it is written; see `setHex`). -/
inductive JVal where
  | null
  | bool (b : Bool)
  | num (raw : Bytes)
  | str (s : Bytes) (esc : Bool)
  | arr (l : JArr)
  | obj (l : JObj)
/-- The elements of an array. -/
inductive JArr where
  | nil
  | cons (v : JVal) (l : JArr)
/-- The members of an object, in order. -/
inductive JObj where
  | nil
  | cons (k : Bytes) (v : JVal) (l : JObj)
end

/-! ### UTF-8 -/

/-- A continuation byte within bounds. -/
def inRange (lo hi b : UInt8) : Bool := decide (lo ≤ b) && decide (b ≤ hi)

/-- The rest of a three-byte rune (no overlong forms, no surrogates). -/
def tail3 (a b c : UInt8) : Bool :=
  inRange (if a = 0xe0 then 0xa0 else 0x80) (if a = 0xed then 0x9f else 0xbf) b && inRange 0x80 0xbf c

/-- The rest of a four-byte rune (no overlong forms, nothing above U+10FFFF). -/
def tail4 (a b c d : UInt8) : Bool :=
  inRange (if a = 0xf0 then 0x90 else 0x80) (if a = 0xf4 then 0x8f else 0xbf) b && inRange 0x80 0xbf c &&
    inRange 0x80 0xbf d

/-- `utf8.DecodeRune` of a string that starts with a byte `≥ 0x80`: the number of bytes of the first rune, 0 if the
encoding is invalid (`RuneError` of width 1). -/
def runeLen : Bytes → Nat
  | a :: b :: rest =>
    if inRange 0xc2 0xdf a then (if inRange 0x80 0xbf b then 2 else 0)
    else
      match rest with
      | [] => 0
      | c :: rest' =>
        if inRange 0xe0 0xef a then (if tail3 a b c then 3 else 0)
        else
          match rest' with
          | [] => 0
          | d :: _ =>
            if inRange 0xf0 0xf4 a then (if tail4 a b c d then 4 else 0) else 0
  | _ => 0

/-- U+FFFD in UTF-8. -/
def replacement : Bytes := [0xef, 0xbf, 0xbd]

/-- A string with every invalid byte replaced by U+FFFD: what is left of a string after JSON. -/
def sanitizeAux : Nat → Bytes → Bytes
  | 0, _ => []
  | _, [] => []
  | f + 1, c :: s =>
    if c < 0x80 then c :: sanitizeAux f s
    else
      match runeLen (c :: s) with
      | 0 => replacement ++ sanitizeAux f s
      | n + 1 => (c :: s).take (n + 1) ++ sanitizeAux f (s.drop n)

def sanitize (s : Bytes) : Bytes := sanitizeAux s.length s

/-- `utf8.EncodeRune` (surrogates and values above U+10FFFF become U+FFFD). -/
def encodeRune (r : Nat) : Bytes :=
  if r < 0x80 then [UInt8.ofNat r]
  else if r < 0x800 then [UInt8.ofNat (0xc0 + r / 64), UInt8.ofNat (0x80 + r % 64)]
  else if (0xd800 ≤ r ∧ r < 0xe000) ∨ 0x110000 ≤ r then replacement
  else if r < 0x10000 then
    [UInt8.ofNat (0xe0 + r / 4096), UInt8.ofNat (0x80 + r / 64 % 64), UInt8.ofNat (0x80 + r % 64)]
  else
    [UInt8.ofNat (0xf0 + r / 262144), UInt8.ofNat (0x80 + r / 4096 % 64), UInt8.ofNat (0x80 + r / 64 % 64),
      UInt8.ofNat (0x80 + r % 64)]

/-! ### Writing -/

/-- Lower-case hexadecimal digit. -/
def hexDigit (n : Nat) : UInt8 := UInt8.ofNat (if n < 10 then 48 + n else 87 + n)

/-- `\u00XY`. -/
def escHex (c : UInt8) : Bytes := [92, 117, 48, 48, hexDigit (c.toNat / 16), hexDigit (c.toNat % 16)]

/-- One ASCII byte in a string (`encodeState.string` with `escapeHTML`). -/
def escAscii (c : UInt8) : Bytes :=
  if c = 34 then [92, 34]
  else if c = 92 then [92, 92]
  else if c = 10 then [92, 110]
  else if c = 13 then [92, 114]
  else if c = 9 then [92, 116]
  else if c < 32 ∨ c = 60 ∨ c = 62 ∨ c = 38 then escHex c
  else [c]

/-- The inside of a string (`encodeState.string`). -/
def encodeStrAux : Nat → Bytes → Bytes
  | 0, _ => []
  | _, [] => []
  | f + 1, c :: s =>
    if c < 0x80 then escAscii c ++ encodeStrAux f s
    else
      match runeLen (c :: s) with
      | 0 => [92, 117, 102, 102, 102, 100] ++ encodeStrAux f s
      | n + 1 =>
        -- U+2028 and U+2029
        (if (c :: s).take (n + 1) = [0xe2, 0x80, 0xa8] then [92, 117, 50, 48, 50, 56]
         else if (c :: s).take (n + 1) = [0xe2, 0x80, 0xa9] then [92, 117, 50, 48, 50, 57]
         else (c :: s).take (n + 1)) ++ encodeStrAux f (s.drop n)

/-- A string with its quotes. -/
def printStr (s : Bytes) : Bytes := 34 :: (encodeStrAux s.length s ++ [34])

mutual
/-- `json.Marshal`, compact. -/
def JVal.print : JVal → Bytes
  | .null => [110, 117, 108, 108]
  | .bool true => [116, 114, 117, 101]
  | .bool false => [102, 97, 108, 115, 101]
  | .num raw => raw
  | .str s _ => printStr s
  | .arr l => 91 :: (l.print true ++ [93])
  | .obj l => 123 :: (l.print true ++ [125])
/-- Elements; `first` tells whether no comma precedes. -/
def JArr.print : Bool → JArr → Bytes
  | _, .nil => []
  | first, .cons v l => (if first then [] else [44]) ++ (v.print ++ l.print false)
/-- Members. -/
def JObj.print : Bool → JObj → Bytes
  | _, .nil => []
  | first, .cons k v l => (if first then [] else [44]) ++ (printStr k ++ (58 :: (v.print ++ l.print false)))
end

/-! ### Reading -/

/-- Skip white space. -/
def skipWs : Bytes → Bytes
  | [] => []
  | c :: s => if c = 32 ∨ c = 9 ∨ c = 10 ∨ c = 13 then skipWs s else c :: s

/-- Value of a hexadecimal digit. -/
def hexVal (c : UInt8) : Option Nat :=
  if 48 ≤ c ∧ c ≤ 57 then some (c.toNat - 48)
  else if 97 ≤ c ∧ c ≤ 102 then some (c.toNat - 87)
  else if 65 ≤ c ∧ c ≤ 70 then some (c.toNat - 55)
  else none

/-- Four hexadecimal digits (`getu4`). -/
def hex4 : Bytes → Option (Nat × Bytes)
  | a :: b :: c :: d :: rest =>
    match hexVal a, hexVal b, hexVal c, hexVal d with
    | some a, some b, some c, some d => some (((a * 16 + b) * 16 + c) * 16 + d, rest)
    | _, _, _, _ => none
  | _ => none

/-- The single-letter escapes. -/
def unescape (c : UInt8) : Option UInt8 :=
  if c = 34 then some 34
  else if c = 92 then some 92
  else if c = 47 then some 47
  else if c = 98 then some 8
  else if c = 102 then some 12
  else if c = 110 then some 10
  else if c = 114 then some 13
  else if c = 116 then some 9
  else none

/-- What follows `\u` and four digits with value `r`: the rune's bytes and the rest. A high surrogate takes a following
`\uXXXX` low surrogate with it; any other surrogate is U+FFFD. -/
def uEscape (r : Nat) (rest : Bytes) : Bytes × Bytes :=
  if 0xd800 ≤ r ∧ r < 0xdc00 then
    match rest with
    | 92 :: 117 :: rest' =>
      match hex4 rest' with
      | some (r2, rest'') =>
        if 0xdc00 ≤ r2 ∧ r2 < 0xe000 then (encodeRune (0x10000 + (r - 0xd800) * 1024 + (r2 - 0xdc00)), rest'')
        else (replacement, rest)
      | none => (replacement, rest)
    | _ => (replacement, rest)
  else (encodeRune r, rest)

/-- Put decoded bytes in front of what the rest of the string decodes to. -/
def consStr (bs : Bytes) : Option (Bytes × Bytes) → Option (Bytes × Bytes)
  | none => none
  | some (s, rest) => some (bs ++ s, rest)

/-- A string after its opening quote (the scanner's string states and `unquoteBytes`): contents and what follows the
closing quote. -/
def parseStrAux : Nat → Bytes → Option (Bytes × Bytes)
  | 0, _ => none
  | _, [] => none
  | f + 1, c :: s =>
    if c = 34 then some ([], s)
    else if c = 92 then
      match s with
      | [] => none
      | e :: s' =>
        if e = 117 then
          match hex4 s' with
          | none => none
          | some (r, rest) => consStr (uEscape r rest).1 (parseStrAux f (uEscape r rest).2)
        else
          match unescape e with
          | none => none
          | some b => consStr [b] (parseStrAux f s')
    else if c < 32 then none
    else if c < 0x80 then consStr [c] (parseStrAux f s)
    else
      match runeLen (c :: s) with
      | 0 => consStr replacement (parseStrAux f s)
      | n + 1 => consStr ((c :: s).take (n + 1)) (parseStrAux f (s.drop n))

def parseStr (s : Bytes) : Option (Bytes × Bytes) := parseStrAux (s.length + 1) s

def isDigit (c : UInt8) : Bool := decide (48 ≤ c) && decide (c ≤ 57)

/-- The leading digits and the rest. -/
def spanDigits : Bytes → Bytes × Bytes
  | [] => ([], [])
  | c :: s => if isDigit c then (c :: (spanDigits s).1, (spanDigits s).2) else ([], c :: s)

/-- An optional fraction; `none` if a point is not followed by a digit. -/
def fracPart : Bytes → Option (Bytes × Bytes)
  | 46 :: s => if (spanDigits s).1 = [] then none else some (46 :: (spanDigits s).1, (spanDigits s).2)
  | s => some ([], s)

/-- An optional sign. -/
def signPart : Bytes → Bytes × Bytes
  | [] => ([], [])
  | c :: s => if c = 43 ∨ c = 45 then ([c], s) else ([], c :: s)

/-- An optional exponent. -/
def expPart : Bytes → Option (Bytes × Bytes)
  | [] => some ([], [])
  | c :: s =>
    if c = 101 ∨ c = 69 then
      if (spanDigits (signPart s).2).1 = [] then none
      else some (c :: ((signPart s).1 ++ (spanDigits (signPart s).2).1), (spanDigits (signPart s).2).2)
    else some ([], c :: s)

/-- The integer part: `0` or digits not beginning with `0`. -/
def intPart : Bytes → Option (Bytes × Bytes)
  | [] => none
  | c :: s => if c = 48 then some ([48], s) else if isDigit c then some (spanDigits (c :: s)) else none

/-- An optional minus sign. -/
def minusPart : Bytes → Bytes × Bytes
  | 45 :: s => ([45], s)
  | s => ([], s)

/-- A number literal. -/
def parseNum (s : Bytes) : Option (Bytes × Bytes) :=
  match intPart (minusPart s).2 with
  | none => none
  | some (i, s1) =>
    match fracPart s1 with
    | none => none
    | some (fr, s2) =>
      match expPart s2 with
      | none => none
      | some (ex, s3) => some ((minusPart s).1 ++ i ++ fr ++ ex, s3)

mutual
/-- A value at the start of the input (after white space), and the rest. -/
def parseVal : Nat → Bytes → Option (JVal × Bytes)
  | 0, _ => none
  | f + 1, bs =>
    match skipWs bs with
    | [] => none
    | c :: s =>
      if c = 123 then
        match skipWs s with
        | 125 :: rest => some (.obj .nil, rest)
        | s' => match parseMembers f s' with
          | none => none
          | some (l, rest) => some (.obj l, rest)
      else if c = 91 then
        match skipWs s with
        | 93 :: rest => some (.arr .nil, rest)
        | s' => match parseElems f s' with
          | none => none
          | some (l, rest) => some (.arr l, rest)
      else if c = 34 then
        match parseStr s with
        | none => none
        | some (t, rest) => some (.str t ((s.take (s.length - rest.length)).contains 92), rest)
      else if c = 110 then
        match s with
        | 117 :: 108 :: 108 :: rest => some (.null, rest)
        | _ => none
      else if c = 116 then
        match s with
        | 114 :: 117 :: 101 :: rest => some (.bool true, rest)
        | _ => none
      else if c = 102 then
        match s with
        | 97 :: 108 :: 115 :: 101 :: rest => some (.bool false, rest)
        | _ => none
      else
        match parseNum (c :: s) with
        | none => none
        | some (n, rest) => some (.num n, rest)
/-- Elements up to the closing bracket. -/
def parseElems : Nat → Bytes → Option (JArr × Bytes)
  | 0, _ => none
  | f + 1, bs =>
    match parseVal f bs with
    | none => none
    | some (v, rest) =>
      match skipWs rest with
      | 44 :: rest' =>
        match parseElems f rest' with
        | none => none
        | some (l, r) => some (.cons v l, r)
      | 93 :: rest' => some (.cons v .nil, rest')
      | _ => none
/-- Members up to the closing brace. -/
def parseMembers : Nat → Bytes → Option (JObj × Bytes)
  | 0, _ => none
  | f + 1, bs =>
    match skipWs bs with
    | 34 :: s =>
      match parseStr s with
      | none => none
      | some (k, s1) =>
        match skipWs s1 with
        | 58 :: s2 =>
          match parseVal f s2 with
          | none => none
          | some (v, rest) =>
            match skipWs rest with
            | 44 :: rest' =>
              match parseMembers f rest' with
              | none => none
              | some (l, r) => some (.cons k v l, r)
            | 125 :: rest' => some (.cons k v .nil, rest')
            | _ => none
        | _ => none
    | _ => none
end

mutual
/-- How deep arrays and objects are nested in a value. -/
def JVal.depth : JVal → Nat
  | .arr l => l.depth + 1
  | .obj l => l.depth + 1
  | _ => 0
def JArr.depth : JArr → Nat
  | .nil => 0
  | .cons v l => max v.depth l.depth
def JObj.depth : JObj → Nat
  | .nil => 0
  | .cons _ v l => max v.depth l.depth
end

/-- `encoding/json` `maxNestingDepth`: the scanner refuses what is nested deeper. -/
def maxNesting : Nat := 10000

/-- `json.Decoder.Decode`: the first value of the input. -/
def parseFirst (bs : Bytes) : Option JVal :=
  match parseVal (2 * bs.length + 2) bs with
  | none => none
  | some (v, _) => if v.depth ≤ maxNesting then some v else none

/-- `json.Unmarshal`: one value and nothing else. -/
def parseJson (bs : Bytes) : Option JVal :=
  match parseVal (2 * bs.length + 2) bs with
  | none => none
  | some (v, rest) => if skipWs rest = [] ∧ v.depth ≤ maxNesting then some v else none

/-! ### Numbers, base64, hex -/

/-- Decimal digits of `n` in front of `acc`. -/
def decAux : Nat → Nat → Bytes → Bytes
  | 0, _, acc => acc
  | f + 1, n, acc =>
    if n < 10 then UInt8.ofNat (48 + n) :: acc else decAux f (n / 10) (UInt8.ofNat (48 + n % 10) :: acc)

def decNat (n : Nat) : Bytes := decAux (n + 1) n []

/-- `strconv.FormatInt(x, 10)`. -/
def decInt (x : Int) : Bytes := if x < 0 then 45 :: decNat x.natAbs else decNat x.natAbs

/-- The base64 alphabet. -/
def b64Char (n : Nat) : UInt8 :=
  UInt8.ofNat (if n < 26 then 65 + n else if n < 52 then 71 + n else if n < 62 then n - 4 else if n = 62 then 43 else 47)

def b64Val (c : UInt8) : Option Nat :=
  if 65 ≤ c ∧ c ≤ 90 then some (c.toNat - 65)
  else if 97 ≤ c ∧ c ≤ 122 then some (c.toNat - 71)
  else if 48 ≤ c ∧ c ≤ 57 then some (c.toNat + 4)
  else if c = 43 then some 62
  else if c = 47 then some 63
  else none

/-- `base64.StdEncoding.EncodeToString`. -/
def b64Enc : Bytes → Bytes
  | a :: b :: c :: rest =>
    b64Char (a.toNat / 4) :: b64Char (a.toNat % 4 * 16 + b.toNat / 16) ::
      b64Char (b.toNat % 16 * 4 + c.toNat / 64) :: b64Char (c.toNat % 64) :: b64Enc rest
  | [a, b] =>
    [b64Char (a.toNat / 4), b64Char (a.toNat % 4 * 16 + b.toNat / 16), b64Char (b.toNat % 16 * 4), 61]
  | [a] => [b64Char (a.toNat / 4), b64Char (a.toNat % 4 * 16), 61, 61]
  | [] => []

/-- Quads. -/
def b64DecQuads : Bytes → Option Bytes
  | [] => some []
  | a :: b :: c :: d :: rest =>
    match b64Val a, b64Val b with
    | some x, some y =>
      if c = 61 then (if d = 61 ∧ rest = [] then some [UInt8.ofNat (x * 4 + y / 16)] else none)
      else
        match b64Val c with
        | none => none
        | some z =>
          if d = 61 then
            if rest = [] then some [UInt8.ofNat (x * 4 + y / 16), UInt8.ofNat (y % 16 * 16 + z / 4)] else none
          else
            match b64Val d with
            | none => none
            | some w =>
              (b64DecQuads rest).map fun r =>
                UInt8.ofNat (x * 4 + y / 16) :: UInt8.ofNat (y % 16 * 16 + z / 4) :: UInt8.ofNat (z % 4 * 64 + w) :: r
    | _, _ => none
  | _ => none

/-- `base64.StdEncoding.Decode` (line breaks are ignored). -/
def b64Dec (s : Bytes) : Option Bytes := b64DecQuads (s.filter fun c => c ≠ 10 ∧ c ≠ 13)

/-- Upper-case hexadecimal (`tmBytes.HexBytes.MarshalJSON`). -/
def hexUpper (n : Nat) : UInt8 := UInt8.ofNat (if n < 10 then 48 + n else 55 + n)

def hexEnc : Bytes → Bytes
  | [] => []
  | b :: bs => hexUpper (b.toNat / 16) :: hexUpper (b.toNat % 16) :: hexEnc bs

/-- `hex.DecodeString`. -/
def hexDec : Bytes → Option Bytes
  | [] => some []
  | a :: b :: rest =>
    match hexVal a, hexVal b, hexDec rest with
    | some x, some y, some r => some (UInt8.ofNat (x * 16 + y) :: r)
    | _, _, _ => none
  | _ => none

/-! ### Fields of structs -/

/-- Object keys are matched to field names up to case (`encoding/json/fold.go`): ASCII letters, the Kelvin sign and the
long s. The result is the lower-case form. -/
def foldKey : Bytes → Bytes
  | 0xe2 :: 0x84 :: 0xaa :: s => 107 :: foldKey s
  | 0xc5 :: 0xbf :: s => 115 :: foldKey s
  | c :: s => (if 65 ≤ c ∧ c ≤ 90 then c + 32 else c) :: foldKey s
  | [] => []

/-- Decode the members of an object into a struct, one after the other; `set m name v` stores the value of the field
with the (lower-case) name, and is the identity for unknown names. `none` is an error. (The real decoder goes on after
an ill-typed member, but returns the error in the end.) -/
def decodeFields {α : Type} (set : α → Bytes → JVal → Option α) : α → JObj → Option α
  | m, .nil => some m
  | m, .cons k v l =>
    match set m (foldKey k) v with
    | none => none
    | some m' => decodeFields set m' l

/-- A `string` field: `null` leaves it as it is. -/
def setString (old : Bytes) : JVal → Option Bytes
  | .str s _ => some s
  | .null => some old
  | _ => none

/-- An integer field with the given range. -/
def setInt (lo hi : Int) (old : Int) : JVal → Option Int
  | .num raw =>
    -- `strconv.ParseInt(raw, 10, 64)`; a raw number never starts with `+`
    match parseInt raw with
    | some n => if lo ≤ n ∧ n ≤ hi then some n else none
    | none => none
  | .null => some old
  | _ => none

/-- An element of a `[]byte` field that is given as an array (`strconv.ParseUint`, at most 255; `null` leaves 0). -/
def setByte : JVal → Option UInt8
  | .num raw =>
    match digits 0 raw with
    | some n => if n ≤ 255 then some (UInt8.ofNat n) else none
    | none => none
  | .null => some 0
  | _ => none

/-- The elements. -/
def setByteList : JArr → Option Bytes
  | .nil => some []
  | .cons v l =>
    match setByte v, setByteList l with
    | some b, some bs => some (b :: bs)
    | _, _ => none

/-- A `[]byte` field: base64, or an array of numbers. (If a member occurs twice, elements `null` of an array would keep
what was there; here they are 0.) -/
def setBytes : JVal → Option Slice
  | .str s _ => (b64Dec s).map some
  | .arr l => (setByteList l).map some
  | .null => some none
  | _ => none

/-- A `tmBytes.HexBytes` field. `UnmarshalJSON` works on the text between the quotes as it is written, so that an escape
sequence is an error. (So are bytes that are not UTF-8, decoded or not.) -/
def setHex : JVal → Option Slice
  | .str s false => (hexDec s).map some
  | _ => none

end Horcrux
