import Verif.Model.Raft
import Verif.Model.Disk
/-
The text of the sign state file: `tmJson.MarshalIndent` in `signer/sign_state.go:150-158` and `tmJson.Unmarshal` in
`sign_state.go:246-265`. `tendermint/libs/json` is modelled from knowledge of that library: 64-bit integers are strings,
nil slices are `null`, members are found by their exact name (the last one of several counts), missing ones and `null` are
the zero value. Integers and hexadecimal are read from the text between the quotes as it is written, so that an escape
sequence there is an error.
-/
namespace Horcrux

/-- `json.Indent` of the members of an object without nested ones, indented by two spaces. -/
def JObj.indent : Bool → JObj → Bytes
  | _, .nil => []
  | first, .cons k v l =>
    (if first then [] else [44]) ++ (10 :: 32 :: 32 :: (printStr k ++ (58 :: 32 :: (v.print ++ l.indent false))))

/-- The members of an object as a list. -/
def JObj.ofList : List (Bytes × JVal) → JObj
  | [] => .nil
  | (k, v) :: l => .cons k v (.ofList l)

/-- `height`, `round`, `step`, `ephemeral_public`, `signature`, `signbytes` (`sign_state.go:53-60`). -/
def fHeight : Bytes := [104, 101, 105, 103, 104, 116]
def fRound : Bytes := [114, 111, 117, 110, 100]
def fStep : Bytes := [115, 116, 101, 112]
def fEphemeral : Bytes := [101, 112, 104, 101, 109, 101, 114, 97, 108, 95, 112, 117, 98, 108, 105, 99]
def fSignature : Bytes := [115, 105, 103, 110, 97, 116, 117, 114, 101]
def fSignBytes : Bytes := [115, 105, 103, 110, 98, 121, 116, 101, 115]

/-- The members of the file. `om` says what `omitempty` takes for empty: nil slices and, depending on the version of the
library, slices of length 0. -/
def stateMembers (om : Slice → Bool) (f : PFile) : List (Bytes × JVal) :=
  [(fHeight, .str (decInt f.height) false), (fRound, .str (decInt f.round) false), (fStep, .num (decInt f.step)),
    (fEphemeral, bytesJson f.ephemeralPublic)] ++
  (if om f.signature then [] else [(fSignature, bytesJson f.signature)]) ++
  (if om f.signBytes then [] else [(fSignBytes, .str (hexEnc f.signBytes.bytes) false)])

/-- `sign_state.go:150` `tmJson.MarshalIndent(signState, "", "  ")`. -/
def stateText (om : Slice → Bool) (f : PFile) : Bytes :=
  123 :: ((JObj.ofList (stateMembers om f)).indent true ++ [10, 125])

/-- The last member with a name (`json.Unmarshal` into a map of raw messages). -/
def JObj.member (name : Bytes) : JObj → Option JVal
  | .nil => none
  | .cons k v l =>
    match l.member name with
    | some w => some w
    | none => if k = name then some v else none

/-- A 64-bit integer: the string's content is read as JSON. -/
def tmInt64 : Option JVal → Option Int
  | none => some 0
  | some .null => some 0
  | some (.str s false) => (parseJson s).bind (setInt (-(2 ^ 63)) (2 ^ 63 - 1) 0)
  | some _ => none

/-- An `int8`. -/
def tmInt8 : Option JVal → Option Int
  | none => some 0
  | some v => setInt (-(2 ^ 7)) (2 ^ 7 - 1) 0 v

/-- A `[]byte`. Empty slices are replaced by nil ones. -/
def tmBytes : Option JVal → Option Slice
  | none => some none
  | some v => (setBytes v).map Slice.norm

/-- A `HexBytes`. -/
def tmHex : Option JVal → Option Slice
  | none => some none
  | some .null => some none
  | some v => setHex v

/-- `sign_state.go:253` `tmJson.Unmarshal` into an empty state. -/
def readState (bs : Bytes) : Option PFile :=
  match parseJson bs with
  | some .null => some ⟨0, 0, 0, none, none, none⟩
  | some (.obj l) =>
    match tmInt64 (l.member fHeight), tmInt64 (l.member fRound), tmInt8 (l.member fStep), tmBytes (l.member fEphemeral),
        tmBytes (l.member fSignature), tmHex (l.member fSignBytes) with
    | some h, some r, some s, some e, some g, some b => some ⟨h, r, s, e, g, b⟩
    | _, _, _, _, _, _ => none
  | _ => none

/-- `sign_state.go:246-265` `LoadSignState` of a file with the given content. -/
def loadStateText (bs : Bytes) : Option SignState := (readState bs).map PFile.load

/-- `sign_state.go:270-284` `LoadOrCreateSignState`: the state, and the file afterwards. `none` is a missing file. -/
def loadOrCreateText (om : Slice → Bool) (file : Option Bytes) : SignState × Bytes :=
  match file with
  | some bs =>
    match loadStateText bs with
    | some s => (s, bs)
    | none => (.empty, stateText om SignState.empty.persist)
  | none => (.empty, stateText om SignState.empty.persist)

end Horcrux
