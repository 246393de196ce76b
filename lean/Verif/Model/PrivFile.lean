import Verif.Model.KeyFile
import Verif.Model.StateFile
/-
The private validator key file that `create-shares` splits: `signer/cosigner_key_shares.go:14-21, 42-52`
(`CreateCosignerSharesFromFile`, `ReadPrivValidatorFile`), that is `tmjson.Unmarshal` into a `privval.FilePVKey`.
`tendermint/libs/json` is modelled from knowledge of that library: the members of the outer object are found by their exact
names (the last of several counts), missing ones and `null` are the zero value; a key is an object with `type` and `value`
(read by `encoding/json`), where the type is one of the registered names.

Simplified: keys of the kind sr25519 are of unknown type; a private key shorter than 32 bytes is taken to make the slice
expression at `cosigner_key_shares.go:25` panic (it does not if the decoder happened to allocate more).
-/
namespace Horcrux

/-- `address` -/
def nAddress : Bytes :=
  [97, 100, 100, 114, 101, 115, 115]
/-- `priv_key` -/
def nPrivKey : Bytes :=
  [112, 114, 105, 118, 95, 107, 101, 121]
/-- `type` -/
def nTypeField : Bytes :=
  [116, 121, 112, 101]
/-- `value` -/
def nValueField : Bytes :=
  [118, 97, 108, 117, 101]
/-- `tendermint/PubKeyEd25519` -/
def tPubEd : Bytes :=
  [116, 101, 110, 100, 101, 114, 109, 105, 110, 116, 47, 80, 117, 98, 75, 101, 121, 69, 100, 50, 53, 53, 49,
   57]
/-- `tendermint/PrivKeyEd25519` -/
def tPrivEd : Bytes :=
  [116, 101, 110, 100, 101, 114, 109, 105, 110, 116, 47, 80, 114, 105, 118, 75, 101, 121, 69, 100, 50, 53, 53,
   49, 57]
/-- `tendermint/PubKeySecp256k1` -/
def tPubSecp : Bytes :=
  [116, 101, 110, 100, 101, 114, 109, 105, 110, 116, 47, 80, 117, 98, 75, 101, 121, 83, 101, 99, 112, 50, 53,
   54, 107, 49]
/-- `tendermint/PrivKeySecp256k1` -/
def tPrivSecp : Bytes :=
  [116, 101, 110, 100, 101, 114, 109, 105, 110, 116, 47, 80, 114, 105, 118, 75, 101, 121, 83, 101, 99, 112,
   50, 53, 54, 107, 49]

/-- `interfaceWrapper` of `libs/json`: the type and the raw value. -/
structure KeyWrapper where
  type : Bytes
  value : Option JVal

def setWrapperField (w : KeyWrapper) (k : Bytes) (v : JVal) : Option KeyWrapper :=
  if k = nTypeField then (setString w.type v).map fun x => { w with type := x }
  else if k = nValueField then some { w with value := some v }
  else some w

/-- `decodeReflectInterface`: `kind` says which key a registered type name stands for. `none` is an error, `some none` a
nil interface. -/
def readKey {α : Type} (kind : Bytes → Option (Bytes → α)) : Option JVal → Option (Option α)
  | none => some none
  | some .null => some none
  | some (.obj l) =>
    match decodeFields setWrapperField ⟨[], none⟩ l with
    | none => none
    | some w =>
      match w.value, kind w.type with
      | some v, some mk => (setBytes v).map fun s => some (mk s.bytes)
      | _, _ => none
  | some _ => none

/-- The types that are public keys. -/
def pubKind (t : Bytes) : Option (Bytes → PPubKey) :=
  if t = tPubEd then some .ed25519 else if t = tPubSecp then some .secp256k1 else none

/-- The types that are private keys; only the bytes of the key are used. -/
def privKind (t : Bytes) : Option (Bytes → Bytes) :=
  if t = tPrivEd then some id else if t = tPrivSecp then some id else none

/-- `cosigner_key_shares.go:42-52` `ReadPrivValidatorFile` of a file with the given content. -/
def readPrivFile (bs : Bytes) : Option PrivFile :=
  match parseJson bs with
  | some .null => some ⟨none, .unset⟩
  | some (.obj l) =>
    match tmHex (l.member nAddress), readKey pubKind (l.member nPubKey), readKey privKind (l.member nPrivKey) with
    | some _, some pub, some priv => some ⟨priv, pub.getD .unset⟩
    | _, _, _ => none
  | _ => none

end Horcrux
