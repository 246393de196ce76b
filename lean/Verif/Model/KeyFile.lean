import Verif.Model.Remote
import Verif.Model.Raft
import Verif.Model.Start
/-
Key files: `signer/cosigner_key.go` (the JSON of a cosigner key), `signer/cosigner_key_shares.go` (splitting a key) and
`cmd/horcrux/cmd/key2shares.go` (`create-shares`).

Not modelled: the ASN.1 of RSA keys (`RSACodec`), the reading of `priv_validator_key.json` (a parameter), writes that are
cut short.
-/
namespace Horcrux

/-- `crypto/x509`: `MarshalPKCS1PrivateKey`, `ParsePKCS1PrivateKey` (with the public part of what it parsed),
`MarshalPKCS1PublicKey`, `ParsePKCS1PublicKey`. -/
structure RSACodec where
  encPriv : Bytes → Bytes
  decPriv : Bytes → Option (Bytes × Bytes)
  encPub : Bytes → Bytes
  decPub : Bytes → Option Bytes

/-- `cosigner_key.go:17-23` `CosignerKey` as it is in memory. A public key that is nil or of another kind is `unset`. -/
structure KeyFile where
  pubKey : PPubKey
  shareKey : Slice
  rsaKey : Bytes
  rsaPub : Bytes
  id : Int
  cosignerKeys : List Bytes
  deriving DecidableEq, Repr

/-- The bytes of a public key (`crypto.PubKey.Bytes`). -/
def PPubKey.raw : PPubKey → Bytes
  | .unset => []
  | .ed25519 k => k
  | .secp256k1 k => k

/-- The key as the start of a cosigner uses it (`cmd/cosigner.go:197-208`). -/
def KeyFile.toKey (k : KeyFile) : CosignerKey :=
  ⟨k.pubKey.raw, k.shareKey.bytes, k.rsaKey, k.rsaPub, k.id, k.cosignerKeys⟩

/-- `rsa_key`, `pub_key`, `rsa_pubs`, `secret_share`, `id`. -/
def nRsaKey : Bytes := [114, 115, 97, 95, 107, 101, 121]
def nPubKey : Bytes := [112, 117, 98, 95, 107, 101, 121]
def nRsaPubs : Bytes := [114, 115, 97, 95, 112, 117, 98, 115]
def nSecretShare : Bytes := [115, 101, 99, 114, 101, 116, 95, 115, 104, 97, 114, 101]
def nId : Bytes := [105, 100]

def JArr.ofList : List JVal → JArr
  | [] => .nil
  | v :: l => .cons v (.ofList l)

/-- `cosigner_key.go:47-56`: the JSON text for a key whose public key is encoded as `pub`. The fields of the outer
struct come first and hide those of the embedded one with the same names. -/
def keyJson (R : RSACodec) (k : KeyFile) (pub : Bytes) : JVal :=
  .obj (.cons nRsaKey (bytesJson (some (R.encPriv k.rsaKey))) (.cons nPubKey (bytesJson (some pub))
    (.cons nRsaPubs (.arr (.ofList (k.cosignerKeys.map fun p => bytesJson (some (R.encPub p)))))
      (.cons nSecretShare (bytesJson k.shareKey) (.cons nId (.num (decInt k.id)) .nil)))))

/-- `cosigner_key.go:25-57` `MarshalJSON`; `PubKeyToProto` knows ed25519 and secp256k1. -/
def marshalKey (R : RSACodec) (k : KeyFile) : Option Bytes :=
  match k.pubKey with
  | .unset => none
  | p => some (keyJson R k (encPPubKey p)).print

/-- `cosigner_key.go:62-69` `aux`. -/
structure KeyAux where
  rsaKey : Slice
  pubKey : Slice
  rsaPubs : List Slice
  share : Slice
  id : Int

/-- The elements of a `[][]byte`. -/
def setByteElems : JArr → Option (List Slice)
  | .nil => some []
  | .cons v l =>
    match setBytes v, setByteElems l with
    | some x, some xs => some (x :: xs)
    | _, _ => none

/-- A `[][]byte` field. -/
def setByteLists : JVal → Option (List Slice)
  | .arr l => setByteElems l
  | .null => some []
  | _ => none

/-- Store one member. -/
def setKeyField (a : KeyAux) (k : Bytes) (v : JVal) : Option KeyAux :=
  if k = nRsaKey then (setBytes v).map fun x => { a with rsaKey := x }
  else if k = nPubKey then (setBytes v).map fun x => { a with pubKey := x }
  else if k = nRsaPubs then (setByteLists v).map fun x => { a with rsaPubs := x }
  else if k = nSecretShare then (setBytes v).map fun x => { a with share := x }
  else if k = nId then (setInt (-(2 ^ 63)) (2 ^ 63 - 1) a.id v).map fun x => { a with id := x }
  else some a

/-- go-amino `UnmarshalBinaryBare` into a registered `ed25519.PubKey` (`cosigner_key.go:87-94`): the four prefix bytes of
`tendermint/PubKeyEd25519`, the length, the bytes, nothing after them. The length is not checked to be 32. -/
def aminoPubKey (bs : Bytes) : Option Bytes :=
  match bs with
  | 0x16 :: 0x24 :: 0xDE :: 0x64 :: rest =>
    match readVarint rest with
    | some (n, rest') => if rest'.length = n then some rest' else none
    | none => none
  | _ => none

/-- `crypto/encoding.PubKeyFromProto`: the length of the key is checked. -/
def pubKeyFromProto : PPubKey → Option PPubKey
  | .unset => none
  | .ed25519 k => if k.length = 32 then some (.ed25519 k) else none
  | .secp256k1 k => if k.length = 33 then some (.secp256k1 k) else none

/-- `cosigner_key.go:77-102`: the public key, in the protobuf or the older amino encoding. -/
def decodePubKey (bs : Bytes) : Option PPubKey :=
  match decodeMsg ppubKeyHandler .unset bs with
  | none => (aminoPubKey bs).map .ed25519
  | some p => pubKeyFromProto p

/-- `cosigner_key.go:105-112`. -/
def decodePubs (R : RSACodec) : List Slice → Option (List Bytes)
  | [] => some []
  | b :: l =>
    match R.decPub b.bytes with
    | none => none
    | some p =>
      match decodePubs R l with
      | none => none
      | some ps => some (p :: ps)

/-- What loading a key gives; `crash` is a nil dereference. -/
inductive KeyRes where
  | ok (k : KeyFile)
  | error
  | crash
  deriving DecidableEq, Repr

/-- `cosigner_key.go:73-117`: the rest of `UnmarshalJSON`. -/
def finishKey (R : RSACodec) (a : KeyAux) : KeyRes :=
  match R.decPriv a.rsaKey.bytes with
  | none => .error
  | some (priv, pub) =>
    match decodePubKey a.pubKey.bytes with
    | none => .error
    | some p =>
      match decodePubs R a.rsaPubs with
      | none => .error
      | some ps => .ok ⟨p, a.share, priv, pub, a.id, ps⟩

/-- `cosigner_key.go:59-134` `LoadCosignerKey` of a file with the given content, `UnmarshalJSON` into a zero key. A JSON
`null` sets the pointer `aux` to nil, and line 73 dereferences it. -/
def loadKey (R : RSACodec) (bs : Bytes) : KeyRes :=
  match parseJson bs with
  | some (.obj l) =>
    match decodeFields setKeyField ⟨none, none, [], none, 0⟩ l with
    | some a => finishKey R a
    | none => .error
  | some .null => .crash
  | _ => .error

/-! ### Splitting a key -/

/-- `privval.FilePVKey`, as far as it is used; `priv` is nil if the file has none. -/
structure PrivFile where
  priv : Option Bytes
  pub : PPubKey

/-- `cosigner_key_shares.go:63-76` `makeRSAKeys`: `gen i` is the outcome (private and public key) of the `i`-th key
generation. -/
def makeRSAKeys (gen : Nat → Option (Bytes × Bytes)) (num : Nat) : Option (List (Bytes × Bytes)) :=
  (List.range num).mapM gen

/-- `cosigner_key_shares.go:31-38`: the loop over the shares; `idx` is the index of the head. -/
def keysFrom (pub : PPubKey) (pubs : List Bytes) : Nat → List Bytes → List (Bytes × Bytes) → List KeyFile
  | idx, share :: shares, r :: rs =>
    ⟨pub, some share, r.1, r.2, (idx : Int) + 1, pubs⟩ :: keysFrom pub pubs (idx + 1) shares rs
  | _, _, _ => []

/-- Outcome of the command (`panic`: slicing a short or missing private key). -/
inductive CreateRes where
  | done
  | failed
  | panic
  deriving DecidableEq, Repr

/-- The library and the randomness of a split: `tsed25519.ExpandSecret`, the random coefficients, the RSA keys. -/
structure SplitEnv where
  C : Crypto
  expand : Bytes → Bytes
  rand : Bytes
  gen : Nat → Option (Bytes × Bytes)

/-- `cosigner_key_shares.go:24-40` `CreateCosignerShares`; `uint8(…)` truncates both numbers. -/
def createShares (E : SplitEnv) (pv : PrivFile) (threshold shares : Int) : Out (Option (List KeyFile)) :=
  match pv.priv with
  | none => .panic
  | some priv =>
    if priv.length < 32 then .panic
    else
      let privshares := E.C.dealShares (E.expand (priv.take 32)) E.rand (u8 threshold) (u8 shares)
      match makeRSAKeys E.gen privshares.length with
      | none => .ok none
      | some rsas => .ok (some (keysFrom pv.pub (rsas.map (·.2)) 0 privshares rsas))

/-- The files of the working directory, and which can be written. -/
structure Dir where
  files : Str → Option Bytes
  writable : Str → Bool

/-- `private_share_`, `.json`. -/
def sharePrefix : Str := [112, 114, 105, 118, 97, 116, 101, 95, 115, 104, 97, 114, 101, 95]
def jsonSuffix : Str := [46, 106, 115, 111, 110]

/-- `fmt.Sprintf("private_share_%d.json", id)`. -/
def keyFileName (id : Int) : Str := sharePrefix ++ (decInt id ++ jsonSuffix)

/-- `key2shares.go:45-50`, with `cosigner_key_shares.go:54-61` `WriteCosignerShareFile`. -/
def writeShares (R : RSACodec) : List KeyFile → Dir → CreateRes × Dir
  | [], d => (.done, d)
  | k :: ks, d =>
    match marshalKey R k with
    | none => (.failed, d)
    | some bs =>
      if d.writable (keyFileName k.id) then
        writeShares R ks { d with files := fun f => if f = keyFileName k.id then some bs else d.files f }
      else (.failed, d)

/-- `key2shares.go:38-71`: `create-shares args`. `readPriv` is `ReadPrivValidatorFile`, `none` for an error. -/
def createSharesCmd (R : RSACodec) (E : SplitEnv) (readPriv : Bytes → Option PrivFile) (d : Dir) (args : List Str) :
    CreateRes × Dir :=
  match args with
  | [file, t, n] =>
    match d.files file with
    | none => (.failed, d)
    | some content =>
      match parseInt t, parseInt n with
      | some t, some n =>
        match readPriv content with
        | none => (.failed, d)
        | some pv =>
          match createShares E pv t n with
          | .ok (some ks) => writeShares R ks d
          | .ok none => (.failed, d)
          | .err _ => (.failed, d)
          | .panic => (.panic, d)
      | _, _ => (.failed, d)
  | _ => (.failed, d)

end Horcrux
