import Verif.Model.Prim
/-
The cryptographic primitives called by the repository, as abstract functions. Nothing is assumed about them here;
theorems that need algebraic laws assume `Lawful` (see `Verif.Lemmas.Lawful`).
-/
namespace Horcrux

/-- What the source signature of a secret part covers (`local_cosigner.go:375-381, 404-414`): the JSON encoding of
a part with only the source ID, the ephemeral public key and the ciphertext filled in. The JSON encoding and SHA-256
are not modelled; the triple stands for the digest. -/
structure PartDigest where
  sourceID : Int
  ephemeralPublic : Slice
  encrypted : Slice
  deriving DecidableEq, Repr

/-- Third-party primitives: `gitlab.com/polychainlabs/threshold-ed25519`, `gitlab.com/polychainlabs/edwards25519`,
`crypto/rsa`, and tendermint's ed25519 verification. All are total functions here: panics inside these libraries
are not modelled. Randomness is an explicit argument. -/
structure Crypto where
  /-- `tsed25519.AddScalars` (`local_cosigner.go:206`) -/
  addScalars : List Bytes → Bytes
  /-- `tsed25519.AddElements` (`local_cosigner.go:207`) -/
  addElements : List Bytes → Bytes
  /-- `tsed25519.ScalarMultiplyBase` (`local_cosigner.go:348`) -/
  scalarMultiplyBase : Bytes → Bytes
  /-- `tsed25519.DealShares(secret, threshold, total)` with its internal randomness (`local_cosigner.go:279`) -/
  dealShares : (secret rand : Bytes) → (threshold total : Nat) → List Bytes
  /-- `edwards25519.ScMinimal` (`local_cosigner.go:217`) -/
  scMinimal : Bytes → Bool
  /-- `tsed25519.SignWithShare(message, shareKey, ephemeralShare, pubKey, ephemeralPublic)` (`local_cosigner.go:222`) -/
  signWithShare : (message shareKey ephemeralShare pubKey ephemeralPublic : Bytes) → Bytes
  /-- `tsed25519.CombineShares(total, ids, shares)` (`threshold_validator.go:445`) -/
  combineShares : (total : Nat) → (ids : List Nat) → (shares : List Bytes) → Bytes
  /-- `crypto.PubKey.VerifySignature` (`threshold_validator.go:451`) -/
  verify : (pubKey message signature : Bytes) → Bool
  /-- `rsa.EncryptOAEP` under a public key (`local_cosigner.go:363`) -/
  rsaEncrypt : (pub rand plain : Bytes) → Option Bytes
  /-- `rsa.DecryptOAEP` under a private key (`local_cosigner.go:457`) -/
  rsaDecrypt : (priv cipher : Bytes) → Option Bytes
  /-- `rsa.SignPSS` over the digest of a part (`local_cosigner.go:382`) -/
  rsaSign : (priv rand : Bytes) → PartDigest → Option Bytes
  /-- `rsa.VerifyPSS` (`local_cosigner.go:422`) -/
  rsaVerify : (pub : Bytes) → PartDigest → (sig : Bytes) → Bool

end Horcrux
