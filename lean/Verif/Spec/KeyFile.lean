import Verif.Model.KeyFile
/-
What splitting a key should leave in the working directory.
-/
namespace Horcrux.Spec

/-- The files after splitting a key with public key `pub` into `n` shares: the files of the cosigners `1..n` load, with
the ID of the cosigner, the public key, a private RSA key that matches the entry of the cosigner in a common list of
`n` public RSA keys; all other files are as before. -/
def KeyFiles (R : RSACodec) (pair : (pub priv : Bytes) → Prop) (pub : PPubKey) (n : Nat)
    (before after : Str → Option Bytes) : Prop :=
  (∀ f, (∀ i : Nat, 1 ≤ i → i ≤ n → f ≠ keyFileName i) → after f = before f) ∧
  ∃ pubs : List Bytes, pubs.length = n ∧ ∀ i : Nat, 1 ≤ i → i ≤ n → ∃ bs k, after (keyFileName i) = some bs ∧
    loadKey R bs = .ok k ∧ k.id = i ∧ k.pubKey = pub ∧ k.cosignerKeys = pubs ∧ pubs[i - 1]? = some k.rsaPub ∧
    pair k.rsaPub k.rsaKey

/-- The share keys in these files are the given ones (`i` ↦ share of cosigner `i`). -/
def ShareKeys (R : RSACodec) (n : Nat) (files : Str → Option Bytes) (share : Nat → Bytes) : Prop :=
  ∀ i : Nat, 1 ≤ i → i ≤ n → ∃ bs k, files (keyFileName i) = some bs ∧ loadKey R bs = .ok k ∧
    k.shareKey = some (share i)

/-- RSA key generation always succeeds, with usable keys. -/
def GenOk (pair : (pub priv : Bytes) → Prop) (gen : Nat → Option (Bytes × Bytes)) : Prop :=
  ∀ i, ∃ priv pub, gen i = some (priv, pub) ∧ pair pub priv

end Horcrux.Spec
