import Verif.Model.Crypto
import Verif.Lemmas.Shamir
import Mathlib.Algebra.Module.Basic
/-
What the algebraic theorems assume about the primitives.
-/
namespace Horcrux

/-- The scalar and group arithmetic behind the ed25519 threshold library: a field `F` of scalars, a vector space `G`
of group elements with base point `B`, 32-byte encodings of both, and the equations of the library functions. -/
structure Lawful (C : Crypto) (F G : Type) [Field F] [AddCommGroup G] [Module F G] where
  /-- base point -/
  B : G
  /-- canonical encoding of a scalar -/
  sc : F → Bytes
  /-- encoding of a group element -/
  pt : G → Bytes
  /-- scalar denoted by a byte string -/
  val : Bytes → F
  /-- the random coefficients drawn by a dealing with threshold `t` -/
  coeffs : Bytes → Nat → List F
  /-- the challenge hash `H(R ‖ A ‖ M)` -/
  chal : (ephemeralPublic pubKey message : Bytes) → F
  castInj : CastInj F 255
  sc_length : ∀ x, (sc x).length = 32
  sc_minimal : ∀ x, C.scMinimal (sc x) = true
  coeffs_length : ∀ r t, 1 ≤ t → (coeffs r t).length + 1 = t
  addScalars : ∀ l : List F, C.addScalars (l.map sc) = sc l.sum
  addElements : ∀ l : List G, C.addElements (l.map pt) = pt l.sum
  base : ∀ s : Bytes, s.length = 32 → C.scalarMultiplyBase s = pt (val s • B)
  deal : ∀ (s r : Bytes) (t n : Nat), s.length = 32 → 1 ≤ t → t ≤ n → n ≤ 255 →
    C.dealShares s r t n = (dealF (val s) (coeffs r t) n).map sc
  sign : ∀ (m : Bytes) (x r : F) (A : Bytes) (R : G),
    C.signWithShare m (sc x) (sc r) A (pt R) = sc (r + chal (pt R) A m * x)
  combine : ∀ (n : Nat) (ids : List Nat) (l : List F), ids.length = l.length → ids.Nodup →
    (∀ i ∈ ids, 1 ≤ i ∧ i ≤ n) → n ≤ 255 →
    C.combineShares n ids (l.map sc) = sc (combineF ids l)
  verify : ∀ (A R : G) (m : Bytes) (s : F),
    C.verify (pt A) m (pt R ++ sc s) = true ↔ s • B = R + chal (pt R) (pt A) m • A

/-- RSA key pairs work: what is encrypted under a public key decrypts under its private key, and signatures made with
the private key verify. -/
structure LawfulRSA (C : Crypto) (pair : (pub priv : Bytes) → Prop) : Prop where
  encrypt : ∀ pub priv rnd m, pair pub priv → m.length = 32 →
    ∃ c, C.rsaEncrypt pub rnd m = some c ∧ C.rsaDecrypt priv c = some m
  sign : ∀ pub priv rnd d, pair pub priv → ∃ s, C.rsaSign priv rnd d = some s ∧ C.rsaVerify pub d s = true

end Horcrux
