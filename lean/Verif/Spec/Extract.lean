import Verif.Lemmas.Lawful
import Verif.Model.Cosigner
import Verif.Model.Shamir
/-
What somebody who sees answers of cosigners can compute from them. Nothing here is code of horcrux.
-/
namespace Horcrux.Spec

variable {C : Crypto} {F G : Type} [Field F] [AddCommGroup G] [Module F G]

/-- From two answers of one cosigner, to the sign bytes `m` and `m'`: the difference of the two share signatures divided
by the difference of the two challenges. It uses the answers, the public key and the messages, nothing secret. -/
def shareFrom (L : Lawful C F G) (pub m m' : Bytes) (a b : SignRes) : F :=
  (L.val a.signature.bytes - L.val b.signature.bytes) /
    (L.chal a.ephemeralPublic.bytes pub m - L.chal b.ephemeralPublic.bytes pub m')

/-- From two answers of each of the cosigners `ids`: the values above, combined like share signatures. -/
def keyFrom (L : Lawful C F G) (pub m m' : Bytes) (ids : List Nat) (a b : Nat → SignRes) : F :=
  combineF ids (ids.map fun p => shareFrom L pub m m' (a p) (b p))

end Horcrux.Spec
