import Verif.Lemmas.Lawful
import Verif.Model.System
/-
What somebody who sees signatures of the validator can compute from them. Nothing here is code of horcrux.
-/
namespace Horcrux.Spec

variable {C : Crypto} {F G : Type} [Field F] [AddCommGroup G] [Module F G]

/-- The signature of `m` with the private key `x` and the nonce `y`. -/
def schnorr (L : Lawful C F G) (x y : F) (m : Bytes) : Bytes :=
  L.pt (y • L.B) ++ L.sc (y + L.chal (L.pt (y • L.B)) (L.pt (x • L.B)) m * x)

/-- `y` is the sum of one secret for each participant, out of those that it drew when it was asked for its parts for the
request. -/
def DrawnFor (L : Lawful C F G) (q : Req) (y : F) : Prop :=
  ∃ sec : Nat → Bytes, (∀ p ∈ q.ps, ∃ i, (q.rnd1 p i).secret = some (sec p)) ∧
    y = (q.ps.map fun p => L.val (sec p)).sum

/-- From the signatures `a` of `m` and `b` of `m'`: the difference of their last 32 bytes divided by the difference of the
challenges. It uses the signatures, the public key and the messages, nothing secret. -/
def privFrom (L : Lawful C F G) (pub m m' a b : Bytes) : F :=
  (L.val (a.drop (a.length - 32)) - L.val (b.drop (b.length - 32))) /
    (L.chal (a.take (a.length - 32)) pub m - L.chal (b.take (b.length - 32)) pub m')

/-- The time 2^64 nanoseconds (584 years) after `t`. -/
def later (t : GoTime) : GoTime :=
  ⟨(t.sec * 1000000000 + t.nsec + 2 ^ 64) / 1000000000, (t.sec * 1000000000 + t.nsec + 2 ^ 64) % 1000000000⟩

end Horcrux.Spec
