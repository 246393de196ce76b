import Mathlib.Algebra.Field.Defs
import Mathlib.Algebra.BigOperators.Group.List.Basic
/-
Shamir sharing over a field, as done by `tsed25519.DealShares` and `tsed25519.CombineShares` (third-party code,
`gitlab.com/polychainlabs/threshold-ed25519`; called from `signer/local_cosigner.go:279`,
`signer/cosigner_key_shares.go:25`, `signer/threshold_validator.go:445`). The library works in the scalar field of
ed25519; here the field is a parameter.
-/
namespace Horcrux

variable {F : Type} [Field F]

/-- Value at `x` of the polynomial with the given coefficients (constant first). -/
def horner : List F → F → F
  | [], _ => 0
  | a :: l, x => a + x * horner l x

/-- The share of cosigner `i` when `secret` is dealt with random coefficients `coeffs`. -/
def shareOf (secret : F) (coeffs : List F) (i : Nat) : F := horner (secret :: coeffs) (i : F)

/-- `DealShares`: the shares of cosigners `1..n`. -/
def dealF (secret : F) (coeffs : List F) (n : Nat) : List F :=
  (List.range n).map (fun i : Nat => shareOf secret coeffs (i + 1))

/-- The Lagrange coefficient of cosigner `i` among `ids`, at zero: the product of `j / (j - i)`. -/
def lagrangeAt (ids : List Nat) (i : Nat) : F :=
  ((ids.filter (fun j => j ≠ i)).map (fun j : Nat => (j : F) / ((j : F) - (i : F)))).prod

/-- `CombineShares`: the sum of the shares weighted with their Lagrange coefficients. -/
def combineF (ids : List Nat) (shares : List F) : F :=
  (List.zipWith (fun i s => lagrangeAt ids i * s) ids shares).sum

end Horcrux
