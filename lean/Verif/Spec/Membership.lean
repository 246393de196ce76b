import Verif.Model.Membership
/-
What C68 and C69 say, in terms of the configurations.
-/
namespace Horcrux.Spec

/-- The configurations of cosigners `1..n` agree: `url j` is where cosigner `j` listens, and everyone else lists it with
that address, in any order. -/
def Agree (n : Nat) (url : Nat → Str) (cfgs : Nat → CosignerConfig) : Prop :=
  ∀ i, 1 ≤ i → i ≤ n → (cfgs i).p2pListen = url i ∧
    (cfgs i).peers.Perm (((List.range' 1 n).filter fun j : Nat => j ≠ i).map fun j : Nat => ⟨(j : Int), url j⟩)

/-- One voter for each cosigner, under its ID and the host of its URL. -/
def members (urlHost : Str → Option Str) (n : Nat) (url : Nat → Str) : List Server :=
  (List.range' 1 n).map fun j : Nat => ⟨true, decInt j, (urlHost (url j)).getD (url j)⟩

end Horcrux.Spec
