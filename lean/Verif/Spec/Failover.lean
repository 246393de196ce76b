import Verif.Spec.System
/-
What may happen in the cluster between two requests for one block.
-/
namespace Horcrux.Spec

/-- The participants `ps` learn of nothing above the block `k`, serve no other calls and do not restart; the other nodes do
anything but serve sign requests as a leader. -/
def Elsewhere (ps : List Nat) (k : HRS) : SysEv → Prop
  | .sign _ => False
  | .deliver p r => p ∈ ps → r.hrs ≼ k
  | .other p _ => p ∉ ps
  | .restart p _ _ => p ∉ ps

end Horcrux.Spec
