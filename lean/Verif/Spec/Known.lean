import Verif.Spec.Sequence
/-
Vocabulary for what the raft log and the files of a cluster bring to its nodes.
-/
namespace Horcrux.Spec

/-- A record without a signature, or with one that verifies under `pub` over a message for the record's block. -/
def GenuineRecord (C : Crypto) (pub : Bytes) (r : SSC) : Prop :=
  ∀ sig, r.signature = some sig →
    C.verify pub r.signBytes.bytes sig = true ∧ ∃ k, unpackHRST r.signBytes.bytes = .ok k ∧ k.hrs = r.hrs

/-- The raft events and the files that nodes load when they start again bring nothing but the records in `K` and those
that a node of the cluster has sent to raft before (under their own blocks). -/
def OnlyBrings (C : Crypto) (vcfg : ValidatorCfg) (cfg : Nat → CosignerCfg) (n : Nat) :
    (SSC → Prop) → Sys → List SysEv → Prop
  | _, _, [] => True
  | K, s, e :: es =>
    (∀ p r, e = .deliver p r → K r) ∧
    (∀ p lv lc, e = .restart p lv lc → ∀ h r, lv.cache h = some r → r.hrs = h ∧ K r) ∧
    OnlyBrings C vcfg cfg n (fun r => K r ∨ ∃ p, r ∈ ((s.step C vcfg cfg n e).2.vs p).emitted)
      (s.step C vcfg cfg n e).2 es

end Horcrux.Spec
