import Verif.Spec.Known
import Verif.Spec.Node
/-
Vocabulary for what chain nodes get from a cluster over its whole life.
-/
namespace Horcrux.Spec

/-- `outs` is what was done for the requests of chain nodes. A chain node reads the message `m` in one of the answers. -/
def Reads (outs : List (Option (List Act × Loop))) (m : PMsg) : Prop :=
  ∃ acts l out, some (acts, l) ∈ outs ∧ Act.write out ∈ acts ∧ readMsg out = some (m, [])

/-- A cosigner whose sign state was `l` starts again with `lc`. If it had reached the block `k`, it finds a higher block in
its file, or still `k`, with the same sign bytes. -/
def FileHolds (k : HRS) (l lc : SignState) : Prop :=
  k ≼ l.hrs → k ≺ lc.hrs ∨ (lc.hrs = k ∧ l.hrs = k ∧ lc.signBytes = l.signBytes)

/-- What is assumed of everything that happens, other than what chain nodes send, which may be any bytes:
* every node on the way of a request serves it as a call of its own;
* sign requests that other nodes make carry sign bytes for their own block;
* raft and the validators' files bring nothing but records in `K` and records that nodes of the cluster sent to raft;
* whenever a node other than the `faulty` ones starts again, its cosigner's file holds the block `k` if it was reached. -/
def Bears (text : Err → Bytes) (C : Crypto) (vcfg : ValidatorCfg) (cfg : Nat → CosignerCfg) (n : Nat) (chainID : Bytes)
    (faulty : Finset Nat) (k : HRS) : (SSC → Prop) → Sys → List NodeEv → Prop
  | _, _, [] => True
  | K, s, .bytes stream way :: es =>
    ((way.leader, way.id) :: way.hops).Nodup ∧ (∀ h ∈ way.hops, (s.vs h.1).calls h.2 = none) ∧
    Bears text C vcfg cfg n chainID faulty k
      (fun r => K r ∨ ∃ p, r ∈ ((s.serve text C vcfg cfg n chainID stream way).2.vs p).emitted)
      (s.serve text C vcfg cfg n chainID stream way).2 es
  | K, s, .sys e :: es =>
    OwnBytes e ∧ (∀ p r, e = .deliver p r → K r) ∧
    (∀ p lv lc, e = .restart p lv lc →
      (∀ h r, lv.cache h = some r → r.hrs = h ∧ K r) ∧ (p ∉ faulty → FileHolds k (s.cs p).lss lc)) ∧
    Bears text C vcfg cfg n chainID faulty k
      (fun r => K r ∨ ∃ p, r ∈ ((s.step C vcfg cfg n e).2.vs p).emitted) (s.step C vcfg cfg n e).2 es

/-- A chain ID for which no vote is mistaken for a proposal (C63). -/
def ChainOk (chainID : Bytes) : Prop := chainID.length < 2 ^ 62 ∧ chainID ≠ [] ∧ decodeTime chainID = none

/-- A signature that verifies over two different messages. -/
def ForTwoMessages (C : Crypto) (pub sig : Bytes) : Prop :=
  ∃ m m', m ≠ m' ∧ C.verify pub m sig = true ∧ C.verify pub m' sig = true

end Horcrux.Spec
