import Verif.Model.Overlap
import Verif.Spec.NoConflict
import Verif.Props.Proxy
import Verif.Lemmas.Cluster
/-
Vocabulary for clusters in which everything overlaps.
-/
namespace Horcrux.Spec

/-- What is assumed of what happens in a cluster in the state `s`:
* `SignBlock` is called for blocks whose sign bytes are for their own height, round and step and time (those of chain nodes are,
  `C105_requests`);
* only the `faulty` cosigners lie;
* the file of a validator that starts again holds nothing but records of signatures that were made;
* whenever a node other than the `faulty` ones starts again, its cosigner's file holds the block `k` if it was reached. -/
def Granted (faulty : Finset Nat) (k : HRS) (s : Net) : NetEv → Prop
  | .call _ _ b _ => b.Typed ∧ unpackHRST b.signBytes = .ok b.key
  | .lie p _ _ => p ∈ faulty
  | .restart p lv lc =>
    (∀ h r, lv.cache h = some r → r.hrs = h ∧ r ∈ s.made) ∧ (p ∉ faulty → FileHolds k (s.cs p).lss lc)
  | _ => True

/-- A run of which this is true at every step. -/
inductive Runs (C : Crypto) (vcfg : ValidatorCfg) (cfg : Nat → CosignerCfg) (n : Nat) (chainID : Bytes) (faulty : Finset Nat)
    (k : HRS) : Net → List NetEv → Net → Prop where
  | nil (s : Net) : Runs C vcfg cfg n chainID faulty k s [] s
  | snoc {s s1 s2 : Net} {es : List NetEv} {e : NetEv} (h : Runs C vcfg cfg n chainID faulty k s es s1)
      (ho : Granted faulty k s1 e) (hs : s1.step C vcfg cfg n chainID e = some s2) :
      Runs C vcfg cfg n chainID faulty k s (es ++ [e]) s2

/-- A chain node sent the bytes `stream`, with a request for a block; `SignBlock` returned for that block; and of the answer that the
connection loop then writes the chain node reads the message `m`. -/
def Gets (text : Err → Bytes) (pub chainID : Bytes) (s : Net) (m : PMsg) : Prop :=
  ∃ stream req rest b p id sig stamp err, readMsg stream = some (req, rest) ∧ req.block chainID = some b ∧
    (p, VOut.ret id b sig stamp err) ∈ s.outs ∧
    Reads [some (loopIter text ⟨true, 0, [], true, .threshold chainID pub (fun _ => (sig, stamp, err)), true⟩
      (.live (some stream)))] m

/-- At least `t` of the cosigners `1..n` have answered with a share signature over `bs`. -/
def SharedBy (n t : Nat) (s : Net) (bs : Bytes) : Prop :=
  ∃ S : Finset Nat, S ⊆ Finset.Icc 1 n ∧ t ≤ S.card ∧ ∀ p ∈ S, ∃ r, (p, bs, r) ∈ s.sent

end Horcrux.Spec
