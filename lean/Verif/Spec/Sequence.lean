import Verif.Spec.System
import Mathlib.Data.Finset.Card
/-
Vocabulary for the order in which a cluster makes signatures.
-/
namespace Horcrux.Spec

/-- An answer to a sign request that gives the signature `sig` for the block `h`. -/
def Gives (h : HRS) (sig : Bytes) (a : Req × VOut) : Prop :=
  a.1.block.hrs = h ∧ ∃ id b stamp, a.2 = .ret id b (some sig) stamp none

/-- The signature `sig` for the block `h` is in a loaded file. -/
def InFile (h : HRS) (sig : Bytes) (l : SignState) : Prop := ∃ r, l.cache h = some r ∧ r.signature = some sig

/-- The signature `sig` for the block `h` comes from outside: from a raft event or from the file of a node that starts
again. -/
def BroughtBy (h : HRS) (sig : Bytes) : SysEv → Prop
  | .deliver _ r => r.hrs = h ∧ r.signature = some sig
  | .restart _ lv _ => InFile h sig lv
  | _ => False

/-- The signature `sig` for the block `h` is not new after the events `evs` with the answers `as` in a cluster that was
started with the files `lv`. -/
def Seen (lv : Nat → SignState) (evs : List SysEv) (as : List (Req × VOut)) (h : HRS) (sig : Bytes) : Prop :=
  (∃ p, InFile h sig (lv p)) ∨ (∃ e ∈ evs, BroughtBy h sig e) ∨ ∃ a ∈ as, Gives h sig a

/-- The sign requests carry sign bytes for their own block (as those of chain nodes do, C06). -/
def OwnBytes : SysEv → Prop
  | .sign q => unpackHRST q.block.signBytes = .ok q.block.key
  | _ => True

/-- Whenever a node that is not one of `faulty` starts again and its cosigner had the block `w` or a higher one as its
watermark, it finds such a watermark in its file. -/
def FilesKeep (C : Crypto) (vcfg : ValidatorCfg) (cfg : Nat → CosignerCfg) (n : Nat) (faulty : Finset Nat) (w : HRS) :
    Sys → List SysEv → Prop
  | _, [] => True
  | s, e :: es =>
    (∀ p lv lc, e = .restart p lv lc → p ∉ faulty → w ≼ (s.cs p).lss.hrs → w ≼ lc.hrs) ∧
    FilesKeep C vcfg cfg n faulty w (s.step C vcfg cfg n e).2 es

end Horcrux.Spec
