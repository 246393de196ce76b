import Verif.Model.SignState
import Verif.Spec.Order
/-
Specification of a watermark history: which of a sequence of submitted records are accepted, independently
of how the sign state stores them.
-/
namespace Horcrux.Spec
open Horcrux

/-- The records of `rs` that are accepted when the current watermark is `w`: each accepted record is
strictly above everything before it. -/
def accepted (w : HRS) : List SSC → List SSC
  | [] => []
  | r :: rs => if w ≺ ⟨r.height, r.round, r.step⟩
      then r :: accepted ⟨r.height, r.round, r.step⟩ rs
      else accepted w rs

/-- The watermark after submitting `rs` on top of watermark `w`: the last accepted record, or `w`. -/
def watermark (w : HRS) (rs : List SSC) : HRS :=
  match (accepted w rs).getLast? with
  | some r => ⟨r.height, r.round, r.step⟩
  | none => w

/-- What a lookup of `k` must return when `recs` are all the accepted records so far and `w` is the watermark:
the record accepted for `k`, if its height is within three of the watermark height. -/
def cacheAnswer (w : HRS) (recs : List SSC) (k : HRS) : Option SSC :=
  if w.height - 3 ≤ k.height then
    recs.find? (fun r => decide (r.height = k.height ∧ r.round = k.round ∧ r.step = k.step))
  else none

end Horcrux.Spec
