import Verif.Spec.System
import Verif.Spec.Message
/-
Vocabulary for votes that are requested again with another time.
-/
namespace Horcrux.Spec

/-- A record for the block `h` with sign bytes `sb` and signature `sg`, seen when `prev` has been asked for at `w` (empty:
nothing yet): it is below `w`, or it is the record of one of `prev`. -/
def Known (w : HRS) (prev : List Block) (h : HRS) (sb sg : Slice) : Prop :=
  h ≺ w ∨ (h = w ∧ (prev = [] ∨ ∃ b ∈ prev, sb = some b.signBytes ∧ sg ≠ none))

/-- The nonce key of a call, seen when `prev` has been asked for at `w`: it is below `w`, or that of one of `prev`. -/
def KnownKey (w : HRS) (prev : List Block) (k : HRST) : Prop :=
  k.hrs ≺ w ∨ (k.hrs = w ∧ (prev = [] ∨ ∃ b ∈ prev, b.key = k))

/-- A call of a cosigner concerns nothing but blocks below `w` and those of `prev`. -/
def KnownOp (w : HRS) (prev : List Block) : CosOp → Prop
  | .getPart req _ => KnownKey w prev req.key
  | .setPart req _ => KnownKey w prev req.key
  | .sign bs => ∀ k, unpackHRST bs = .ok k → k.hrs ≺ w ∨ (k.hrs = w ∧ (prev = [] ∨ ∃ b ∈ prev, bs = b.signBytes))
  | .saveLSS r => Known w prev r.hrs r.signBytes r.signature

/-- Events in order, where a vote may be requested again with other times. `w` is the last block, `prev` what was asked
for at that block. A further request is for a block above `w`, or it is a vote that differs from each of `prev` only in
its time, and the nanosecond count of its time is another one than theirs and than that of the zero time. -/
def InOrderTimes (n t : Nat) : HRS → List Block → List SysEv → Prop
  | _, _, [] => True
  | w, prev, .sign q :: es => Servable n t q ∧
      ((w ≺ q.block.hrs ∧ InOrderTimes n t q.block.hrs [q.block] es) ∨
       (q.block.hrs = w ∧ prev ≠ [] ∧ (w.step = 2 ∨ w.step = 3) ∧ -(2 ^ 63) + 3 ≤ w.height ∧
        q.block.timestamp.unixNano ≠ GoTime.zero.unixNano ∧
        (∀ b ∈ prev, DifferOnlyByTime w.step b.signBytes q.block.signBytes ∧
          b.timestamp.unixNano ≠ q.block.timestamp.unixNano) ∧
        InOrderTimes n t w (q.block :: prev) es))
  | w, prev, .deliver _ r :: es => Known w prev r.hrs r.signBytes r.signature ∧ InOrderTimes n t w prev es
  | w, prev, .other _ op :: es => KnownOp w prev op ∧ InOrderTimes n t w prev es
  | w, prev, .restart _ lv lc :: es => Known w prev lv.hrs lv.signBytes lv.signature ∧
      lv.cache lv.hrs = some ⟨lv.height, lv.round, lv.step, lv.signature, lv.signBytes⟩ ∧
      Known w prev lc.hrs lc.signBytes lc.signature ∧ InOrderTimes n t w prev es

end Horcrux.Spec
