import Verif.Model.System
import Verif.Spec.Order
/-
Vocabulary for runs of the whole cluster.
-/
namespace Horcrux.Spec

/-- A call of a cosigner concerns no block above `w`. -/
def NotAbove (w : HRS) : CosOp → Prop
  | .getPart req _ => ⟨req.height, req.round, req.step⟩ ≼ w
  | .setPart req _ => ⟨req.height, req.round, req.step⟩ ≼ w
  | .sign bs => ∀ k, unpackHRST bs = .ok k → k.hrs ≼ w
  | .saveLSS r => r.hrs ≼ w

/-- A sign request that the cluster `1..n` with threshold `t` is able to serve: its sign bytes are those of a message for
the block; at least `t` cosigners, with the leader among them, take part; the random number generator works. -/
structure Servable (n t : Nat) (q : Req) : Prop where
  bytes : unpackHRST q.block.signBytes = .ok q.block.key
  nodup : q.ps.Nodup
  ids : ∀ p ∈ q.ps, 1 ≤ p ∧ p ≤ n
  quorum : t ≤ q.ps.length
  leads : q.leader ∈ q.ps
  order : ∀ p, (q.order p).Perm ((List.range' 1 n).map (fun i : Nat => (i : Int)))
  mapOrder : ∀ p, (q.mapOrder p).Perm q.ps
  random : ∀ p i, ∃ sec, (q.rnd1 p i).secret = some sec ∧ sec.length = 32

/-- Events in order: the sign requests are for blocks above `w`, each above the one before, and can be served; in between
there may be anything that does not concern a later block than the last one. -/
def InOrder (n t : Nat) : HRS → List SysEv → Prop
  | _, [] => True
  | w, .sign q :: es => w ≺ q.block.hrs ∧ Servable n t q ∧ InOrder n t q.block.hrs es
  | w, .deliver _ r :: es => r.hrs ≼ w ∧ InOrder n t w es
  | w, .other _ op :: es => NotAbove w op ∧ InOrder n t w es
  | w, .restart _ lv lc :: es => lv.hrs ≼ w ∧ lc.hrs ≼ w ∧ InOrder n t w es

/-- The sign requests among the events. -/
def requests : List SysEv → List Req
  | [] => []
  | .sign q :: es => q :: requests es
  | _ :: es => requests es

end Horcrux.Spec
