import Mathlib.Order.Interval.Finset.Nat
import Verif.Model.Halt
import Verif.Spec.System
/-
Vocabulary for clusters in which raft was shut down on some nodes.
-/
namespace Horcrux.Spec

/-- The event starts node `p` again. -/
def Restarts (p : Nat) : HaltEv → Prop
  | .sys _ _ (.restart j _ _) => j = p
  | _ => False

/-- The answer has no signature, and if there is one it is an error. -/
def Unsigned (o : VOut) : Prop := ∀ id b sig ts e, o = .ret id b sig ts e → sig = none ∧ e ≠ none

/-- The sign requests among the events. -/
def haltRequests : List HaltEv → List Req
  | [] => []
  | .sys _ _ (.sign q) :: es => q :: haltRequests es
  | _ :: es => haltRequests es

/-- Events in order, as `InOrder`, with calls of `Shutdown` among them; `called` are the nodes that got one since they started.
When a request comes, these are fewer than half of the members `1..n`, and neither the leader nor a node on the way is one of
them; `ok` is asked of it too. -/
def Untouched (ok : Bytes → List (Nat × Nat) → Req → Prop) (n t : Nat) : HRS → Finset Nat → List HaltEv → Prop
  | _, _, [] => True
  | w, called, .shutdown p _ :: es => Untouched ok n t w (insert p called) es
  | w, called, .sys chainID hops (.sign q) :: es => w ≺ q.block.hrs ∧ Servable n t q ∧ ok chainID hops q ∧
      2 * (called ∩ Finset.Icc 1 n).card < n ∧ q.leader ∉ called ∧ (∀ h ∈ hops, h.1 ∉ called) ∧
      Untouched ok n t q.block.hrs called es
  | w, called, .sys _ _ (.deliver _ r) :: es => r.hrs ≼ w ∧ Untouched ok n t w called es
  | w, called, .sys _ _ (.other _ op) :: es => NotAbove w op ∧ Untouched ok n t w called es
  | w, called, .sys _ _ (.restart p lv lc) :: es => lv.hrs ≼ w ∧ lc.hrs ≼ w ∧ Untouched ok n t w (called.erase p) es

end Horcrux.Spec
