import Verif.Model.Replica
import Verif.Spec.Order
/-
Vocabulary for runs of the raft stores.
-/
namespace Horcrux.Spec

/-- Node `p` is given no snapshot, and whenever it starts again its files hold sign states not below those it had. -/
def Spared (p : Nat) : Replicas → List RepEv → Prop
  | _, [] => True
  | c, e :: es =>
    (∀ q, e ≠ .install p q) ∧
    (∀ lv lc, e = .restart p lv lc → (c.node p).fsm.val.hrs ≼ lv.hrs ∧ (c.node p).fsm.cos.hrs ≼ lc.hrs) ∧
    ∀ c', c.step e = some c' → Spared p c' es

/-- What a node has had since it was last started: the sign states of its files then, and the entries it has applied since. -/
structure Life where
  lv : SignState
  lc : SignState
  heard : List Bytes

/-- The life of node `p` after one event. -/
def Life.after (p : Nat) (c : Replicas) (a : Life) : RepEv → Life
  | .apply q => if q = p then { a with heard := a.heard ++ (c.log[(c.node p).applied]?).toList } else a
  | .restart q lv lc => if q = p then ⟨lv, lc, []⟩ else a
  | _ => a

/-- The life of node `p` at the end of a run. -/
def lifeOf (p : Nat) : Replicas → Life → List RepEv → Life
  | _, a, [] => a
  | c, a, e :: es =>
    match c.step e with
    | none => a
    | some c' => lifeOf p c' (a.after p c e) es

end Horcrux.Spec
