import Verif.Model.Elect
import Verif.Spec.Membership
/-
What C121 says about a run of `elect`.
-/
namespace Horcrux.Spec

/-- The cosigners `1..n` have agreeing configurations and raft knows them by those. -/
def ElectNet.Sound (c : ElectNet) (url : Nat → Str) : Prop :=
  c.n < 2 ^ 63 ∧ Agree c.n url c.cfgs ∧ ∀ i, c.addr i = (c.urlHost (url i)).getD (url i)

/-- An attempt, made while `l` leads, for which everything works: if it is handled at all, then by the leader, and raft completes
the transfer, to another server. -/
def Works (n l : Nat) (a : Attempt) : Prop :=
  ∀ m, a.node = some m → m = l ∧ a.moves = true ∧ 1 ≤ a.next ∧ a.next ≤ n ∧ a.next ≠ l

/-- How many attempts were handled. -/
def handled (r : Elected) : Nat := (r.made.filter fun x => x.2.node.isSome).length

/-- Attempts up to the first that is not to be tried again, that one included. -/
def untilSettled : List Attempt → List Attempt
  | [] => []
  | a :: as => if a.reply = .retriable then a :: untilSettled as else [a]

end Horcrux.Spec
