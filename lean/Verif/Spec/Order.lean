import Verif.Model.Prim
/-
Specification: the lexicographic order on (height, round, step).
-/
namespace Horcrux.Spec
open Horcrux

/-- `a` is strictly below `b`: compare heights, then rounds, then steps. -/
def HRS.lt (a b : HRS) : Prop :=
  a.height < b.height ∨ (a.height = b.height ∧
    (a.round < b.round ∨ (a.round = b.round ∧ a.step < b.step)))

/-- `a` is below or equal to `b`. -/
def HRS.le (a b : HRS) : Prop := a = b ∨ HRS.lt a b

instance (a b : HRS) : Decidable (HRS.lt a b) := by unfold HRS.lt; infer_instance
instance (a b : HRS) : Decidable (HRS.le a b) := by unfold HRS.le; infer_instance

@[inherit_doc] infix:50 " ≺ " => HRS.lt
@[inherit_doc] infix:50 " ≼ " => HRS.le

end Horcrux.Spec
