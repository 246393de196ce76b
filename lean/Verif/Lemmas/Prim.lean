import Verif.Model.Prim
import Verif.Spec.Order
namespace Horcrux
open Spec

theorem i64_of_is {x : Int} (h : IsI64 x) : i64 x = x := by
  unfold i64; unfold IsI64 at h
  rw [Int.bmod_eq_of_le] <;> omega

theorem i32_of_is {x : Int} (h : IsI32 x) : i32 x = x := by
  unfold i32; unfold IsI32 at h
  rw [Int.bmod_eq_of_le] <;> omega

theorem i8_of_is {x : Int} (h : IsI8 x) : i8 x = x := by
  unfold i8; unfold IsI8 at h
  rw [Int.bmod_eq_of_le] <;> omega

theorem isI64_i64 (x : Int) : IsI64 (i64 x) := by
  unfold i64 IsI64
  have h1 := Int.le_bmod (x := x) (m := 2^64) (by decide)
  have h2 := Int.bmod_lt (x := x) (m := 2^64) (by decide)
  omega

theorem isI32_i32 (x : Int) : IsI32 (i32 x) := by
  unfold i32 IsI32
  have h1 := Int.le_bmod (x := x) (m := 2^32) (by decide)
  have h2 := Int.bmod_lt (x := x) (m := 2^32) (by decide)
  omega

theorem isI8_i8 (x : Int) : IsI8 (i8 x) := by
  unfold i8 IsI8
  have h1 := Int.le_bmod (x := x) (m := 2^8) (by decide)
  have h2 := Int.bmod_lt (x := x) (m := 2^8) (by decide)
  omega

namespace Spec.HRS

theorem lt_irrefl (a : HRS) : ¬ a ≺ a := by unfold lt; omega
theorem lt_trans {a b c : HRS} (h : a ≺ b) (h' : b ≺ c) : a ≺ c := by unfold lt at *; omega
theorem lt_tri (a b : HRS) : a ≺ b ∨ a = b ∨ b ≺ a := by
  cases a; cases b; unfold lt; simp only [Horcrux.HRS.mk.injEq]; omega
theorem le_refl (a : HRS) : a ≼ a := Or.inl rfl
theorem le_of_lt {a b : HRS} (h : a ≺ b) : a ≼ b := Or.inr h
theorem le_trans {a b c : HRS} (h : a ≼ b) (h' : b ≼ c) : a ≼ c := by
  rcases h with rfl | h
  · exact h'
  · rcases h' with rfl | h'
    · exact Or.inr h
    · exact Or.inr (lt_trans h h')
theorem lt_of_le_of_lt {a b c : HRS} (h : a ≼ b) (h' : b ≺ c) : a ≺ c := by
  rcases h with rfl | h
  · exact h'
  · exact lt_trans h h'
theorem lt_of_lt_of_le {a b c : HRS} (h : a ≺ b) (h' : b ≼ c) : a ≺ c := by
  rcases h' with rfl | h'
  · exact h
  · exact lt_trans h h'
theorem not_lt {a b : HRS} : ¬ a ≺ b ↔ b ≼ a := by
  constructor
  · intro h
    rcases lt_tri a b with h' | h' | h'
    · exact absurd h' h
    · exact Or.inl h'.symm
    · exact Or.inr h'
  · intro h h'
    exact lt_irrefl _ (lt_of_lt_of_le h' h)
theorem le_antisymm {a b : HRS} (h : a ≼ b) (h' : b ≼ a) : a = b := by
  rcases h with h | h
  · exact h
  · exact absurd (lt_of_lt_of_le h h') (lt_irrefl _)
theorem height_le {a b : HRS} (h : a ≼ b) : a.height ≤ b.height := by
  rcases h with rfl | h
  · exact Int.le_refl _
  · unfold lt at h; omega

end Spec.HRS
end Horcrux
