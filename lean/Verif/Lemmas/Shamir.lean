import Verif.Model.Shamir
import Mathlib.LinearAlgebra.Lagrange
/-
Lemmas on Shamir sharing.
-/
namespace Horcrux
open Polynomial

variable {F : Type} [Field F]

/-- The polynomial with the given coefficients. -/
noncomputable def polyOf : List F → F[X]
  | [] => 0
  | a :: l => C a + X * polyOf l

theorem eval_polyOf (l : List F) (x : F) : (polyOf l).eval x = horner l x := by
  induction l with
  | nil => simp [polyOf, horner]
  | cons a l ih => simp [polyOf, horner, ih]

theorem degree_polyOf (l : List F) : (polyOf l).degree < l.length := by
  rw [degree_lt_iff_coeff_zero]
  induction l with
  | nil => intro m _; simp [polyOf]
  | cons a l ih =>
    intro m hm
    rw [List.length_cons] at hm
    cases m with
    | zero => omega
    | succ m =>
      rw [polyOf, coeff_add, coeff_X_mul, ih m (by omega), coeff_C_succ, add_zero]

theorem polyOf_injective {l l' : List F} (hlen : l.length = l'.length) (h : polyOf l = polyOf l') : l = l' := by
  induction l generalizing l' with
  | nil =>
    cases l' with
    | nil => rfl
    | cons _ _ => simp at hlen
  | cons a l ih =>
    cases l' with
    | nil => simp at hlen
    | cons a' l' =>
      rw [polyOf, polyOf] at h
      have h0 : a = a' := by
        have := congrArg (fun p => p.coeff 0) h
        simpa using this
      have h1 : polyOf l = polyOf l' := by
        ext m
        have := congrArg (fun p => p.coeff (m + 1)) h
        simpa [coeff_C_succ] using this
      rw [h0, ih (by simpa using hlen) h1]

theorem exists_polyOf (n : Nat) (p : F[X]) (h : p.degree < n) : ∃ l : List F, l.length = n ∧ polyOf l = p := by
  rw [degree_lt_iff_coeff_zero] at h
  induction n generalizing p with
  | zero =>
    refine ⟨[], rfl, ?_⟩
    ext m
    rw [h m (Nat.zero_le _)]; simp [polyOf]
  | succ n ih =>
    obtain ⟨l, hl, hp⟩ := ih p.divX (by
      intro m hm
      rw [coeff_divX]
      exact h _ (by omega))
    refine ⟨p.coeff 0 :: l, by simp [hl], ?_⟩
    rw [polyOf, hp, add_comm, mul_comm]
    exact divX_mul_X_add p

/-- The indices `0..n` are different elements of the field. -/
def CastInj (F : Type) [Field F] (n : Nat) : Prop := ∀ i j : Nat, i ≤ n → j ≤ n → (i : F) = (j : F) → i = j

theorem CastInj.mono {m n : Nat} (h : CastInj F n) (hmn : m ≤ n) : CastInj F m :=
  fun i j hi hj => h i j (hi.trans hmn) (hj.trans hmn)

theorem prod_filter_list (ids : List Nat) (hnd : ids.Nodup) (i : Nat) :
    (lagrangeAt ids i : F) = ∏ j ∈ ids.toFinset.erase i, ((j : F) / ((j : F) - (i : F))) := by
  unfold lagrangeAt
  rw [← List.prod_toFinset _ (hnd.filter _)]
  congr 1
  ext j
  simp only [List.mem_toFinset, List.mem_filter, Finset.mem_erase, decide_eq_true_eq]
  tauto

theorem combine_map (ids : List Nat) (hnd : ids.Nodup) (f : Nat → F) :
    combineF ids (ids.map f) = ∑ i ∈ ids.toFinset, (lagrangeAt ids i) * f i := by
  unfold combineF
  rw [List.zipWith_map_right, List.zipWith_self, ← List.sum_toFinset _ hnd]

/-- Lagrange interpolation at zero. -/
theorem combine_eval (n : Nat) (hn : CastInj F n) (ids : List Nat) (hnd : ids.Nodup)
    (hids : ∀ i ∈ ids, 1 ≤ i ∧ i ≤ n) (l : List F) (hl : l.length ≤ ids.length) :
    combineF ids (ids.map (fun i : Nat => horner l (i : F))) = horner l 0 := by
  have hinj : Set.InjOn (fun i : Nat => (i : F)) (ids.toFinset : Set Nat) := by
    intro i hi j hj h
    simp only [Finset.mem_coe, List.mem_toFinset] at hi hj
    exact hn i j (hids i hi).2 (hids j hj).2 h
  have hdeg : (polyOf l).degree < (ids.toFinset.card : ℕ) := by
    rw [List.toFinset_card_of_nodup hnd]
    exact lt_of_lt_of_le (degree_polyOf l) (by exact_mod_cast hl)
  have hint := Lagrange.eq_interpolate hinj hdeg
  rw [combine_map ids hnd, ← eval_polyOf l 0, hint, Lagrange.interpolate_apply, eval_finsetSum]
  refine Finset.sum_congr rfl fun i hi => ?_
  rw [eval_mul, eval_C, mul_comm, eval_polyOf, ← eval_polyOf l (i : F)]
  congr 1
  · rw [prod_filter_list ids hnd i, Lagrange.basis, eval_prod]
    refine Finset.prod_congr rfl fun j hj => ?_
    rw [Lagrange.basisDivisor]
    simp only [eval_mul, eval_C, eval_sub, eval_X, zero_sub]
    have hij : (j : F) - (i : F) ≠ 0 := by
      intro h
      rw [sub_eq_zero] at h
      rw [Finset.mem_erase] at hj
      exact hj.1 (hinj (by simpa using hj.2) (by simpa using hi) h)
    have hji : (i : F) - (j : F) ≠ 0 := by
      rw [← neg_sub]; exact neg_ne_zero.2 hij
    field_simp
    ring

end Horcrux
