import Verif.Model.Cluster
import Verif.Lemmas.Cosigner
import Mathlib.Data.Finset.Card
import Mathlib.Order.Interval.Finset.Nat
/-
Projection of a joint run to one cosigner, quorum intersection.
-/
namespace Horcrux

theorem cluster_dead {C : Crypto} {cfg : Nat → CosignerCfg} {c c' : Cluster} {tr : List ClusterEv}
    (h : Cluster.Run C cfg c tr c') {i : Nat} (hi : c i = none) : ∀ e ∈ tr, e.node ≠ i := by
  induction h with
  | nil => intro e he; cases he
  | @cons c c2 j s s1 op out tr halive _ _ ih =>
    have hji : i ≠ j := by rintro rfl; rw [hi] at halive; cases halive
    intro e he
    rcases List.mem_cons.1 he with rfl | he
    · exact Ne.symm hji
    · exact ih (by simp only [if_neg hji]; exact hi) e he

/-- Every answer of cosigner `i` other than a panic occurs in a run of that cosigner. -/
theorem cluster_proj {C : Crypto} {cfg : Nat → CosignerCfg} {c c' : Cluster} {tr : List ClusterEv}
    (h : Cluster.Run C cfg c tr c') {i : Nat} {s : CState} (hi : c i = some s) :
    ∃ t s', Run C (cfg i) s t s' ∧ ∀ e ∈ tr, e.node = i → e.out ≠ .panic → (e.op, e.out) ∈ t := by
  induction h generalizing s with
  | nil => exact ⟨[], s, .nil _, fun e he => by cases he⟩
  | @cons c c2 j sj s1 op out tr halive hstep htail ih =>
    by_cases hij : i = j
    · subst hij
      rw [halive] at hi
      cases hi
      by_cases hp : out = .panic
      · refine ⟨[], _, .nil _, ?_⟩
        intro e he hei hep
        rcases List.mem_cons.1 he with rfl | he
        · exact absurd hp hep
        · exact absurd hei (cluster_dead htail (by simp [hp]) e he)
      · obtain ⟨t, s', h1, h2⟩ := ih (s := s1) (by simp [hp])
        refine ⟨(op, out) :: t, s', .cons hstep hp h1, ?_⟩
        intro e he hei hep
        rcases List.mem_cons.1 he with rfl | he
        · exact List.mem_cons_self ..
        · exact List.mem_cons_of_mem _ (h2 e he hei hep)
    · obtain ⟨t, s', h1, h2⟩ := ih (s := s) (by simp only [if_neg hij]; exact hi)
      refine ⟨t, s', h1, ?_⟩
      intro e he hei hep
      rcases List.mem_cons.1 he with rfl | he
      · exact absurd hei.symm hij
      · exact h2 e he hei hep

/-- Two sets of at least `t` out of `n` with `2t > n + f` share an element outside any set of at most `f`. -/
theorem quorum_intersect (n t f : Nat) (h : n + f < 2 * t) (S S' B : Finset Nat)
    (hS : S ⊆ Finset.Icc 1 n) (hS' : S' ⊆ Finset.Icc 1 n) (hB : B.card ≤ f) (hc : t ≤ S.card) (hc' : t ≤ S'.card) :
    ∃ i ∈ S, i ∈ S' ∧ i ∉ B := by
  have hu : (S ∪ S').card ≤ n := by
    have := Finset.card_le_card (Finset.union_subset hS hS')
    rwa [Nat.card_Icc, Nat.add_sub_cancel] at this
  have hi := Finset.card_union_add_card_inter S S'
  have hd : 0 < ((S ∩ S') \ B).card := by
    have := Finset.le_card_sdiff B (S ∩ S')
    omega
  obtain ⟨i, hi⟩ := Finset.card_pos.1 hd
  rw [Finset.mem_sdiff, Finset.mem_inter] at hi
  exact ⟨i, hi.1.1, hi.1.2, hi.2⟩

/-- The IDs the leader combines: those of the non-empty entries. -/
theorem collectSigs_ids (l : List Bytes) : ∀ j, (collectSigs j l).1.Nodup ∧
    ∀ i ∈ (collectSigs j l).1, j < i ∧ ∃ b, l[i - 1 - j]? = some b ∧ b.length ≠ 0 := by
  induction l with
  | nil => intro j; simp [collectSigs]
  | cons a l ih =>
    intro j
    obtain ⟨h1, h2⟩ := ih (j + 1)
    have h2' : ∀ i ∈ (collectSigs (j + 1) l).1, j < i ∧ ∃ b, (a :: l)[i - 1 - j]? = some b ∧ b.length ≠ 0 := by
      intro i hi
      obtain ⟨g1, b, g2, g3⟩ := h2 i hi
      refine ⟨by omega, b, ?_, g3⟩
      have : i - 1 - j = (i - 1 - (j + 1)) + 1 := by omega
      rw [this, List.getElem?_cons_succ]; exact g2
    unfold collectSigs
    simp only
    split
    · exact ⟨h1, h2'⟩
    · next hne =>
      refine ⟨List.nodup_cons.2 ⟨fun hm => by have := (h2 _ hm).1; omega, h1⟩, ?_⟩
      intro i hi
      rcases List.mem_cons.1 hi with rfl | hi
      · exact ⟨by omega, a, by simp, hne⟩
      · exact h2' i hi

end Horcrux
