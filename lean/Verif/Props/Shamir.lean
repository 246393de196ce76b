import Verif.Lemmas.ToyField
/-
Properties C22, C23: the sharing of the key (and of every nonce), over an arbitrary field in which the indices
`0..n` are different (the scalar field of ed25519 has more than 2^252 elements, indices are at most 255).
-/
namespace Horcrux
open Polynomial

variable {F : Type} [Field F]

/-- C22: the shares of any set of at least `t` different cosigners combine to the secret. -/
theorem C22_recover (n t : Nat) (hn : CastInj F n) (secret : F) (coeffs : List F) (hc : coeffs.length + 1 ≤ t)
    (ids : List Nat) (hnd : ids.Nodup) (hids : ∀ i ∈ ids, 1 ≤ i ∧ i ≤ n) (ht : t ≤ ids.length) :
    combineF ids (ids.map (fun i : Nat => (dealF secret coeffs n).getD (i - 1) 0)) = secret := by
  have h : ids.map (fun i : Nat => (dealF secret coeffs n).getD (i - 1) 0)
      = ids.map (fun i : Nat => horner (secret :: coeffs) (i : F)) := by
    refine List.map_congr_left fun i hi => ?_
    obtain ⟨h1, h2⟩ := hids i hi
    unfold dealF
    rw [List.getD_eq_getElem?_getD, List.getElem?_map, List.getElem?_range (by omega)]
    simp only [Option.map_some, Option.getD_some]
    unfold shareOf
    rw [Nat.sub_add_cancel h1]
  rw [h, combine_eval n hn ids hnd hids (secret :: coeffs) (by simp; omega)]
  simp [horner]

/-- The coefficient lists of a `t`-threshold dealing of `secret` that give every cosigner in `ids` the share `y`. -/
def Consistent (t : Nat) (ids : List Nat) (y : Nat → F) (secret : F) : Set (List F) :=
  {coeffs | coeffs.length + 1 = t ∧ ∀ i ∈ ids, shareOf secret coeffs i = y i}

/-- C23: whatever the shares of fewer than `t` cosigners are, for every candidate secret there is a dealing that
gives exactly those shares. -/
theorem C23_consistent (n t : Nat) (hn : CastInj F n) (ids : List Nat) (hnd : ids.Nodup)
    (hids : ∀ i ∈ ids, 1 ≤ i ∧ i ≤ n) (ht : ids.length < t) (y : Nat → F) (secret : F) :
    (Consistent t ids y secret).Nonempty := by
  have h0 : 0 ∉ ids := fun h => by have := (hids 0 h).1; omega
  let s : Finset Nat := insert 0 ids.toFinset
  have hcard : s.card = ids.length + 1 := by
    rw [Finset.card_insert_of_notMem (by simpa using h0), List.toFinset_card_of_nodup hnd]
  have hinj : Set.InjOn (fun i : Nat => (i : F)) (s : Set Nat) := by
    have hb : ∀ i ∈ s, i ≤ n := by
      intro i hi
      rcases Finset.mem_insert.1 hi with rfl | hi
      · exact Nat.zero_le _
      · exact (hids i (by simpa using hi)).2
    intro i hi j hj h
    exact hn i j (hb i hi) (hb j hj) h
  let v : Nat → F := fun i => if i = 0 then secret else y i
  have hdeg := Lagrange.degree_interpolate_lt v hinj
  have hdeg' : (Lagrange.interpolate s (fun i : Nat => (i : F)) v).degree < (t : ℕ) :=
    lt_of_lt_of_le hdeg (by rw [hcard]; exact_mod_cast ht)
  obtain ⟨l, hl, hp⟩ := exists_polyOf t _ hdeg'
  have hev : ∀ i ∈ s, horner l (i : F) = v i := by
    intro i hi
    rw [← eval_polyOf, hp]
    exact Lagrange.eval_interpolate_at_node v hinj hi
  cases l with
  | nil => simp at hl; omega
  | cons a l =>
    have ha : a = secret := by
      have := hev 0 (Finset.mem_insert_self _ _)
      simpa [horner, v] using this
    subst ha
    refine ⟨l, by simpa using hl, ?_⟩
    intro i hi
    have hi0 : i ≠ 0 := fun h => h0 (h ▸ hi)
    have := hev i (Finset.mem_insert_of_mem (by simpa using hi))
    simpa [shareOf, v, hi0] using this

/-- C23: and for exactly `t - 1` cosigners there is exactly one such dealing. -/
theorem C23_unique (n t : Nat) (hn : CastInj F n) (ids : List Nat) (hnd : ids.Nodup)
    (hids : ∀ i ∈ ids, 1 ≤ i ∧ i ≤ n) (ht : ids.length + 1 = t) (y : Nat → F) (secret : F) :
    ∃ coeffs, Consistent t ids y secret = {coeffs} := by
  obtain ⟨c, hc⟩ := C23_consistent n t hn ids hnd hids (by omega) y secret
  refine ⟨c, Set.eq_singleton_iff_unique_mem.2 ⟨hc, ?_⟩⟩
  intro c' hc'
  have h0 : 0 ∉ ids := fun h => by have := (hids 0 h).1; omega
  let s : Finset Nat := insert 0 ids.toFinset
  have hcard : s.card = t := by
    rw [Finset.card_insert_of_notMem (by simpa using h0), List.toFinset_card_of_nodup hnd, ht]
  have hinj : Set.InjOn (fun i : Nat => (i : F)) (s : Set Nat) := by
    have hb : ∀ i ∈ s, i ≤ n := by
      intro i hi
      rcases Finset.mem_insert.1 hi with rfl | hi
      · exact Nat.zero_le _
      · exact (hids i (by simpa using hi)).2
    intro i hi j hj h
    exact hn i j (hb i hi) (hb j hj) h
  have hlen : (secret :: c').length = (secret :: c).length := by
    rw [List.length_cons, List.length_cons, hc.1, hc'.1]
  have hpoly : polyOf (secret :: c') = polyOf (secret :: c) := by
    refine Polynomial.eq_of_degrees_lt_of_eval_index_eq s hinj ?_ ?_ ?_
    · rw [hcard]; exact lt_of_lt_of_le (degree_polyOf _) (by rw [List.length_cons, hc'.1])
    · rw [hcard]; exact lt_of_lt_of_le (degree_polyOf _) (by rw [List.length_cons, hc.1])
    · intro i hi
      rw [eval_polyOf, eval_polyOf]
      rcases Finset.mem_insert.1 hi with rfl | hi
      · simp [horner]
      · have hi' : i ∈ ids := by simpa using hi
        have a1 := hc.2 i hi'
        have a2 := hc'.2 i hi'
        unfold shareOf at a1 a2
        rw [a1, a2]
  have := polyOf_injective hlen hpoly
  exact (List.cons.inj this).2

/-- Coefficientwise sum of lists of the same length. -/
theorem horner_add (l l' : List F) (h : l.length = l'.length) (x : F) :
    horner (List.zipWith (· + ·) l l') x = horner l x + horner l' x := by
  induction l generalizing l' with
  | nil =>
    cases l' with
    | nil => simp [horner]
    | cons _ _ => simp at h
  | cons a l ih =>
    cases l' with
    | nil => simp at h
    | cons b l' =>
      simp only [List.zipWith_cons_cons, horner]
      rw [ih l' (by simpa using h)]
      ring

/-- C23: any two candidate secrets are explained by equally many dealings (a bijection), so uniformly random
coefficients carry no information about the secret to fewer than `t` cosigners. -/
theorem C23_no_information (n t : Nat) (hn : CastInj F n) (ids : List Nat) (hnd : ids.Nodup)
    (hids : ∀ i ∈ ids, 1 ≤ i ∧ i ≤ n) (ht : ids.length < t) (y : Nat → F) (secret secret' : F) :
    ∃ f : List F → List F, Set.BijOn f (Consistent t ids y secret) (Consistent t ids y secret') := by
  -- a dealing of `secret' - secret` that gives these cosigners nothing
  obtain ⟨d, hd, hd0⟩ := C23_consistent n t hn ids hnd hids ht (fun _ => 0) (secret' - secret)
  have key : ∀ (a b : F) (c e : List F), c.length + 1 = t → e.length + 1 = t →
      (∀ i ∈ ids, shareOf b e i = 0) → (∀ i ∈ ids, shareOf a c i = y i) →
      (List.zipWith (· + ·) c e).length + 1 = t ∧ ∀ i ∈ ids, shareOf (a + b) (List.zipWith (· + ·) c e) i = y i := by
    intro a b c e hc he h0 hy
    refine ⟨by simp; omega, ?_⟩
    intro i hi
    have := horner_add (a :: c) (b :: e) (by simp; omega) (i : F)
    have h1 := h0 i hi
    have h2 := hy i hi
    unfold shareOf at h1 h2 ⊢
    rw [List.zipWith_cons_cons] at this
    rw [this, h1, h2, add_zero]
  have hneg : ∀ i ∈ ids, shareOf (secret - secret') (d.map (fun x => -x)) i = 0 := by
    intro i hi
    have hm : ∀ (l : List F) (x : F), horner (l.map (fun x => -x)) x = - horner l x := by
      intro l x
      induction l with
      | nil => simp [horner]
      | cons a l ih => simp only [List.map_cons, horner, ih]; ring
    have h1 := hd0 i hi
    unfold shareOf at h1 ⊢
    have h2 := hm ((secret' - secret) :: d) (i : F)
    rw [List.map_cons, neg_sub] at h2
    rw [h2, h1, neg_zero]
  have hz : ∀ c e : List F, c.length = e.length →
      List.zipWith (· + ·) (List.zipWith (· + ·) c e) (e.map (fun x => -x)) = c := by
    intro c e h
    induction c generalizing e with
    | nil => simp
    | cons a c ih =>
      cases e with
      | nil => simp at h
      | cons b e => simp only [List.zipWith_cons_cons, List.map_cons, ih e (by simpa using h), add_neg_cancel_right]
  have hz' : ∀ c e : List F, c.length = e.length →
      List.zipWith (· + ·) (List.zipWith (· + ·) c (e.map (fun x => -x))) e = c := by
    intro c e h
    induction c generalizing e with
    | nil => simp
    | cons a c ih =>
      cases e with
      | nil => simp at h
      | cons b e => simp only [List.zipWith_cons_cons, List.map_cons, ih e (by simpa using h), neg_add_cancel_right]
  refine ⟨fun c => List.zipWith (· + ·) c d, ?_, ?_, ?_⟩
  · rintro c ⟨hc, hy⟩
    have := key secret (secret' - secret) c d hc hd hd0 hy
    rw [add_sub_cancel] at this
    exact this
  · rintro c ⟨hc, _⟩ c' ⟨hc', _⟩ h
    have h1 := hz c d (by omega)
    have h2 := hz c' d (by omega)
    simp only at h
    rw [h] at h1
    exact h1.symm.trans h2
  · rintro c ⟨hc, hy⟩
    have hk := key secret' (secret - secret') c (d.map (fun x => -x)) hc (by simpa using hd) hneg hy
    rw [add_sub_cancel] at hk
    exact ⟨_, hk, hz' c d (by omega)⟩

/-- Concretely: 42 dealt 2-of-3 over the field with 257 elements, recovered by cosigners 1 and 3, and by 2 and 3. -/
example : combineF [3, 1] (([3, 1] : List Nat).map (fun i : Nat => (dealF (42 : ZMod 257) [7] 3).getD (i - 1) 0)) = 42 ∧
    combineF [2, 3] (([2, 3] : List Nat).map (fun i : Nat => (dealF (42 : ZMod 257) [7] 3).getD (i - 1) 0)) = 42 :=
  ⟨C22_recover 3 2 (castInj257.mono (by decide)) 42 [7] (by decide) [3, 1] (by decide) (by decide) (by decide),
   C22_recover 3 2 (castInj257.mono (by decide)) 42 [7] (by decide) [2, 3] (by decide) (by decide) (by decide)⟩

/-- Concretely: cosigner 1's share 49 is explained by the secret 42 and by the secret 0, once each. -/
example : (∃ c, Consistent 2 [1] (fun _ => (49 : ZMod 257)) 42 = {c}) ∧
    (∃ c, Consistent 2 [1] (fun _ => (49 : ZMod 257)) 0 = {c}) :=
  ⟨C23_unique 255 2 castInj257 [1] (by decide) (by decide) rfl _ _,
   C23_unique 255 2 castInj257 [1] (by decide) (by decide) rfl _ _⟩

end Horcrux
