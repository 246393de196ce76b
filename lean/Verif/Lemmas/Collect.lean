import Verif.Spec.Collect
/-
Invariant of the collection of peers.
-/
namespace Horcrux
open Spec

/-- What holds after the answers `past` have been taken. -/
structure CollectInv (t : Nat) (me : Nat) (past : List Nat) (s : Collect) : Prop where
  joined : s.joined = past.take (t - 1) ++ (if s.proceeded then [me] else [])
  counter : s.counter + (past.take (t - 1)).length = (t - 1 : Nat) + s.due.length
  due_sub : ∀ p ∈ s.due, p ∈ past.take (t - 1)
  due_nodup : s.due.Nodup
  enough : s.proceeded = true → t - 1 ≤ past.length ∧ s.due = []

theorem collectInv_start (t : Nat) (ht : 1 ≤ t) (me : Nat) :
    ∃ s, Collect.start t = .ok s ∧ CollectInv t me [] s ∧ s.proceeded = false := by
  refine ⟨⟨[], (t : Int) - 1, [], false⟩, ?_, ⟨by simp, by simp; omega, by simp, by simp, by simp⟩, rfl⟩
  unfold Collect.start
  rw [if_neg (by omega)]

theorem collectInv_step (t : Nat) (ht : 1 ≤ t) (me : Nat) (past : List Nat) (s : Collect) (e : CollectEv)
    (h : CollectInv t me past s) (hnd : (past ++ answersOf [e]).Nodup) (hself : ∀ x, e = .proceed x → x = me) :
    ∃ s', s.step t e = .ok s' ∧ CollectInv t me (past ++ answersOf [e]) s' := by
  obtain ⟨h1, h2, h3, h4, h5⟩ := h
  cases e with
  | failed p => exact ⟨s, rfl, by simpa [answersOf] using ⟨h1, h2, h3, h4, h5⟩⟩
  | answered p =>
    simp only [answersOf, List.nodup_append, List.mem_singleton] at hnd
    have hp : p ∉ past := fun hp => hnd.2.2 p hp p rfl rfl
    unfold Collect.step
    simp only [answersOf]
    have hjl : s.joined.length = min (t - 1) past.length + (if s.proceeded then 1 else 0) := by
      rw [h1, List.length_append, List.length_take]; split <;> rfl
    by_cases hlt : (s.joined.length : Int) < (t : Int) - 1
    · rw [if_pos hlt]
      have hnp : s.proceeded = false := by
        refine Bool.eq_false_iff.2 fun hc' => ?_
        have := (h5 hc').1
        rw [hc', if_pos rfl] at hjl
        omega
      have hl : past.length < t - 1 := by
        rw [hnp] at hjl
        simp at hjl
        omega
      have e1 : past.take (t - 1) = past := List.take_of_length_le (by omega)
      have e2 : (past ++ [p]).take (t - 1) = past ++ [p] := List.take_of_length_le (by simp; omega)
      refine ⟨_, rfl, ⟨?_, ?_, ?_, ?_, ?_⟩⟩
      · simp only [hnp, e2, Bool.false_eq_true, if_false, List.append_nil]
        rw [h1, e1, hnp]; simp
      · simp only [e2, List.length_append, List.length_singleton]
        rw [e1] at h2
        omega
      · intro q hq
        rw [e2]
        rcases List.mem_append.1 hq with h | h
        · exact List.mem_append_left _ (by rw [← e1]; exact h3 q h)
        · exact List.mem_append_right _ h
      · refine List.nodup_append.2 ⟨h4, by simp, ?_⟩
        intro a ha b hb
        rw [List.mem_singleton] at hb
        subst hb
        intro hab
        subst hab
        exact hp (by rw [← e1]; exact h3 _ ha)
      · simp [hnp]
    · rw [if_neg hlt]
      have hl : t - 1 ≤ past.length := by
        by_cases hc : s.proceeded = true
        · exact (h5 hc).1
        · rw [if_neg hc] at hjl; omega
      have e2 : (past ++ [p]).take (t - 1) = past.take (t - 1) := List.take_append_of_le_length hl
      refine ⟨s, rfl, ⟨by rw [e2]; exact h1, by rw [e2]; exact h2, by rw [e2]; exact h3, h4, fun h => ⟨?_, (h5 h).2⟩⟩⟩
      rw [List.length_append]; omega
  | done p =>
    simp only [answersOf, List.append_nil]
    unfold Collect.step
    simp only
    by_cases hp : p ∈ s.due
    · rw [if_pos hp]
      have hl : (s.due.length : Int) ≤ s.counter := by
        have : (past.take (t - 1)).length ≤ t - 1 := by rw [List.length_take]; omega
        omega
      have hpos : 0 < s.due.length := List.length_pos_of_mem hp
      rw [if_neg (by omega)]
      refine ⟨_, rfl, ⟨h1, ?_, fun q hq => h3 q (List.mem_of_mem_erase hq), h4.erase _, ?_⟩⟩
      · simp only
        rw [List.length_erase_of_mem hp]
        omega
      · intro h
        have := (h5 h).2
        rw [this] at hp; cases hp
    · rw [if_neg hp]; exact ⟨s, rfl, h1, h2, h3, h4, h5⟩
  | proceed x =>
    have hx := hself x rfl
    subst hx
    simp only [answersOf, List.append_nil]
    unfold Collect.step
    simp only
    by_cases hc : s.counter = 0 ∧ s.proceeded = false
    · rw [if_pos hc]
      have hl : (past.take (t - 1)).length ≤ t - 1 := by rw [List.length_take]; omega
      have hd : s.due.length = 0 := by omega
      refine ⟨_, rfl, ⟨?_, h2, h3, h4, fun _ => ⟨?_, List.length_eq_zero_iff.1 hd⟩⟩⟩
      · simp only [if_true]
        rw [h1, hc.2]; simp
      · rw [List.length_take] at h2 hl
        omega
    · rw [if_neg hc]; exact ⟨s, rfl, h1, h2, h3, h4, h5⟩

theorem answersOf_cons (e : CollectEv) (es : List CollectEv) : answersOf (e :: es) = answersOf [e] ++ answersOf es := by
  cases e <;> simp [answersOf]

theorem collectInv_run (t : Nat) (ht : 1 ≤ t) (me : Nat) : ∀ (es : List CollectEv) (past : List Nat) (s : Collect),
    CollectInv t me past s → (past ++ answersOf es).Nodup → (∀ x, .proceed x ∈ es → x = me) →
    ∃ s', Collect.run t s es = .ok s' ∧ CollectInv t me (past ++ answersOf es) s' := by
  intro es
  induction es with
  | nil => intro past s h _ _; exact ⟨s, rfl, by simpa [answersOf] using h⟩
  | cons e es ih =>
    intro past s h hnd hself
    rw [answersOf_cons, ← List.append_assoc] at hnd ⊢
    obtain ⟨s1, h1, h2⟩ := collectInv_step t ht me past s e h (List.nodup_append.1 hnd).1
      (fun x hx => hself x (hx ▸ List.mem_cons_self ..))
    unfold Collect.run
    rw [h1]
    exact ih _ s1 h2 hnd (fun x hx => hself x (List.mem_cons_of_mem _ hx))

end Horcrux
