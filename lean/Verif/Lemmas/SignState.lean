import Verif.Model.SignState
import Verif.Spec.History
import Verif.Lemmas.Prim
namespace Horcrux
open Spec

theorem SignState.getErr_none_iff (s : SignState) (h r st : Int) :
    s.getErrorIfLessOrEqual h r st = none ↔ s.hrs ≺ ⟨h, r, st⟩ := by
  unfold SignState.getErrorIfLessOrEqual SignState.hrs Spec.HRS.lt
  simp only
  (repeat' split) <;> simp <;> omega

theorem SignState.save_ok_iff (s : SignState) (r : SSC) :
    (s.save r).1 = none ↔ s.hrs ≺ r.hrs := by
  have := SignState.getErr_none_iff s r.height r.round r.step
  unfold SignState.save
  split <;> simp_all [SSC.hrs]

theorem SignState.save_err (s : SignState) (r : SSC) (h : ¬ s.hrs ≺ r.hrs) : (s.save r).2 = s := by
  have := SignState.getErr_none_iff s r.height r.round r.step
  unfold SignState.save
  split <;> simp_all [SSC.hrs]

theorem SignState.save_ok (s : SignState) (r : SSC) (h : s.hrs ≺ r.hrs) :
    s.save r = (none, { s with
      cache := fun k => if k.height < i64 (r.height - blocksToCache) then none
        else if k = r.hrs then some r else s.cache k
      height := r.height, round := r.round, step := r.step
      signature := r.signature, signBytes := r.signBytes }) := by
  have := (SignState.getErr_none_iff s r.height r.round r.step).2 h
  unfold SignState.save
  rw [this]

theorem SignState.save_hrs (s : SignState) (r : SSC) :
    (s.save r).2.hrs = if s.hrs ≺ r.hrs then r.hrs else s.hrs := by
  split
  · next h => rw [SignState.save_ok s r h]; rfl
  · next h => rw [SignState.save_err s r h]

theorem SignState.save_mono (s : SignState) (r : SSC) : s.hrs ≼ (s.save r).2.hrs := by
  rw [SignState.save_hrs]
  split
  · next h => exact Or.inr h
  · exact Or.inl rfl

theorem SignState.saves_mono (s : SignState) (rs : List SSC) : s.hrs ≼ (s.saves rs).hrs := by
  induction rs generalizing s with
  | nil => exact Or.inl rfl
  | cons r rs ih => exact HRS.le_trans (SignState.save_mono s r) (ih _)

theorem watermark_cons (w : HRS) (r : SSC) (rs : List SSC) :
    watermark w (r :: rs) = if w ≺ r.hrs then watermark r.hrs rs else watermark w rs := by
  unfold watermark SSC.hrs
  by_cases h : w ≺ ⟨r.height, r.round, r.step⟩
  · simp only [accepted, h, if_true]
    rw [List.getLast?_cons]
    cases (accepted ⟨r.height, r.round, r.step⟩ rs).getLast? <;> rfl
  · simp only [accepted, h, if_false]

theorem SignState.saves_hrs (s : SignState) (rs : List SSC) :
    (s.saves rs).hrs = watermark s.hrs rs := by
  induction rs generalizing s with
  | nil => rfl
  | cons r rs ih =>
    show ((s.save r).2.saves rs).hrs = _
    rw [ih, watermark_cons, SignState.save_hrs]
    split <;> rfl

theorem accepted_gt (w : HRS) (rs : List SSC) : ∀ r ∈ accepted w rs, w ≺ r.hrs := by
  induction rs generalizing w with
  | nil => simp [accepted]
  | cons r rs ih =>
    intro r' h
    unfold accepted at h
    split at h
    · next hlt =>
      rcases List.mem_cons.1 h with rfl | h
      · exact hlt
      · exact HRS.lt_trans hlt (ih _ _ h)
    · exact ih _ _ h

/-- Invariant behind C04. -/
theorem cache_inv (s : SignState) (recs : List SSC) (rs : List SSC)
    (hs0 : -(2 ^ 63) + 3 ≤ s.height) (hw : ∀ r ∈ rs, IsI64 r.height)
    (hle : ∀ r ∈ recs, r.hrs ≼ s.hrs)
    (hc : ∀ k, s.cache k = cacheAnswer s.hrs recs k) :
    ∀ k, (s.saves rs).cache k = cacheAnswer (s.saves rs).hrs (recs ++ accepted s.hrs rs) k := by
  induction rs generalizing s recs with
  | nil => simpa [SignState.saves, accepted] using hc
  | cons r rs ih =>
    intro k
    show ((s.save r).2.saves rs).cache k = cacheAnswer ((s.save r).2.saves rs).hrs _ k
    by_cases h : s.hrs ≺ r.hrs
    · have hacc : accepted s.hrs (r :: rs) = r :: accepted r.hrs rs := by
        have : s.hrs ≺ ⟨r.height, r.round, r.step⟩ := h
        simp [accepted, this, SSC.hrs]
      rw [hacc]
      have hso := s.save_ok r h
      have hh : (s.save r).2.hrs = r.hrs := by rw [hso]; rfl
      have h0 : s.height ≤ r.height := HRS.height_le (Or.inr h)
      have hi := hw r (by simp)
      have hwrap : i64 (r.height - blocksToCache) = r.height - 3 := by
        rw [i64_of_is]; rfl
        unfold IsI64 blocksToCache at *; omega
      have := ih (s.save r).2 (recs ++ [r]) (by rw [hso]; simp; omega)
        (fun r' h' => hw r' (by simp [h'])) (by
          intro r' h'
          rw [hh]
          rcases List.mem_append.1 h' with h' | h'
          · exact HRS.le_trans (hle _ h') (Or.inr h)
          · simp at h'; subst h'; exact Or.inl rfl)
        (by
          intro k
          rw [hso]
          simp only [hwrap, SignState.hrs, cacheAnswer]
          by_cases hk : k.height < r.height - 3
          · have : ¬ (r.height - 3 ≤ k.height) := by omega
            simp [hk, this]
          · have h1 : r.height - 3 ≤ k.height := by omega
            have h2 : s.hrs.height - 3 ≤ k.height := by unfold SignState.hrs; simp; omega
            simp only [hk, h1, if_true, if_false]
            rw [hc k]
            unfold cacheAnswer
            simp only [h2, if_true, List.find?_append]
            by_cases hkr : k = r.hrs
            · subst hkr
              have hn : recs.find? (fun r' => decide (r'.height = r.hrs.height ∧ r'.round = r.hrs.round
                  ∧ r'.step = r.hrs.step)) = none := by
                rw [List.find?_eq_none]
                intro r' h' he
                simp only [decide_eq_true_eq] at he
                have : r'.hrs = r.hrs := by simp [SSC.hrs] at he ⊢; exact he
                have := hle r' h'
                rw [‹r'.hrs = r.hrs›] at this
                exact HRS.lt_irrefl _ (HRS.lt_of_le_of_lt this h)
              rw [hn]; simp [SSC.hrs]
            · have : ¬ (r.height = k.height ∧ r.round = k.round ∧ r.step = k.step) := by
                intro he; apply hkr; cases k; simp [SSC.hrs] at *; omega
              simp [hkr, this])
      rw [this k, hh]
      simp
    · have hacc : accepted s.hrs (r :: rs) = accepted s.hrs rs := by
        have : ¬ s.hrs ≺ ⟨r.height, r.round, r.step⟩ := h
        simp [accepted, this]
      rw [hacc, s.save_err r h]
      exact ih s recs hs0 (fun r' h' => hw r' (by simp [h'])) hle hc k

end Horcrux
