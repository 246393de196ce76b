import Verif.Lemmas.SignState
/-
Properties C01–C04 and C19: the sign state watermark, its errors, its cache, and the HRS comparison.
-/
namespace Horcrux
open Spec

/-! ### C01 -/

/-- C01: a save succeeds exactly when strictly above the watermark; then height, round, step, signature and
sign bytes are those saved and the ephemeral key is untouched; a refused save changes nothing. -/
theorem C01_save (s : SignState) (r : SSC) :
    ((s.save r).1 = none ↔ (⟨s.height, s.round, s.step⟩ : HRS) ≺ ⟨r.height, r.round, r.step⟩) ∧
    ((s.save r).1 = none →
      (s.save r).2.height = r.height ∧ (s.save r).2.round = r.round ∧ (s.save r).2.step = r.step ∧
      (s.save r).2.signature = r.signature ∧ (s.save r).2.signBytes = r.signBytes ∧
      (s.save r).2.ephemeralPublic = s.ephemeralPublic) ∧
    ((s.save r).1 ≠ none → (s.save r).2 = s) := by
  refine ⟨s.save_ok_iff r, fun h => ?_, fun h => ?_⟩
  · rw [s.save_ok_iff r] at h
    rw [s.save_ok r h]; simp
  · exact s.save_err r (fun h' => h ((s.save_ok_iff r).2 h'))

/-- C01: over any history of saves the watermark never decreases (between any two points of the history),
and it is the last accepted record. -/
theorem C01_history (s : SignState) (rs rs' : List SSC) :
    (s.saves rs).hrs ≼ (s.saves (rs ++ rs')).hrs ∧ (s.saves rs).hrs = watermark s.hrs rs := by
  refine ⟨?_, s.saves_hrs rs⟩
  have : s.saves (rs ++ rs') = (s.saves rs).saves rs' := by
    induction rs generalizing s with
    | nil => rfl
    | cons r rs ih => exact ih (s.save r).2
  rw [this]
  exact (s.saves rs).saves_mono rs'

example : ((SignState.empty.saves [⟨5, 0, 1, some [1], some [2]⟩, ⟨4, 9, 3, some [3], some [4]⟩,
    ⟨5, 0, 2, some [5], some [6]⟩]).hrs) = ⟨5, 0, 2⟩ := by decide

/-! ### C02 -/

/-- C02: which error a refused save reports, and exactly when. -/
theorem C02_errors (s : SignState) (r : SSC) :
    ((s.save r).1 = some .heightRegression ↔ r.height < s.height) ∧
    ((s.save r).1 = some .roundRegression ↔ r.height = s.height ∧ r.round < s.round) ∧
    ((s.save r).1 = some .stepRegression ↔ r.height = s.height ∧ r.round = s.round ∧ r.step < s.step) ∧
    ((∃ k, (s.save r).1 = some (.sameHRS k)) ↔
      r.height = s.height ∧ r.round = s.round ∧ r.step = s.step) ∧
    (∀ e, (s.save r).1 = some e → e = .heightRegression ∨ e = .roundRegression ∨ e = .stepRegression ∨
      e = .sameHRS ⟨s.height, s.round, s.step⟩) := by
  have key : (s.save r).1 = s.getErrorIfLessOrEqual r.height r.round r.step := by
    unfold SignState.save; split <;> simp_all
  rw [key]
  unfold SignState.getErrorIfLessOrEqual
  refine ⟨?_, ?_, ?_, ?_, ?_⟩ <;> (repeat' split) <;> simp <;> grind

example : (SignState.save { SignState.empty with height := 7 } ⟨7, 0, 0, none, none⟩).1
    = some (.sameHRS ⟨7, 0, 0⟩) := by decide

/-! ### C03 -/

/-- C03: the decision taken by the pre-sign check, by cases on how the requested HRS compares with the
watermark and on what is on record (`none` is a nil slice, `some []` an empty non-nil one). -/
theorem C03_check (s : SignState) (k : HRST) :
    (k.hrs ≺ s.hrs → ∃ e, s.checkHRS k = .err e) ∧
    (s.hrs ≺ k.hrs → s.checkHRS k = .ok false) ∧
    (s.hrs = k.hrs → s.signBytes ≠ none → s.signature ≠ none → s.checkHRS k = .ok true) ∧
    (s.hrs = k.hrs → s.signBytes = none → s.checkHRS k = .err .noSignBytes) ∧
    (s.checkHRS k = .panic ↔ s.hrs = k.hrs ∧ s.signBytes ≠ none ∧ s.signature = none) := by
  obtain ⟨h, r, st, eph, sg, sb, c⟩ := s
  obtain ⟨kh, kr, ks, kt⟩ := k
  unfold SignState.checkHRS SignState.hrs HRST.hrs Spec.HRS.lt
  simp only [HRS.mk.injEq]
  refine ⟨?_, ?_, ?_, ?_, ?_⟩ <;> (repeat' split) <;> simp <;> grind

/-- C03 (converse direction): an allowed-as-new answer means strictly above the watermark, an allowed-as-repeat
answer means equal with both on record, and an error means below, or equal without sign bytes. -/
theorem C03_check_conv (s : SignState) (k : HRST) :
    (s.checkHRS k = .ok false → s.hrs ≺ k.hrs) ∧
    (s.checkHRS k = .ok true → s.hrs = k.hrs ∧ s.signBytes ≠ none ∧ s.signature ≠ none) ∧
    (∀ e, s.checkHRS k = .err e → k.hrs ≺ s.hrs ∨ (s.hrs = k.hrs ∧ s.signBytes = none)) := by
  obtain ⟨h, r, st, eph, sg, sb, c⟩ := s
  obtain ⟨kh, kr, ks, kt⟩ := k
  unfold SignState.checkHRS SignState.hrs HRST.hrs Spec.HRS.lt
  simp only [HRS.mk.injEq]
  refine ⟨?_, ?_, ?_⟩ <;> (repeat' split) <;> simp <;> grind

example : SignState.checkHRS ⟨5, 1, 2, none, some [1], some [], fun _ => none⟩ ⟨5, 1, 2, 99⟩ = .ok true := by
  decide

/-! ### C04 -/

/-- C04 for a freshly created state: after any history of saves (heights are `int64` values) a lookup answers
exactly the record accepted for that HRS, if within three heights of the current one, and reports the watermark. -/
theorem C04_cache_created (rs : List SSC) (hw : ∀ r ∈ rs, IsI64 r.height) (k : HRS) :
    (SignState.empty.saves rs).getFromCache k =
      (watermark ⟨0, 0, 0⟩ rs,
       cacheAnswer (watermark ⟨0, 0, 0⟩ rs) (accepted ⟨0, 0, 0⟩ rs) k) := by
  have h1 : (SignState.empty.saves rs).hrs = watermark ⟨0, 0, 0⟩ rs := SignState.saves_hrs _ _
  have h2 := cache_inv SignState.empty [] rs (by decide) hw (by simp) (by
    intro k; simp [SignState.empty, cacheAnswer]) k
  unfold SignState.getFromCache
  rw [h2, h1]
  have h3 : (⟨(SignState.empty.saves rs).height, (SignState.empty.saves rs).round,
    (SignState.empty.saves rs).step⟩ : HRS) = watermark ⟨0, 0, 0⟩ rs := h1
  rw [h3]; rfl

/-- C04 for a state loaded from a file holding height `h`, round `r`, step `st`, signature and sign bytes. Below
`-2^63 + 3` the bound of the eviction wraps around (`C04_wraps_fails`). -/
theorem C04_cache_loaded (h r st : Int) (eph sg sb : Slice) (h0 : -(2 ^ 63) + 3 ≤ h) (rs : List SSC)
    (hw : ∀ r ∈ rs, IsI64 r.height) (k : HRS) :
    ((SignState.ofLoaded h r st eph sg sb).saves rs).getFromCache k =
      (watermark ⟨h, r, st⟩ rs,
       cacheAnswer (watermark ⟨h, r, st⟩ rs) (⟨h, r, st, sg, sb⟩ :: accepted ⟨h, r, st⟩ rs) k) := by
  generalize hs : SignState.ofLoaded h r st eph sg sb = s
  have hh : s.hrs = ⟨h, r, st⟩ := by rw [← hs]; rfl
  have h1 : (s.saves rs).hrs = watermark ⟨h, r, st⟩ rs := by rw [SignState.saves_hrs, hh]
  have h2 := cache_inv s [⟨h, r, st, sg, sb⟩] rs (by rw [← hs]; exact h0) hw (by
      intro r' h'; simp at h'; subst h'; rw [hh]; exact Or.inl rfl) (by
    intro k
    rw [hh]
    rw [← hs]
    unfold SignState.ofLoaded cacheAnswer
    cases k with | mk kh kr ks =>
    simp only [HRS.mk.injEq, List.find?_cons, List.find?_nil]
    by_cases he : kh = h ∧ kr = r ∧ ks = st
    · obtain ⟨rfl, rfl, rfl⟩ := he
      have : kh - 3 ≤ kh := by omega
      simp [this]
    · have : ¬ (h = kh ∧ r = kr ∧ st = ks) := by omega
      simp [he, this]) k
  unfold SignState.getFromCache
  rw [h2, h1, hh]
  have h3 : (⟨(s.saves rs).height, (s.saves rs).round, (s.saves rs).step⟩ : HRS)
      = watermark ⟨h, r, st⟩ rs := h1
  rw [h3]; rfl

example : ((SignState.ofLoaded 10 0 3 none (some [1]) (some [2])).saves
    [⟨11, 0, 1, some [3], some [4]⟩, ⟨13, 0, 1, some [5], some [6]⟩]).getFromCache ⟨10, 0, 3⟩
    = (⟨13, 0, 1⟩, some ⟨10, 0, 3, some [1], some [2]⟩) := by decide
example : ((SignState.ofLoaded 10 0 3 none (some [1]) (some [2])).saves
    [⟨14, 0, 1, some [3], some [4]⟩]).getFromCache ⟨10, 0, 3⟩ = (⟨14, 0, 1⟩, none) := by decide

/-- C04 is false for the three lowest heights an `int64` can hold: from a file with any of them, a block saved next is not
found, since everything is evicted. -/
theorem C04_wraps_fails (h r st : Int) (eph sg sb : Slice) (hi : IsI64 h) (h0 : h < -(2 ^ 63) + 3) (b : SSC)
    (hb : b.height = h) (hr : r < b.round) :
    ((SignState.ofLoaded h r st eph sg sb).saves [b]).getFromCache b.hrs = (b.hrs, none) := by
  have hlt : (SignState.ofLoaded h r st eph sg sb).hrs ≺ b.hrs := by
    right; refine ⟨hb.symm, ?_⟩; left; exact hr
  have hw : b.hrs.height < i64 (b.height - blocksToCache) := by
    subst hb; unfold SSC.hrs i64 Int.bmod blocksToCache; unfold IsI64 at hi; simp only; split <;> omega
  simp only [SignState.saves, SignState.getFromCache, SignState.save_ok _ _ hlt, if_pos hw]
  rfl

example : ∃ h : Int, IsI64 h ∧ h < -(2 ^ 63) + 3 := ⟨-(2 ^ 63), by decide, by decide⟩

/-! ### C19 -/

/-- C19: `Less` compares heights, then rounds, then steps, and ignores timestamps. -/
theorem C19_less_iff (a b : HRST) :
    a.less b = true ↔ a.height < b.height ∨ (a.height = b.height ∧
      (a.round < b.round ∨ (a.round = b.round ∧ a.step < b.step))) := by
  unfold HRST.less
  (repeat' split) <;> simp <;> omega

/-- C19: irreflexive, transitive, total up to equal (height, round, step), independent of timestamps. -/
theorem C19_strict_weak_order :
    (∀ a : HRST, a.less a = false) ∧
    (∀ a b c : HRST, a.less b = true → b.less c = true → a.less c = true) ∧
    (∀ a b : HRST, a.less b = true ∨ b.less a = true ∨
      (a.height = b.height ∧ a.round = b.round ∧ a.step = b.step)) ∧
    (∀ a b : HRST, ¬ (a.less b = true ∧ b.less a = true)) ∧
    (∀ (a b : HRST) (t t' : Int), HRST.less { a with timestamp := t } { b with timestamp := t' } = a.less b) := by
  refine ⟨?_, ?_, ?_, ?_, ?_⟩
  · intro a; rw [← Bool.not_eq_true, C19_less_iff]; omega
  · intro a b c; simp only [C19_less_iff]; omega
  · intro a b; simp only [C19_less_iff]; omega
  · intro a b; simp only [C19_less_iff]; omega
  · intro a b t t'; rfl

/-- C19: `Less` agrees with the comparisons made when saving and when checking: saving a record of key `b` into a
state at key `a` is allowed iff `a` is less than `b`; the pre-sign check reports a regression whenever `b` is less
than `a`, and lets `b` through as new iff `a` is less than `b`. -/
theorem C19_agrees (s : SignState) (r : SSC) (a b : HRST)
    (ha : a.height = s.height ∧ a.round = s.round ∧ a.step = s.step)
    (hb : b.height = r.height ∧ b.round = r.round ∧ b.step = r.step) :
    ((s.save r).1 = none ↔ a.less b = true) ∧
    (s.checkHRS b = .ok false ↔ a.less b = true) ∧
    (b.less a = true → ∃ e, s.checkHRS b = .err e) := by
  have hsave := (C01_save s r).1
  have h1 := C03_check s b
  have h2 := C03_check_conv s b
  have hab : a.less b = true ↔ s.hrs ≺ b.hrs := by
    rw [C19_less_iff]; unfold SignState.hrs HRST.hrs Spec.HRS.lt; simp only; omega
  have hba : b.less a = true ↔ b.hrs ≺ s.hrs := by
    rw [C19_less_iff]; unfold SignState.hrs HRST.hrs Spec.HRS.lt; simp only; omega
  refine ⟨?_, ?_, ?_⟩
  · rw [hsave, C19_less_iff]; unfold Spec.HRS.lt; simp only; omega
  · rw [hab]; exact ⟨h2.1, h1.2.1⟩
  · rw [hba]; exact h1.1

example : HRST.less ⟨5, 0, 3, 9⟩ ⟨5, 1, 1, 2⟩ = true ∧ HRST.less ⟨5, 1, 1, 2⟩ ⟨5, 1, 1, 7⟩ = false := by decide

end Horcrux
