import Verif.Model.Validator
import Verif.Lemmas.SignState
import Verif.Lemmas.Unpack
namespace Horcrux
open Spec

variable {C : Crypto} {cfg : ValidatorCfg}

/-- The possible steps, one by one. -/
inductive VCase (C : Crypto) (cfg : ValidatorCfg) (s : VState) : VEv → VOut → VState → Prop where
  | idle (ev : VEv) : VCase C cfg s ev .tau s
  | notReady (id : Nat) (b : Block) (h : s.calls id = none) :
      VCase C cfg s (.call id b .notInitialized) (.ret id b none b.timestamp (some .raftNotInitialized)) s
  | proxied (id : Nat) (b : Block) (h : s.calls id = none) :
      VCase C cfg s (.call id b .follower) .tau (s.setPhase id b .proxy)
  | fresh (id : Nat) (b : Block) (h : s.calls id = none) (hlt : s.init.hrs ≺ b.hrs) :
      VCase C cfg s (.call id b .leader) (.startRound id b false)
        ({ s with init := (s.init.save (SSC.new b.height b.round b.step)).2 }.setPhase id b .round)
  | same (id : Nat) (b : Block) (h : s.calls id = none) (heq : s.init.hrs = b.hrs) :
      VCase C cfg s (.call id b .leader) .tau (s.setPhase id b (.poll 0))
  | below (id : Nat) (b : Block) (h : s.calls id = none) (hlt : b.hrs ≺ s.init.hrs) :
      VCase C cfg s (.call id b .leader) .tau (s.setPhase id b .lookup)
  | proxyErr (id : Nat) (b : Block) (e : Err) (h : s.calls id = some (b, .proxy)) :
      VCase C cfg s (.proxyDone id (.error e)) (.ret id b none b.timestamp (some e)) (s.finish id)
  | proxyOk (id : Nat) (b : Block) (sig : Slice) (h : s.calls id = some (b, .proxy)) :
      VCase C cfg s (.proxyDone id (.ok sig)) (.ret id b sig b.timestamp none) (s.finish id)
  | pollAgain (id : Nat) (b : Block) (i : Nat) (h : s.calls id = some (b, .poll i))
      (he : existingSignature s.lss b = .ok none) :
      VCase C cfg s (.poll id) (.startRound id b true) (s.setPhase id b .round)
  | pollHit (id : Nat) (b : Block) (i : Nat) (sig : Bytes) (h : s.calls id = some (b, .poll i))
      (he : existingSignature s.lss b = .ok (some sig)) :
      VCase C cfg s (.poll id) (.ret id b (some sig) b.timestamp none) (s.finish id)
  | pollWait (id : Nat) (b : Block) (i : Nat) (h : s.calls id = some (b, .poll i))
      (he : existingSignature s.lss b = .error .stillWaiting) (hi : i + 1 < 100) :
      VCase C cfg s (.poll id) .tau (s.setPhase id b (.poll (i + 1)))
  | pollTimeout (id : Nat) (b : Block) (i : Nat) (h : s.calls id = some (b, .poll i))
      (he : existingSignature s.lss b = .error .stillWaiting) (hi : ¬ i + 1 < 100) :
      VCase C cfg s (.poll id) (.ret id b none b.timestamp (some .timedOutWaitingForBlock)) (s.finish id)
  | pollErr (id : Nat) (b : Block) (i : Nat) (e : Err) (h : s.calls id = some (b, .poll i))
      (he : existingSignature s.lss b = .error e) (hne : e ≠ .stillWaiting) :
      VCase C cfg s (.poll id) (.ret id b none b.timestamp (some e)) (s.finish id)
  | lookupOk (id : Nat) (b : Block) (sig : Slice) (h : s.calls id = some (b, .lookup))
      (he : existingSignature s.lss b = .ok sig) :
      VCase C cfg s (.lookup id) (.ret id b sig b.timestamp none) (s.finish id)
  | lookupErr (id : Nat) (b : Block) (e : Err) (h : s.calls id = some (b, .lookup))
      (he : existingSignature s.lss b = .error e) :
      VCase C cfg s (.lookup id) (.ret id b none b.timestamp (some .beyondBlock)) (s.finish id)
  | roundFail (id : Nat) (b : Block) (e : Err) (h : s.calls id = some (b, .round)) :
      VCase C cfg s (.roundDone id (.failed e)) (.ret id b none b.timestamp (some e)) (s.finish id)
  | roundBad (id : Nat) (b : Block) (sh : List Bytes) (eph : Bytes) (e : Err) (h : s.calls id = some (b, .round))
      (ha : assemble C cfg.threshold cfg.pubKey b.signBytes sh eph = .err e) :
      VCase C cfg s (.roundDone id (.sigs sh eph)) (.ret id b none b.timestamp (some e)) (s.finish id)
  | roundOk (id : Nat) (b : Block) (sh : List Bytes) (eph sig : Bytes) (h : s.calls id = some (b, .round))
      (ha : assemble C cfg.threshold cfg.pubKey b.signBytes sh eph = .ok sig) :
      VCase C cfg s (.roundDone id (.sigs sh eph)) .tau (s.setPhase id b (.save sig))
  | saveOk (id : Nat) (b : Block) (sig : Bytes) (h : s.calls id = some (b, .save sig))
      (hle : s.lss.hrs ≼ b.hrs) :
      VCase C cfg s (.save id) .tau ({ s with lss := (s.lss.save (b.record sig)).2 }.setPhase id b (.emit sig))
  | saveErr (id : Nat) (b : Block) (sig : Bytes) (e : Err) (h : s.calls id = some (b, .save sig))
      (hlt : b.hrs ≺ s.lss.hrs) :
      VCase C cfg s (.save id) (.ret id b none b.timestamp (some e)) (s.finish id)
  | emit (id : Nat) (b : Block) (sig : Bytes) (h : s.calls id = some (b, .emit sig)) :
      VCase C cfg s (.emit id) (.ret id b (some sig) b.timestamp none)
        ({ s with emitted := s.emitted ++ [b.record sig] }.finish id)
  | lss (r : SSC) : VCase C cfg s (.lss r) .tau { s with lss := (s.lss.save r).2 }

/-- What the three answers of `Save` mean. -/
theorem save_cases (s : SignState) (r : SSC) :
    (s.hrs ≺ r.hrs ∧ ∃ s', s.save r = (none, s')) ∨
    (s.hrs = r.hrs ∧ ∃ k, s.save r = (some (.sameHRS k), s)) ∨
    (r.hrs ≺ s.hrs ∧ ∃ e, (∀ k, e ≠ .sameHRS k) ∧ s.save r = (some e, s)) := by
  unfold SignState.save SignState.getErrorIfLessOrEqual
  simp only [SignState.hrs, SSC.hrs, Spec.HRS.lt, HRS.mk.injEq]
  by_cases h1 : r.height < s.height
  · refine Or.inr (Or.inr ⟨by omega, ?_⟩); simp [h1]
  · by_cases h2 : r.height > s.height
    · refine Or.inl ⟨by omega, ?_⟩; simp [h1, h2]
    · by_cases h3 : r.round < s.round
      · refine Or.inr (Or.inr ⟨by omega, ?_⟩); simp [h1, h2, h3]
      · by_cases h4 : r.round > s.round
        · refine Or.inl ⟨by omega, ?_⟩; simp [h1, h2, h3, h4]
        · by_cases h5 : r.step < s.step
          · refine Or.inr (Or.inr ⟨by omega, ?_⟩); simp [h1, h2, h3, h4, h5]
          · by_cases h6 : r.step = s.step
            · refine Or.inr (Or.inl ⟨by omega, ?_⟩); simp [h1, h2, h3, h4, h6]
            · refine Or.inl ⟨by omega, ?_⟩; simp [h1, h2, h3, h4, h5, h6]

theorem assemble_no_panic (C : Crypto) (t : Int) (pub bs : Bytes) (sh : List Bytes) (eph : Bytes) :
    assemble C t pub bs sh eph ≠ .panic := by
  unfold assemble
  simp only
  split
  · simp
  · split <;> simp

theorem assemble_verifies {t : Int} {pub bs : Bytes} {sh : List Bytes} {eph sig : Bytes}
    (h : assemble C t pub bs sh eph = .ok sig) : C.verify pub bs sig = true := by
  unfold assemble at h
  simp only at h
  split at h
  · simp at h
  · split at h
    · next hv => simp at h; rw [← h]; exact hv
    · simp at h

theorem vstep_inv {s s' : VState} {ev : VEv} {out : VOut} (h : s.step C cfg ev = (out, s')) :
    VCase C cfg s ev out s' := by
  cases ev with
  | call id b role =>
    simp only [VState.step] at h
    cases hc : s.calls id with
    | some x => rw [hc] at h; simp at h; obtain ⟨rfl, rfl⟩ := h; exact .idle _
    | none =>
      rw [hc] at h
      cases role with
      | notInitialized => simp at h; obtain ⟨rfl, rfl⟩ := h; exact .notReady _ _ hc
      | follower => simp at h; obtain ⟨rfl, rfl⟩ := h; exact .proxied _ _ hc
      | leader =>
        simp only at h
        rcases save_cases s.init (SSC.new b.height b.round b.step) with ⟨h1, s1, h2⟩ | ⟨h1, k, h2⟩ | ⟨h1, e, h2, h3⟩
        · have hs : s1 = (s.init.save (SSC.new b.height b.round b.step)).2 := by rw [h2]
          rw [h2] at h
          simp only [Prod.mk.injEq] at h
          obtain ⟨rfl, rfl⟩ := h
          rw [hs]
          exact .fresh _ _ hc h1
        · rw [h2] at h
          simp only [Prod.mk.injEq] at h
          obtain ⟨rfl, rfl⟩ := h
          exact .same _ _ hc h1
        · rw [h3] at h
          cases e with
          | sameHRS k => exact absurd rfl (h2 k)
          | _ =>
            simp only [Prod.mk.injEq] at h
            obtain ⟨rfl, rfl⟩ := h
            exact .below _ _ hc h1
  | proxyDone id r =>
    simp only [VState.step] at h
    split at h
    · next b hc =>
      cases r with
      | error e => simp at h; obtain ⟨rfl, rfl⟩ := h; exact .proxyErr _ _ _ hc
      | ok sig => simp at h; obtain ⟨rfl, rfl⟩ := h; exact .proxyOk _ _ _ hc
    · simp at h; obtain ⟨rfl, rfl⟩ := h; exact .idle _
  | poll id =>
    simp only [VState.step] at h
    split at h
    · next b i hc =>
      split at h
      · next he => simp at h; obtain ⟨rfl, rfl⟩ := h; exact .pollAgain _ _ _ hc he
      · next sig he => simp at h; obtain ⟨rfl, rfl⟩ := h; exact .pollHit _ _ _ _ hc he
      · next he =>
        split at h
        · next hi => simp at h; obtain ⟨rfl, rfl⟩ := h; exact .pollWait _ _ _ hc he hi
        · next hi => simp at h; obtain ⟨rfl, rfl⟩ := h; exact .pollTimeout _ _ _ hc he hi
      · next e hne he =>
        simp at h; obtain ⟨rfl, rfl⟩ := h; exact .pollErr _ _ _ _ hc he (fun x => hne (by rw [x]))
    · simp at h; obtain ⟨rfl, rfl⟩ := h; exact .idle _
  | lookup id =>
    simp only [VState.step] at h
    split at h
    · next b hc =>
      split at h
      · next sig he => simp at h; obtain ⟨rfl, rfl⟩ := h; exact .lookupOk _ _ _ hc he
      · next e he => simp at h; obtain ⟨rfl, rfl⟩ := h; exact .lookupErr _ _ _ hc he
    · simp at h; obtain ⟨rfl, rfl⟩ := h; exact .idle _
  | roundDone id r =>
    simp only [VState.step] at h
    split at h
    · next b hc =>
      cases r with
      | failed e => simp at h; obtain ⟨rfl, rfl⟩ := h; exact .roundFail _ _ _ hc
      | sigs sh eph =>
        simp only at h
        split at h
        · next sig ha => simp at h; obtain ⟨rfl, rfl⟩ := h; exact .roundOk _ _ _ _ _ hc ha
        · next e ha => simp at h; obtain ⟨rfl, rfl⟩ := h; exact .roundBad _ _ _ _ _ hc ha
        · next ha => exact absurd ha (assemble_no_panic _ _ _ _ _ _)
    · simp at h; obtain ⟨rfl, rfl⟩ := h; exact .idle _
  | save id =>
    simp only [VState.step] at h
    split at h
    · next b sig hc =>
      rcases save_cases s.lss (b.record sig) with ⟨h1, s1, h2⟩ | ⟨h1, k, h2⟩ | ⟨h1, e, h2, h3⟩
      · have hs : s1 = (s.lss.save (b.record sig)).2 := by rw [h2]
        rw [h2] at h
        simp only [Prod.mk.injEq] at h
        obtain ⟨rfl, rfl⟩ := h
        rw [hs]
        exact .saveOk _ _ _ hc (Or.inr h1)
      · rw [h2] at h
        simp only [Prod.mk.injEq] at h
        obtain ⟨rfl, rfl⟩ := h
        have := VCase.saveOk (C := C) (cfg := cfg) (s := s) id b sig hc (Or.inl h1)
        rw [h2] at this
        exact this
      · rw [h3] at h
        cases e with
        | sameHRS k => exact absurd rfl (h2 k)
        | _ =>
          simp only [Prod.mk.injEq] at h
          obtain ⟨rfl, rfl⟩ := h
          exact .saveErr _ _ _ _ hc h1
    · simp at h; obtain ⟨rfl, rfl⟩ := h; exact .idle _
  | emit id =>
    simp only [VState.step] at h
    split at h
    · next b sig hc => simp at h; obtain ⟨rfl, rfl⟩ := h; exact .emit _ _ _ hc
    · simp at h; obtain ⟨rfl, rfl⟩ := h; exact .idle _
  | lss r => simp [VState.step] at h; obtain ⟨rfl, rfl⟩ := h; exact .lss _

theorem VRun.append {s1 s2 s3 : VState} {t1 t2 : List (VEv × VOut)} (h : VRun C cfg s1 t1 s2)
    (h' : VRun C cfg s2 t2 s3) : VRun C cfg s1 (t1 ++ t2) s3 := by
  induction h' with
  | nil => simpa using h
  | snoc _ hs ih => rw [← List.append_assoc]; exact .snoc ih hs

theorem VRun.split {s1 s3 : VState} {t1 t2 : List (VEv × VOut)} (h : VRun C cfg s1 (t1 ++ t2) s3) :
    ∃ s2, VRun C cfg s1 t1 s2 ∧ VRun C cfg s2 t2 s3 := by
  generalize ht : t1 ++ t2 = t at h
  induction h generalizing t2 with
  | nil =>
    have := List.append_eq_nil_iff.1 ht
    obtain ⟨rfl, rfl⟩ := this
    exact ⟨s1, .nil _, .nil _⟩
  | @snoc b c tr ev out hr hs ih =>
    rcases List.eq_nil_or_concat t2 with rfl | ⟨l, x, rfl⟩
    · simp at ht; subst ht; exact ⟨c, .snoc hr hs, .nil _⟩
    · have ht' : (t1 ++ l) ++ [x] = tr ++ [(ev, out)] := by rw [← ht]; simp
      obtain ⟨h1, h2⟩ := List.append_inj' ht' rfl
      obtain ⟨s2, g1, g2⟩ := ih h1
      simp only [List.cons.injEq, and_true] at h2
      subst h2
      refine ⟨s2, g1, ?_⟩
      simpa using VRun.snoc g2 hs

/-- How the recorded sign state changes. -/
theorem vstep_lss {s s' : VState} {ev : VEv} {out : VOut} (h : s.step C cfg ev = (out, s')) :
    s'.lss = s.lss ∨ (∃ r, ev = .lss r ∧ s'.lss = (s.lss.save r).2) ∨
    (∃ id b sig, ev = .save id ∧ s.calls id = some (b, .save sig) ∧ s'.lss = (s.lss.save (b.record sig)).2) := by
  cases vstep_inv h with
  | lss r => exact .inr (.inl ⟨r, rfl, rfl⟩)
  | saveOk id b sig hc _ => exact .inr (.inr ⟨id, b, sig, rfl, hc, rfl⟩)
  | _ => exact .inl rfl

/-- The cache is indexed properly and lies at or below the watermark. -/
def SignState.CacheLe (s : SignState) : Prop := ∀ k r, s.cache k = some r → r.hrs = k ∧ k ≼ s.hrs

theorem cacheLe_save {s : SignState} (h : s.CacheLe) (r : SSC) : (s.save r).2.CacheLe := by
  by_cases hlt : s.hrs ≺ r.hrs
  · rw [SignState.save_ok s r hlt]
    intro k r' hk
    simp only at hk
    split at hk
    · cases hk
    · split at hk
      · next he => simp at hk; subst hk; exact ⟨he.symm, Or.inl he⟩
      · obtain ⟨h1, h2⟩ := h k r' hk
        exact ⟨h1, HRS.le_trans h2 (Or.inr hlt)⟩
  · rw [SignState.save_err s r hlt]; exact h

theorem cacheLe_step {s s' : VState} {ev : VEv} {out : VOut} (h : s.step C cfg ev = (out, s')) (hc : s.lss.CacheLe) :
    s'.lss.CacheLe := by
  rcases vstep_lss h with h | ⟨r, _, h⟩ | ⟨id, b, sig, _, _, h⟩
  · rw [h]; exact hc
  · rw [h]; exact cacheLe_save hc _
  · rw [h]; exact cacheLe_save hc _

/-- A cached record is only ever dropped, not replaced. -/
theorem save_cache_stable {s : SignState} (hc : s.CacheLe) (r rec : SSC) (k : HRS) (h : s.cache k = some rec) :
    (s.save r).2.cache k = some rec ∨
      (s.hrs ≺ r.hrs ∧ k.height < i64 (r.height - blocksToCache) ∧ (s.save r).2.cache k = none) := by
  by_cases hlt : s.hrs ≺ r.hrs
  · rw [SignState.save_ok s r hlt]
    simp only
    split
    · next hk => exact .inr ⟨hlt, hk, rfl⟩
    · left
      rw [if_neg]
      · exact h
      · intro he
        have := (hc k rec h).2
        rw [he] at this
        exact HRS.lt_irrefl _ (HRS.lt_of_lt_of_le hlt this)
  · rw [SignState.save_err s r hlt]; exact .inl h

end Horcrux
