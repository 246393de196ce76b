import Verif.Spec.Gather
import Verif.Lemmas.SignPhase
import Mathlib.Data.List.Forall2
import Mathlib.Tactic.ByContra
/-
Property C88: the goroutines of a signing round.
-/
namespace Horcrux
open Spec

/-- What holds after the peers `past` have answered. -/
structure GatherInv (t me : Nat) (past : List Nat) (s : Gather) : Prop where
  shared : CollectInv t me past s.shared
  nodup : (past ++ s.asked).Nodup
  late : s.shared.proceeded = true ↔ s.main = .proceeded
  waited : s.main ≠ .making → s.main ≠ .failed → s.waiter = false → s.shared.counter = 0
  before : s.main = .making ∨ s.main = .failed → s.waiter = false

theorem shareStep_ok {t : Int} {s : Gather} {e : CollectEv} {c : Collect} (h : s.shared.step t e = .ok c) :
    s.shareStep t e = .ok { s with shared := c } := by
  unfold Gather.shareStep; rw [h]

theorem counter_zero_stays {t me : Nat} {past : List Nat} {s c : Collect} {p : Nat} (h : CollectInv t me past s)
    (h0 : s.counter = 0) (hs : s.step t (.answered p) = .ok c ∨ s.step t (.done p) = .ok c) : c.counter = 0 := by
  have hl : (past.take (t - 1)).length ≤ t - 1 := by rw [List.length_take]; omega
  have hd : s.due = [] := List.length_eq_zero_iff.1 (by have := h.counter; omega)
  rcases hs with hs | hs
  · simp only [Collect.step] at hs
    split at hs <;> (cases hs; exact h0)
  · simp only [Collect.step, hd, List.not_mem_nil, if_false, Out.ok.injEq] at hs
    rw [← hs]; exact h0

theorem proceeded_same {t : Int} {s c : Collect} {p : Nat}
    (hs : s.step t (.answered p) = .ok c ∨ s.step t (.done p) = .ok c) : c.proceeded = s.proceeded := by
  rcases hs with hs | hs
  · simp only [Collect.step] at hs
    split at hs <;> (cases hs; rfl)
  · simp only [Collect.step] at hs
    (repeat' split at hs) <;> cases hs <;> rfl

theorem gatherInv_step {t me : Nat} (ht : 1 ≤ t) {past : List Nat} {s : Gather} (h : GatherInv t me past s) (e : GatherEv) :
    ∃ s', s.step t me e = .ok s' ∧ GatherInv t me (past ++ answering s.asked [e]) s' ∧
      ∀ es, answering s.asked (e :: es) = answering s.asked [e] ++ answering s'.asked es := by
  cases e with
  | failed p =>
    simp only [Gather.step, answering, List.append_nil, List.nil_append]
    by_cases hp : p ∈ s.asked
    · rw [if_pos hp]
      refine ⟨_, rfl, ⟨h.shared, ?_, h.late, h.waited, h.before⟩, fun _ => rfl⟩
      exact h.nodup.sublist (List.Sublist.append (List.Sublist.refl _) List.erase_sublist)
    · rw [if_neg hp]
      exact ⟨s, rfl, h, fun es => by rw [List.erase_of_not_mem hp]⟩
  | answered p =>
    simp only [Gather.step, answering]
    by_cases hp : p ∈ s.asked
    · simp only [if_pos hp]
      have hnd := h.nodup
      have hnp : p ∉ past := fun hc => (List.nodup_append.1 hnd).2.2 p hc p hp rfl
      have hna : s.asked.Nodup := (List.nodup_append.1 hnd).2.1
      obtain ⟨c, hc, hi⟩ := collectInv_step t ht me past s.shared (.answered p) h.shared
        (by simp only [answersOf]; exact List.nodup_append.2 ⟨(List.nodup_append.1 hnd).1, by simp, by simpa using fun a ha (he : a = p) => hnp (he ▸ ha)⟩)
        (by simp)
      rw [shareStep_ok (s := { s with asked := s.asked.erase p }) hc]
      refine ⟨_, rfl, ⟨by simpa [answersOf] using hi, ?_, ?_, ?_, h.before⟩, fun es => rfl⟩
      · simp only [List.append_assoc]
        refine List.nodup_append.2 ⟨(List.nodup_append.1 hnd).1, ?_, ?_⟩
        · simp only [List.singleton_append, List.nodup_cons]
          exact ⟨fun hc => (hna.mem_erase_iff.1 hc).1 rfl, hna.erase _⟩
        · intro a ha b hb
          simp only [List.singleton_append, List.mem_cons] at hb
          rcases hb with rfl | hb
          · exact fun he => hnp (he ▸ ha)
          · exact (List.nodup_append.1 hnd).2.2 a ha b (List.mem_of_mem_erase hb)
      · simp only; rw [proceeded_same (.inl hc)]; exact h.late
      · intro h1 h2 h3; exact counter_zero_stays h.shared (h.waited h1 h2 h3) (.inl hc)
    · simp only [if_neg hp, List.append_nil, List.nil_append]
      exact ⟨s, rfl, h, fun _ => rfl⟩
  | done p =>
    simp only [Gather.step, answering, List.append_nil, List.nil_append]
    obtain ⟨c, hc, hi⟩ := collectInv_step t ht me past s.shared (.done p) h.shared
      (by simpa [answersOf] using (List.nodup_append.1 h.nodup).1) (by simp)
    rw [shareStep_ok hc]
    refine ⟨_, rfl, ⟨by simpa [answersOf] using hi, h.nodup, ?_, ?_, h.before⟩, fun _ => rfl⟩
    · simp only; rw [proceeded_same (.inr hc)]; exact h.late
    · intro h1 h2 h3; exact counter_zero_stays h.shared (h.waited h1 h2 h3) (.inr hc)
  | own ok =>
    simp only [Gather.step, answering, List.append_nil, List.nil_append]
    by_cases hm : s.main = .making
    · rw [if_pos hm]
      have hnp : s.shared.proceeded ≠ true := by rw [Ne, h.late, hm]; simp
      cases ok
      · exact ⟨_, rfl, ⟨h.shared, h.nodup, by simp [hnp], by simp, fun _ => h.before (.inl hm)⟩, fun _ => rfl⟩
      · exact ⟨_, rfl, ⟨h.shared, h.nodup, by simp [hnp], by simp, by simp⟩, fun _ => rfl⟩
    · rw [if_neg hm]; exact ⟨s, rfl, h, fun _ => rfl⟩
  | woken =>
    simp only [Gather.step, answering, List.append_nil, List.nil_append]
    by_cases hw : s.waiter = true ∧ s.shared.counter = 0
    · rw [if_pos hw]
      exact ⟨_, rfl, ⟨h.shared, h.nodup, h.late, fun _ _ _ => hw.2, fun _ => rfl⟩, fun _ => rfl⟩
    · rw [if_neg hw]; exact ⟨s, rfl, h, fun _ => rfl⟩
  | proceed =>
    simp only [Gather.step, answering, List.append_nil, List.nil_append]
    by_cases hw : s.main = .waiting ∧ s.waiter = false
    · rw [if_pos hw]
      have hnp : s.shared.proceeded = false := by
        rw [← Bool.not_eq_true, h.late, hw.1]; simp
      have h0 := h.waited (by simp [hw.1]) (by simp [hw.1]) hw.2
      obtain ⟨c, hc, hi⟩ := collectInv_step t ht me past s.shared (.proceed me) h.shared
        (by simpa [answersOf] using (List.nodup_append.1 h.nodup).1) (by simp)
      rw [shareStep_ok (s := { s with main := .proceeded }) hc]
      simp only [Collect.step, h0, hnp, and_self, if_true, Out.ok.injEq] at hc
      subst hc
      exact ⟨_, rfl, ⟨by simpa [answersOf] using hi, h.nodup, by simp, fun _ _ _ => rfl, by simp⟩, fun _ => rfl⟩
    · rw [if_neg hw]; exact ⟨s, rfl, h, fun _ => rfl⟩
  | timeout =>
    simp only [Gather.step, answering, List.append_nil, List.nil_append]
    by_cases hm : s.main = .waiting
    · rw [if_pos hm]
      have hnp : s.shared.proceeded ≠ true := by rw [Ne, h.late, hm]; simp
      exact ⟨_, rfl, ⟨h.shared, h.nodup, by simp [hnp], fun _ _ hw => h.waited (by simp [hm]) (by simp [hm]) hw, by simp⟩, fun _ => rfl⟩
    · rw [if_neg hm]; exact ⟨s, rfl, h, fun _ => rfl⟩

theorem gatherInv_run {t me : Nat} (ht : 1 ≤ t) : ∀ (es : List GatherEv) (past : List Nat) (s : Gather), GatherInv t me past s →
    ∃ s', Gather.run t me s es = .ok s' ∧ GatherInv t me (past ++ answering s.asked es) s'
  | [], past, s, h => ⟨s, rfl, by simpa [answering] using h⟩
  | e :: es, past, s, h => by
    obtain ⟨s1, h1, h2, h3⟩ := gatherInv_step ht h e
    obtain ⟨s2, h4, h5⟩ := gatherInv_run ht es _ s1 h2
    refine ⟨s2, by unfold Gather.run; rw [h1]; exact h4, ?_⟩
    rw [h3, ← List.append_assoc]
    exact h5

theorem gatherInv_start {t me : Nat} (ht : 1 ≤ t) {peers : List Nat} (hnd : peers.Nodup) :
    ∃ s, Gather.start t peers = .ok s ∧ GatherInv t me [] s ∧ s.asked = peers := by
  obtain ⟨c, h1, h2, h3⟩ := collectInv_start t ht me
  refine ⟨⟨c, peers, .making, false⟩, by unfold Gather.start; rw [h1], ⟨h2, by simpa using hnd, by simp [h3], by simp, by simp⟩, rfl⟩

/-- C88, partial: when a round has come to rest (all calls to peers have ended and every goroutine has gone as far as it
can), no call and no goroutine that counts is left over, and none that waits for the wait group exactly if the leader's own
parts failed or at least `t - 1` peers answered. Missing: rounds in which fewer answer (`C88_fails`). -/
theorem C88_partial (t me : Nat) (ht : 1 ≤ t) (peers : List Nat) (hnd : peers.Nodup) (es : List GatherEv) :
    ∃ s0 s, Gather.start t peers = .ok s0 ∧ Gather.run t me s0 es = .ok s ∧
      (AtRest t me s → s.asked = [] ∧ s.shared.due = [] ∧
        (s.waiter = false ↔ s.main = .failed ∨ t - 1 ≤ (answering peers es).length)) := by
  obtain ⟨s0, h0, hi, ha⟩ := gatherInv_start (me := me) ht hnd
  obtain ⟨s, hr, h⟩ := gatherInv_run ht es [] s0 hi
  rw [ha, List.nil_append] at h
  refine ⟨s0, s, h0, hr, fun hq => ?_⟩
  have hasked : s.asked = [] := by
    cases hs : s.asked with
    | nil => rfl
    | cons p l =>
      have := hq (.failed p)
      simp only [Gather.step, hs, List.mem_cons, true_or, if_true, List.erase_cons_head, Out.ok.injEq] at this
      have := congrArg (fun x : Gather => x.asked.length) this
      simp [hs] at this
  have hdue : s.shared.due = [] := by
    cases hs : s.shared.due with
    | nil => rfl
    | cons p l =>
      have := hq (.done p)
      simp only [Gather.step, Gather.shareStep, Collect.step, hs, List.mem_cons, true_or, if_true] at this
      split at this
      · next c hc =>
        split at hc
        · cases hc
        · simp only [Out.ok.injEq] at hc this
          subst hc
          have := congrArg (fun x : Gather => x.shared.counter) this
          simp only at this
          omega
      · cases this
      · cases this
  have hmain : s.main ≠ .making ∧ s.main ≠ .waiting := by
    constructor
    · intro hm
      have := hq (.own false)
      simp only [Gather.step, hm, if_true, Bool.false_eq_true, if_false, Out.ok.injEq] at this
      have := congrArg (fun x : Gather => x.main) this
      rw [hm] at this
      cases this
    · intro hm
      have := hq .timeout
      simp only [Gather.step, hm, if_true, Out.ok.injEq] at this
      have := congrArg (fun x : Gather => x.main) this
      rw [hm] at this
      cases this
  have hcnt : s.shared.counter = (t - 1 : Nat) - (min (t - 1) (answering peers es).length : Nat) := by
    have := h.shared.counter
    rw [hdue, List.length_take] at this
    simp only [List.length_nil] at this
    omega
  have hwait : s.waiter = true ↔ ¬ (s.main = .failed ∨ t - 1 ≤ (answering peers es).length) := by
    constructor
    · rintro hw (hm | hl)
      · rw [h.before (.inr hm)] at hw; cases hw
      · have h0 : s.shared.counter = 0 := by omega
        have := hq .woken
        simp only [Gather.step, hw, h0, and_self, if_true, Out.ok.injEq] at this
        have := congrArg (fun x : Gather => x.waiter) this
        simp [hw] at this
    · intro hn
      by_contra hw
      have := h.waited hmain.1 (fun hm => hn (.inl hm)) (by simpa using hw)
      exact hn (.inr (by omega))
  refine ⟨hasked, hdue, ?_⟩
  rw [← Bool.not_eq_true, hwait, not_not]

/-- C88 is false: a round in which fewer than `t - 1` peers answer leaves a goroutine behind for ever, so after any number
of such rounds there are as many. -/
theorem C88_fails (t me : Nat) (ht : 1 ≤ t) (peers : List Nat) (hnd : peers.Nodup) (rounds : List (List GatherEv))
    (hown : ∀ es ∈ rounds, ∀ s0 s, Gather.start t peers = .ok s0 → Gather.run t me s0 es = .ok s →
      AtRest t me s ∧ s.main ≠ .failed)
    (hfew : ∀ es ∈ rounds, (answering peers es).length < t - 1) :
    ∃ left : List Gather, List.Forall₂ (fun es s => ∃ s0, Gather.start t peers = .ok s0 ∧ Gather.run t me s0 es = .ok s ∧
        ∀ e, s.step t me e = .ok s) rounds left ∧
      left.countP (·.waiter) = rounds.length := by
  induction rounds with
  | nil => exact ⟨[], .nil, by simp⟩
  | cons es rounds ih =>
    obtain ⟨left, h1, h2⟩ := ih (fun es' h => hown es' (List.mem_cons_of_mem _ h)) (fun es' h => hfew es' (List.mem_cons_of_mem _ h))
    obtain ⟨s0, s, h0, hr, hq⟩ := C88_partial t me ht peers hnd es
    obtain ⟨hrest, hm⟩ := hown es (by simp) s0 s h0 hr
    have hw : s.waiter = true := by
      rw [← Bool.not_eq_false, (hq hrest).2.2]
      have := hfew es (by simp)
      rintro (h | h)
      · exact hm h
      · omega
    exact ⟨s :: left, .cons ⟨s0, h0, hr, hrest⟩ h1, by rw [List.countP_cons_of_pos hw, h2]; rfl⟩

/-- C88 for the second half of a round: once every call has ended and its deferred `Done` has run, the wait group is at
zero, so that the goroutine waiting for it ends too, also after a timeout. -/
theorem C88_sign_phase (t total me : Nat) (ps : List Nat) (hnd : ps.Nodup) (hlen : ps.length = t)
    (hps : ∀ p ∈ ps, 1 ≤ p ∧ p ≤ total) (es : List SignEv) :
    ∃ s0 s, SignPhase.start t total ps = .ok s0 ∧ SignPhase.run me s0 es = .ok s ∧
      (s.asked = [] → s.due = [] → s.counter = 0) := by
  obtain ⟨s0, h0, hi, _⟩ := phaseInv_start t total me ps hnd (by omega)
  obtain ⟨s, hr, h⟩ := phaseInv_run hps es [] s0 hi
  exact ⟨s0, s, h0, hr, fun h1 h2 => by rw [h.counter, h1, h2]; rfl⟩

/-- The round of a leader with threshold 2 whose two peers are down. -/
def downRound : List GatherEv := [.own true, .failed 2, .failed 3, .timeout]

/-- Concretely: a thousand requests while the peers are down leave a thousand goroutines behind, for ever. -/
example : ∃ left : List Gather, List.Forall₂ (fun es s => ∃ s0, Gather.start 2 [2, 3] = .ok s0 ∧ Gather.run 2 1 s0 es = .ok s ∧
      ∀ e, s.step 2 1 e = .ok s) (List.replicate 1000 downRound) left ∧ left.countP (·.waiter) = 1000 := by
  have hrest : AtRest 2 1 ⟨⟨[], 1, [], false⟩, [], .timedOut, true⟩ := by
    intro e
    cases e <;> simp [Gather.step, Gather.shareStep, Collect.step]
  obtain ⟨left, h1, h2⟩ := C88_fails 2 1 (by decide) [2, 3] (by decide) (List.replicate 1000 downRound)
    (by
      intro es hes s0 s h0 hr
      rw [(List.mem_replicate.1 hes).2] at hr
      have e0 : Gather.start ((2 : Nat) : Int) [2, 3] = .ok ⟨⟨[], 1, [], false⟩, [2, 3], .making, false⟩ := by decide
      rw [e0] at h0
      cases h0
      have e1 : Gather.run ((2 : Nat) : Int) 1 ⟨⟨[], 1, [], false⟩, [2, 3], .making, false⟩ downRound =
        .ok ⟨⟨[], 1, [], false⟩, [], .timedOut, true⟩ := by decide
      rw [e1] at hr
      cases hr
      exact ⟨hrest, by simp⟩)
    (by intro es hes; rw [(List.mem_replicate.1 hes).2]; decide)
  rw [List.length_replicate] at h2
  exact ⟨left, h1, h2⟩

/-- A round in which peer 3 answers leaves nothing behind, also if the main goroutine stops waiting too early. -/
example : ∃ s0 s, Gather.start 2 [2, 3] = .ok s0 ∧
    Gather.run 2 1 s0 [.own true, .failed 2, .timeout, .answered 3, .done 3, .woken] = .ok s ∧ s.waiter = false ∧ AtRest 2 1 s := by
  refine ⟨⟨⟨[], 1, [], false⟩, [2, 3], .making, false⟩, ⟨⟨[3], 0, [], false⟩, [], .timedOut, false⟩, by decide, by decide, by decide, ?_⟩
  intro e
  cases e <;> simp [Gather.step, Gather.shareStep, Collect.step]

end Horcrux
