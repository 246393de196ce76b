import Verif.Props.Whole
/-
C118: where a signing round can come to rest.
-/
namespace Horcrux
open Spec

/-- What the leader's own cosigner answered is not a crash; a failed round failed because of it; and a peer that is not asked
any more was taken in, or came too late, or its call failed. -/
structure OwnInv (R : RoundCfg) (es : List WholeEv) (s : Whole) : Prop where
  got : s.got R.me ≠ some .panic
  ans : s.ans R.me ≠ some .panic
  failed : s.first.main = .failed → ∃ e, s.got R.me = some (.err e)
  lost : ∀ p ∈ R.peers, p ∈ s.first.asked ∨ .first (.failed p) ∈ es ∨ p ∈ s.first.shared.joined ∨
    R.threshold - 1 ≤ s.first.shared.joined.length

theorem ownInv_gather {R : RoundCfg} {es : List WholeEv} {s : Whole} (h : OwnInv R es s) {e : GatherEv}
    (ha : s.allows1 R e = true) {g : Gather} (hs : s.first.step R.threshold R.me e = .ok g) :
    (g.main = .failed → ∃ x, s.got R.me = some (.err x)) ∧
    ∀ p ∈ R.peers, p ∈ g.asked ∨ .first (.failed p) ∈ es ++ [.first e] ∨ p ∈ g.shared.joined ∨
      R.threshold - 1 ≤ g.shared.joined.length := by
  have hl : ∀ g' : Gather, g'.asked = s.first.asked → (∀ p ∈ s.first.shared.joined, p ∈ g'.shared.joined) →
      s.first.shared.joined.length ≤ g'.shared.joined.length →
      ∀ p ∈ R.peers, p ∈ g'.asked ∨ .first (.failed p) ∈ es ++ [.first e] ∨ p ∈ g'.shared.joined ∨
        R.threshold - 1 ≤ g'.shared.joined.length := by
    intro g' h1 h2 h3 p hp
    rcases h.lost p hp with h' | h' | h' | h'
    · exact .inl (by rw [h1]; exact h')
    · exact .inr (.inl (List.mem_append_left _ h'))
    · exact .inr (.inr (.inl (h2 p h')))
    · exact .inr (.inr (.inr (by omega)))
  cases e with
  | failed q =>
    simp only [Gather.step] at hs
    split at hs
    · cases hs
      refine ⟨h.failed, fun p hp => ?_⟩
      rcases h.lost p hp with h' | h' | h' | h'
      · by_cases hpq : p = q
        · subst hpq; exact .inr (.inl (by simp))
        · exact .inl ((List.mem_erase_of_ne hpq).2 h')
      · exact .inr (.inl (List.mem_append_left _ h'))
      · exact .inr (.inr (.inl h'))
      · exact .inr (.inr (.inr h'))
    · cases hs; exact ⟨h.failed, hl _ rfl (fun _ h => h) (le_refl _)⟩
  | answered q =>
    simp only [Gather.step, Gather.shareStep, Collect.step] at hs
    split at hs
    · by_cases hroom : (s.first.shared.joined.length : Int) < R.threshold - 1
      · rw [if_pos hroom] at hs
        simp only [Out.ok.injEq] at hs
        subst hs
        refine ⟨h.failed, fun p hp => ?_⟩
        rcases h.lost p hp with h' | h' | h' | h'
        · by_cases hpq : p = q
          · subst hpq; exact .inr (.inr (.inl (by simp)))
          · exact .inl ((List.mem_erase_of_ne hpq).2 h')
        · exact .inr (.inl (List.mem_append_left _ h'))
        · exact .inr (.inr (.inl (List.mem_append_left _ h')))
        · omega
      · rw [if_neg hroom] at hs
        simp only [Out.ok.injEq] at hs
        subst hs
        exact ⟨h.failed, fun p hp => .inr (.inr (.inr (by simp only; omega)))⟩
    · cases hs; exact ⟨h.failed, hl _ rfl (fun _ h => h) (le_refl _)⟩
  | done q =>
    simp only [Gather.step, Gather.shareStep, Collect.step] at hs
    (repeat' split at hs) <;> (try cases hs)
    · rename_i h1
      split at h1
      · split at h1
        · cases h1
        · cases h1; exact ⟨h.failed, hl _ rfl (fun _ h => h) (le_refl _)⟩
      · cases h1; exact ⟨h.failed, hl _ rfl (fun _ h => h) (le_refl _)⟩
  | own ok =>
    simp only [Gather.step] at hs
    split at hs
    · split at hs
      · cases hs; exact ⟨by simp, hl _ rfl (fun _ h => h) (le_refl _)⟩
      · rename_i hok
        cases hs
        refine ⟨fun _ => ?_, hl _ rfl (fun _ h => h) (le_refl _)⟩
        simp only [Whole.allows1] at ha
        split at ha
        · exact absurd ha hok
        · rename_i x hx; exact ⟨x, hx⟩
        · cases ha
    · cases hs; exact ⟨h.failed, hl _ rfl (fun _ h => h) (le_refl _)⟩
  | woken =>
    simp only [Gather.step] at hs
    split at hs <;> (cases hs; exact ⟨h.failed, hl _ rfl (fun _ h => h) (le_refl _)⟩)
  | proceed =>
    simp only [Gather.step, Gather.shareStep, Collect.step] at hs
    split at hs
    · rename_i hc
      split at hs
      · rename_i c hcc
        cases hs
        split at hcc <;> cases hcc
        · exact ⟨by simp, hl _ rfl (fun _ h => List.mem_append_left _ h) (by simp)⟩
        · exact ⟨by simp, hl _ rfl (fun _ h => h) (le_refl _)⟩
      · cases hs
      · cases hs
    · cases hs; exact ⟨h.failed, hl _ rfl (fun _ h => h) (le_refl _)⟩
  | timeout =>
    simp only [Gather.step] at hs
    split at hs
    · cases hs; exact ⟨by simp, hl _ rfl (fun _ h => h) (le_refl _)⟩
    · cases hs; exact ⟨h.failed, hl _ rfl (fun _ h => h) (le_refl _)⟩

theorem ownInv_step {C : Crypto} {R : RoundCfg} {es : List WholeEv} {s s' : Whole} (h : OwnInv R es s) {e : WholeEv}
    (hs : s.step C R e = .ok s') : OwnInv R (es ++ [e]) s' := by
  have hlost : ∀ x, ∀ p ∈ R.peers, p ∈ s.first.asked ∨ .first (.failed p) ∈ es ++ [x] ∨ p ∈ s.first.shared.joined ∨
      R.threshold - 1 ≤ s.first.shared.joined.length := fun x p hp =>
    (h.lost p hp).imp_right (Or.imp_left (List.mem_append_left _))
  have same : ∀ x, OwnInv R (es ++ [x]) s := fun x => ⟨h.got, h.ans, h.failed, hlost x⟩
  cases e with
  | serveGet p =>
    simp only [Whole.step] at hs
    split at hs
    · rename_i hc
      split at hs
      · cases hs
      · rename_i hnp
        cases hs
        refine ⟨?_, h.ans, ?_, hlost _⟩
        · simp only
          split
          · rename_i hme
            intro hp
            exact hnp ⟨hme.symm, by simpa using hp⟩
          · exact h.got
        · intro hm
          obtain ⟨x, hx⟩ := h.failed hm
          refine ⟨x, ?_⟩
          simp only
          rw [if_neg]
          · exact hx
          · rintro rfl; rw [hx] at hc; exact absurd hc.2 (by simp)
    · cases hs; exact same _
  | first e =>
    simp only [Whole.step] at hs
    split at hs
    · rename_i ha
      split at hs
      · rename_i g hg
        cases hs
        obtain ⟨h1, h2⟩ := ownInv_gather h ha hg
        exact ⟨h.got, h.ans, h1, h2⟩
      · cases hs
      · cases hs
    · cases hs; exact same _
  | begin =>
    simp only [Whole.step] at hs
    split at hs
    · split at hs
      · cases hs; exact ⟨h.got, h.ans, h.failed, hlost _⟩
      · cases hs
      · cases hs
    · cases hs; exact same _
  | serveSign p ord =>
    simp only [Whole.step] at hs
    split at hs
    · split at hs
      · cases hs
      · rename_i hnp
        cases hs
        refine ⟨h.got, ?_, h.failed, hlost _⟩
        simp only
        split
        · rename_i hme
          intro hp
          exact hnp ⟨hme.symm, by simpa using hp⟩
        · exact h.ans
    · cases hs; exact same _
  | second e =>
    simp only [Whole.step] at hs
    split at hs
    · cases hs; exact same _
    · split at hs
      · split at hs
        · cases hs; exact ⟨h.got, h.ans, h.failed, hlost _⟩
        · cases hs
        · cases hs
      · cases hs; exact same _

theorem ownInv_run {C : Crypto} {R : RoundCfg} {es old : List WholeEv} {s s' : Whole} (h : OwnInv R old s)
    (hs : s.run C R es = .ok s') : OwnInv R (old ++ es) s' := by
  induction es generalizing old s with
  | nil => cases hs; rw [List.append_nil]; exact h
  | cons e es ih =>
    simp only [Whole.run] at hs
    split at hs
    · rename_i s1 h1
      have := ih (ownInv_step h h1) hs
      rwa [List.append_assoc] at this
    · cases hs
    · cases hs

/-- **C118.** Nothing gets stuck: a round in which nothing can happen any more, timeouts apart, is over, or it waits for peers
whose calls have all failed but for fewer than are needed. In particular the leader's own cosigner's answer always gets
through, and a peer's answer or failure never blocks the others. -/
theorem C118_rest (C : Crypto) (R : RoundCfg) (t : Nat) (ht : 1 ≤ t) (hR : R.threshold = t) (hnd : R.peers.Nodup)
    (hme : R.me ∉ R.peers) (hids : ∀ p, p = R.me ∨ p ∈ R.peers → 1 ≤ p ∧ p ≤ R.total) (st : Nat → CState)
    (es : List WholeEv) (s0 s : Whole) (h0 : Whole.start R st = .ok s0) (hr : s0.run C R es = .ok s)
    (hq : ∀ e, e ≠ .first .timeout → e ≠ .second .timeout → s.step C R e = .ok s) :
    (s.first.main = .failed ∧ ∃ e, (getParts C (R.cfg R.me) R.k (R.order R.me) (R.rnd1 R.me) (st R.me)).1 = .err e) ∨
    s.first.main = .timedOut ∨
    (s.first.main = .waiting ∧ s.first.shared.joined.length < t - 1 ∧
      ∀ p ∈ R.peers, p ∈ s.first.shared.joined ∨ .first (.failed p) ∈ es) ∨
    (s.first.main = .proceeded ∧ ∃ ph, s.second = some ph ∧ ph.ended ≠ none ∧ ph.asked = [] ∧ ph.due = []) := by
  obtain ⟨s0', h1, hi⟩ := wholeInv_start (C := C) ht hR hnd st
  rw [h0] at h1
  cases h1
  have ho : OwnInv R es s := by
    have h00 : OwnInv R [] s0 := by
      unfold Whole.start at h0
      split at h0
      · rename_i g hg
        cases h0
        unfold Gather.start at hg
        split at hg
        · cases hg
          exact ⟨by simp, by simp, by simp, fun p hp => .inl hp⟩
        · cases hg
        · cases hg
      · cases h0
      · cases h0
    have := ownInv_run h00 hr
    rwa [List.nil_append] at this
  rcases wholeInv_run ht hR hme hids es hi with ⟨s1, past1, past2, h2, h, -⟩ | ⟨h2, -⟩
  swap
  · rw [hr] at h2; cases h2
  rw [hr] at h2
  cases h2
  -- the first half at rest
  have q1 : ∀ e, e ≠ .timeout → s.allows1 R e = true → s.first.step R.threshold R.me e = .ok s.first := by
    intro e he ha
    have hq' := hq (.first e) (by simpa using he) (by simp)
    simp only [Whole.step, if_pos ha] at hq'
    split at hq'
    · rename_i g hg
      simp only [Out.ok.injEq] at hq'
      have : g = s.first := congrArg Whole.first hq'
      rw [hg, this]
    · cases hq'
    · cases hq'
  have hasked : s.first.asked = [] := by
    cases hl : s.first.asked with
    | nil => rfl
    | cons p l =>
      have := q1 (.failed p) (by simp) rfl
      simp only [Gather.step, hl, List.mem_cons, true_or, if_true, List.erase_cons_head, Out.ok.injEq] at this
      have := congrArg (fun x : Gather => x.asked.length) this
      simp [hl] at this
  have hdue : s.first.shared.due = [] := by
    cases hl : s.first.shared.due with
    | nil => rfl
    | cons p l =>
      have := q1 (.done p) (by simp) rfl
      simp only [Gather.step, Gather.shareStep, Collect.step, hl, List.mem_cons, true_or, if_true] at this
      split at this
      · next c hc =>
        split at hc
        · cases hc
        · simp only [Out.ok.injEq] at hc this
          subst hc
          have := congrArg (fun x : Gather => x.shared.due.length) this
          simp [hl] at this
      · cases this
      · cases this
  cases hm : s.first.main with
  | failed =>
    obtain ⟨e, he⟩ := ho.failed hm
    refine .inl ⟨rfl, e, ?_⟩
    have := h.got _ _ he
    rw [this]; rfl
  | timedOut => exact .inr (.inl rfl)
  | making =>
    exfalso
    cases hg : s.got R.me with
    | none =>
      have hq' := hq (.serveGet R.me) (by simp) (by simp)
      simp only [Whole.step, hg, true_or, and_self, if_true] at hq'
      split at hq'
      · cases hq'
      · simp only [Out.ok.injEq] at hq'
        have := congrFun (congrArg Whole.got hq') R.me
        simp [hg] at this
    | some r =>
      cases r with
      | ok l =>
        have := q1 (.own true) (by simp) (by simp [Whole.allows1, hg])
        simp only [Gather.step, hm, if_true, Out.ok.injEq] at this
        have := congrArg Gather.main this
        simp [hm] at this
      | err x =>
        have := q1 (.own false) (by simp) (by simp [Whole.allows1, hg])
        simp only [Gather.step, hm, if_true, Bool.false_eq_true, if_false, Out.ok.injEq] at this
        have := congrArg Gather.main this
        simp [hm] at this
      | panic => exact ho.got hg
  | waiting =>
    refine .inr (.inr (.inl ⟨rfl, ?_⟩))
    have hw : s.first.waiter = true := by
      cases hw : s.first.waiter with
      | true => rfl
      | false =>
        have := q1 .proceed (by simp) rfl
        simp only [Gather.step, hm, hw, and_self, if_true, Gather.shareStep] at this
        split at this
        · simp only [Out.ok.injEq] at this
          have := congrArg Gather.main this
          simp [hm] at this
        · cases this
        · cases this
    have hc : s.first.shared.counter ≠ 0 := by
      intro hc
      have := q1 .woken (by simp) rfl
      simp only [Gather.step, hw, hc, and_self, if_true, Out.ok.injEq] at this
      have := congrArg Gather.waiter this
      simp [hw] at this
    have hnp : s.first.shared.proceeded = false := by
      cases hp : s.first.shared.proceeded with
      | false => rfl
      | true => have := h.gather.late.1 hp; rw [hm] at this; cases this
    have hj := h.gather.shared.joined
    have hct := h.gather.shared.counter
    rw [hnp] at hj
    simp only [Bool.false_eq_true, if_false, List.append_nil] at hj
    rw [← hj, hdue] at hct
    have hle : s.first.shared.joined.length ≤ t - 1 := by rw [hj, List.length_take]; omega
    simp only [List.length_nil, Nat.cast_zero, add_zero] at hct
    have hlt : s.first.shared.joined.length < t - 1 := by omega
    refine ⟨hlt, fun p hp => ?_⟩
    rcases ho.lost p hp with h' | h' | h' | h'
    · rw [hasked] at h'; cases h'
    · exact .inr h'
    · exact .inl h'
    · rw [hR] at h'; omega
  | proceeded =>
    refine .inr (.inr (.inr ⟨rfl, ?_⟩))
    cases hsec : s.second with
    | none =>
      exfalso
      have hq' := hq .begin (by simp) (by simp)
      simp only [Whole.step, hm, hsec, and_self, if_true] at hq'
      split at hq'
      · simp only [Out.ok.injEq] at hq'
        have := congrArg Whole.second hq'
        simp [hsec] at this
      · cases hq'
      · cases hq'
    | some ph =>
      obtain ⟨_, hph⟩ := h.second ph hsec
      have q2 : ∀ e, e ≠ .timeout → s.allows2 R e = true → ph.step R.me e = .ok ph := by
        intro e he ha
        have hq' := hq (.second e) (by simp) (by simpa using he)
        simp only [Whole.step, hsec, if_pos ha] at hq'
        split at hq'
        · rename_i g hg
          simp only [Out.ok.injEq] at hq'
          have : some g = some ph := (congrArg Whole.second hq').trans hsec
          cases this
          exact hg
        · cases hq'
        · cases hq'
      have hfail : ∀ p ∈ ph.asked, s.allows2 R (.failed p) = true → False := by
        intro p hp ha
        have := q2 (.failed p) (by simp) ha
        simp only [SignPhase.step, if_pos hp, Out.ok.injEq] at this
        have := congrArg (fun x : SignPhase => x.due.length) this
        simp at this
      have hask2 : ph.asked = [] := by
        cases hl : ph.asked with
        | nil => rfl
        | cons p l =>
          exfalso
          have hp : p ∈ ph.asked := by rw [hl]; simp
          by_cases hpm : p = R.me
          · subst hpm
            cases ha : s.ans R.me with
            | none =>
              have hq' := hq (.serveSign R.me s.first.shared.joined) (by simp) (by simp)
              have hpj := ((hph.asked R.me).1 hp).1
              simp only [Whole.step] at hq'
              rw [if_pos ⟨by simp [hsec], hpj, List.Perm.refl _, ha⟩] at hq'
              split at hq'
              · cases hq'
              · simp only [Out.ok.injEq] at hq'
                have := congrFun (congrArg Whole.ans hq') R.me
                simp [ha] at this
            | some r =>
              cases r with
              | ok r =>
                have := q2 (.answered R.me r) (by simp) (by simp [Whole.allows2, ha])
                simp only [SignPhase.step, if_pos hp] at this
                split at this
                · cases this
                · simp only [Out.ok.injEq] at this
                  have := congrArg (fun x : SignPhase => x.due.length) this
                  simp at this
              | err x => exact hfail _ hp (by simp [Whole.allows2, ha])
              | panic => exact ho.ans ha
          · exact hfail p hp (by simp [Whole.allows2, hpm])
      have hdue2 : ph.due = [] := by
        cases hl : ph.due with
        | nil => rfl
        | cons p l =>
          exfalso
          have := q2 (.done p) (by simp) rfl
          simp only [SignPhase.step, hl, List.mem_cons, true_or, if_true] at this
          split at this
          · cases this
          · simp only [Out.ok.injEq] at this
            have := congrArg (fun x : SignPhase => x.due.length) this
            simp [hl] at this
      refine ⟨ph, rfl, fun hen => ?_, hask2, hdue2⟩
      have hc0 : ph.counter = 0 := by rw [hph.counter, hask2, hdue2]; rfl
      have := q2 .proceed (by simp) rfl
      simp only [SignPhase.step, hc0, hen, and_self, if_true, Out.ok.injEq] at this
      have := congrArg SignPhase.ended this
      simp [hen] at this

/-- Concretely: after the round `wholeEvs` nothing can happen any more. -/
example : ∃ s0 s, Whole.start wholeDemo (fun _ => CState.start .empty) = .ok s0 ∧ s0.run ftoy wholeDemo wholeEvs = .ok s ∧
    ∀ e, s.step ftoy wholeDemo e = .ok s := by
  have h : (match Whole.start wholeDemo (fun _ => CState.start .empty) with
      | .ok s0 => match s0.run ftoy wholeDemo wholeEvs with
        | .ok s => match s.second with
          | some ph => decide (ph.asked = [] ∧ ph.due = [] ∧ ph.ended = some true) &&
              decide (s.first.asked = [] ∧ s.first.shared.due = [] ∧ s.first.main = .proceeded ∧ s.first.waiter = false ∧
                s.first.shared.joined = [1, 3]) &&
              ((s.got 1).isSome && (s.got 2).isSome && (s.got 3).isSome && (s.ans 1).isSome && (s.ans 3).isSome)
          | none => false
        | _ => false
      | _ => false) = true := by decide +kernel
  split at h
  · next s0 h0 =>
    split at h
    · next s h1 =>
      split at h
      · next ph h2 =>
        simp only [Bool.and_eq_true, decide_eq_true_eq] at h
        obtain ⟨⟨⟨a1, a2, a3⟩, b1, b2, b3, b4, b5⟩, ⟨⟨⟨c1, c2⟩, c3⟩, c4⟩, c5⟩ := h
        refine ⟨s0, s, h0, h1, fun e => ?_⟩
        cases e with
        | serveGet p =>
          simp only [Whole.step]
          rw [if_neg]
          rintro ⟨hp, hg⟩
          simp only [wholeDemo, List.mem_cons, List.not_mem_nil, or_false] at hp
          rcases hp with rfl | rfl | rfl
          · rw [hg] at c3; cases c3
          · rw [hg] at c1; cases c1
          · rw [hg] at c2; cases c2
        | first e =>
          have hg : s.first.step wholeDemo.threshold wholeDemo.me e = .ok s.first := by
            cases hf : s.first with
            | mk sh asked main waiter =>
              rw [hf] at b1 b2 b3 b4
              simp only at b1 b2 b3 b4
              subst b1 b3 b4
              cases e <;> simp [Gather.step, Gather.shareStep, Collect.step, b2]
          simp only [Whole.step, hg]
          split <;> rfl
        | begin => simp [Whole.step, h2]
        | serveSign p ord =>
          simp only [Whole.step]
          rw [if_neg]
          rintro ⟨-, hp, -, hg⟩
          rw [b5] at hp
          simp only [List.mem_cons, List.not_mem_nil, or_false] at hp
          rcases hp with rfl | rfl
          · rw [hg] at c4; cases c4
          · rw [hg] at c5; cases c5
        | second e =>
          cases e <;> simp [Whole.step, h2, SignPhase.step, a1, a2, a3] <;> (intros; rw [← h2])
      · cases h
    · cases h
  · cases h

end Horcrux
